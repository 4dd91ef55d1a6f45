import Verif.Mpmc.Model
namespace Verif.Mpmc
open Verif.Common
variable {α : Type}

/-- Position claimed by an enqueue that has not published its element yet. -/
def holdsE : Pc α → Option Nat
  | .eClaimed _ p => some p
  | .eBuilt _ p => some p
  | _ => none

/-- Position claimed by a dequeue that has not released its cell yet. -/
def holdsD : Pc α → Option Nat
  | .dClaimed p => some p
  | .dMoved _ p => some p
  | .dDestroyed _ p => some p
  | .sStored _ p => some p
  | _ => none

/-- Position a single consumer is removing, before it advances the dequeue position. -/
def holdsS : Pc α → Option Nat
  | .sReady p => some p
  | .sMoved _ p => some p
  | .sDestroyed _ p => some p
  | _ => none

def isD : Pc α → Bool
  | .dStart => true
  | .dLoaded _ => true
  | .dReady _ => true
  | .dClaimed _ => true
  | .dMoved _ _ => true
  | .dDestroyed _ _ => true
  | _ => false

def isS : Pc α → Bool
  | .sStart => true
  | .sLoaded _ => true
  | .sReady _ => true
  | .sMoved _ _ => true
  | .sDestroyed _ _ => true
  | .sStored _ _ => true
  | _ => false

/-- What each program counter guarantees. -/
def PcInv (s : State α) : Pc α → Prop
  | .idle => True
  | .eStart _ => True
  | .eLoaded _ p => p ≤ s.enqPos
  | .eReady _ p => p ≤ s.enqPos ∧ p ≤ s.seq (s.cell p)
  | .eClaimed x p => s.deqPos ≤ p ∧ p < s.enqPos ∧ s.seq (s.cell p) = p ∧ s.val (s.cell p) = none ∧
      s.enq[p]? = some x
  | .eBuilt x p => s.deqPos ≤ p ∧ p < s.enqPos ∧ s.seq (s.cell p) = p ∧ s.val (s.cell p) = some x ∧
      s.enq[p]? = some x
  | .dStart => True
  | .dLoaded p => p ≤ s.deqPos
  | .dReady p => p ≤ s.deqPos ∧ p + 1 ≤ s.seq (s.cell p)
  | .dClaimed p => p < s.deqPos ∧ s.enqPos ≤ p + s.cap ∧ s.seq (s.cell p) = p + 1 ∧
      (∃ v, s.val (s.cell p) = some v ∧ s.enq[p]? = some v)
  | .dMoved v p => p < s.deqPos ∧ s.enqPos ≤ p + s.cap ∧ s.seq (s.cell p) = p + 1 ∧
      s.val (s.cell p) = some v ∧ s.enq[p]? = some v
  | .dDestroyed v p => p < s.deqPos ∧ s.enqPos ≤ p + s.cap ∧ s.seq (s.cell p) = p + 1 ∧
      s.val (s.cell p) = none ∧ s.enq[p]? = some v
  | .sStart => True
  | .sLoaded p => p = s.deqPos
  | .sReady p => p = s.deqPos ∧ p < s.enqPos ∧ s.seq (s.cell p) = p + 1 ∧
      (∃ v, s.val (s.cell p) = some v ∧ s.enq[p]? = some v)
  | .sMoved v p => p = s.deqPos ∧ p < s.enqPos ∧ s.seq (s.cell p) = p + 1 ∧
      s.val (s.cell p) = some v ∧ s.enq[p]? = some v
  | .sDestroyed v p => p = s.deqPos ∧ p < s.enqPos ∧ s.seq (s.cell p) = p + 1 ∧
      s.val (s.cell p) = none ∧ s.enq[p]? = some v
  | .sStored v p => p < s.deqPos ∧ s.enqPos ≤ p + s.cap ∧ s.seq (s.cell p) = p + 1 ∧
      s.val (s.cell p) = none ∧ s.enq[p]? = some v

/-- Some thread's program counter satisfies `f pc = some p`. -/
def Held (s : State α) (f : Pc α → Option Nat) (p : Nat) : Prop :=
  ∃ (i : Nat) (pc : Pc α), s.th[i]? = some pc ∧ f pc = some p

/-- The cell of the next-round position `q` (`enqPos ≤ q < enqPos + cap`). -/
def CellInv (s : State α) (q : Nat) : Prop :=
  (q < s.deqPos + s.cap →
    (s.seq (s.cell q) = q ∧ s.val (s.cell q) = none) ∨
    (s.cap ≤ q ∧ s.seq (s.cell q) = q - s.cap + 1 ∧ Held s holdsD (q - s.cap))) ∧
  (s.deqPos + s.cap ≤ q →
    (s.seq (s.cell q) = q - s.cap ∧ Held s holdsE (q - s.cap)) ∨
    (s.seq (s.cell q) = q - s.cap + 1 ∧
      ((∃ v, s.val (s.cell q) = some v ∧ s.enq[q - s.cap]? = some v) ∨
       (q - s.cap = s.deqPos ∧ Held s holdsS (q - s.cap)))))

structure Inv (s : State α) : Prop where
  geo : ∃ k, 1 ≤ k ∧ s.mask = 2 ^ k - 1
  len : s.enq.length = s.enqPos
  le : s.deqPos ≤ s.enqPos
  le2 : s.enqPos ≤ s.deqPos + s.cap
  cells : ∀ q, s.enqPos ≤ q → q < s.enqPos + s.cap → CellInv s q
  pcs : ∀ (i : Nat) (pc : Pc α), s.th[i]? = some pc → PcInv s pc
  uniqE : ∀ (i j : Nat) (pi pj : Pc α) (p : Nat), s.th[i]? = some pi → s.th[j]? = some pj → holdsE pi = some p →
    holdsE pj = some p → i = j
  uniqD : ∀ (i j : Nat) (pi pj : Pc α) (p : Nat), s.th[i]? = some pi → s.th[j]? = some pj → holdsD pi = some p →
    holdsD pj = some p → i = j
  modeD : ∀ (i : Nat) (pc : Pc α), s.th[i]? = some pc → isD pc = true → s.sc = none
  modeS : ∀ (i : Nat) (pc : Pc α), s.th[i]? = some pc → isS pc = true → s.sc = some i
  gotOk : ∀ e ∈ s.got, e.1 < s.deqPos ∧ s.enq[e.1]? = some e.2
  gotNodup : (s.got.map (·.1)).Nodup
  gotHold : ∀ (i : Nat) (pc : Pc α) (p : Nat), s.th[i]? = some pc → holdsD pc = some p → p ∉ s.got.map (·.1)
  gotAll : ∀ p, p < s.deqPos → p ∈ s.got.map (·.1) ∨ Held s holdsD p
  bad : s.bad = false

theorem cap_ge {s : State α} (h : ∃ k, 1 ≤ k ∧ s.mask = 2 ^ k - 1) : 2 ≤ s.cap := by
  obtain ⟨k, hk, hm⟩ := h
  unfold State.cap
  have : 2 ^ 1 ≤ 2 ^ k := Nat.pow_le_pow_right (by decide) hk
  omega

theorem cell_eq {s : State α} (h : ∃ k, 1 ≤ k ∧ s.mask = 2 ^ k - 1) (p : Nat) : s.cell p = p % s.cap := by
  obtain ⟨k, hk, hm⟩ := h
  unfold State.cell State.cap
  have : 0 < 2 ^ k := Nat.pow_pos (by decide)
  rw [hm, Nat.and_two_pow_sub_one_eq_mod, show 2 ^ k - 1 + 1 = 2 ^ k by omega]

theorem cell_ne {s : State α} (h : ∃ k, 1 ≤ k ∧ s.mask = 2 ^ k - 1) {p q : Nat} (hne : p ≠ q)
    (h1 : p < q + s.cap) (h2 : q < p + s.cap) : s.cell p ≠ s.cell q := by
  rw [cell_eq h, cell_eq h]
  exact fun e => hne (mod_window e h1 h2)

theorem cell_add {s : State α} (h : ∃ k, 1 ≤ k ∧ s.mask = 2 ^ k - 1) (p : Nat) :
    s.cell (p + s.cap) = s.cell p := by
  rw [cell_eq h, cell_eq h, Nat.add_mod_right]

/-- Position whose cell a program counter owns. -/
def owns (pc : Pc α) : Option Nat := (holdsE pc).or ((holdsD pc).or (holdsS pc))

/-- Owned positions lie in the window of the last `cap` claimed positions. -/
theorem owns_window {s : State α} {pc : Pc α} {p : Nat} (h : PcInv s pc)
    (hl1 : s.enqPos ≤ s.deqPos + s.cap) (hl2 : s.deqPos ≤ s.enqPos) (ho : owns pc = some p) :
    p < s.enqPos ∧ s.enqPos ≤ p + s.cap := by
  cases pc <;> simp [owns, holdsE, holdsD, holdsS] at ho <;> subst ho <;> simp only [PcInv] at h <;> omega

/-- A program counter's guarantee survives other threads' steps. -/
theorem pc_frame {s s' : State α} {pc : Pc α} (h : PcInv s pc)
    (hm : s'.mask = s.mask) (hE : s.enqPos ≤ s'.enqPos) (hD : s.deqPos ≤ s'.deqPos)
    (hseq : ∀ c, s.seq c ≤ s'.seq c)
    (hown : ∀ p, owns pc = some p → s'.seq (s.cell p) = s.seq (s.cell p) ∧ s'.val (s.cell p) = s.val (s.cell p))
    (henq : ∀ (p : Nat) (v : α), s.enq[p]? = some v → s'.enq[p]? = some v)
    (hEl : ∀ p, holdsE pc = some p → s'.deqPos ≤ p)
    (hDl : ∀ p, holdsD pc = some p → s'.enqPos ≤ p + s.cap)
    (hS : isS pc = true → s'.deqPos = s.deqPos) : PcInv s' pc := by
  have hc : ∀ p, s'.cell p = s.cell p := by intro p; simp [State.cell, hm]
  have hcap : s'.cap = s.cap := by simp [State.cap, hm]
  cases pc with
  | idle | eStart | dStart | sStart => exact trivial
  | eLoaded x p => simp only [PcInv] at h ⊢; omega
  | eReady x p => simp only [PcInv, hc] at h ⊢; exact ⟨by omega, Nat.le_trans h.2 (hseq _)⟩
  | dLoaded p => simp only [PcInv] at h ⊢; omega
  | dReady p => simp only [PcInv, hc] at h ⊢; exact ⟨by omega, Nat.le_trans h.2 (hseq _)⟩
  | eClaimed x p | eBuilt x p =>
    simp only [PcInv, hc] at h ⊢
    obtain ⟨h1, h2⟩ := hown p rfl
    have h3 := hEl p rfl
    rw [h1, h2]
    exact ⟨h3, by omega, h.2.2.1, h.2.2.2.1, henq _ _ h.2.2.2.2⟩
  | dClaimed p =>
    simp only [PcInv, hc, hcap] at h ⊢
    obtain ⟨h1, h2⟩ := hown p rfl
    have h3 := hDl p rfl
    rw [h1, h2]
    obtain ⟨a, b, c, v, d, e⟩ := h
    exact ⟨by omega, h3, c, v, d, henq _ _ e⟩
  | dMoved v p | dDestroyed v p | sStored v p =>
    simp only [PcInv, hc, hcap] at h ⊢
    obtain ⟨h1, h2⟩ := hown p rfl
    have h3 := hDl p rfl
    rw [h1, h2]
    exact ⟨by omega, h3, h.2.2.1, h.2.2.2.1, henq _ _ h.2.2.2.2⟩
  | sLoaded p => simp only [PcInv] at h ⊢; rw [hS rfl]; exact h
  | sReady p =>
    simp only [PcInv, hc] at h ⊢
    obtain ⟨h1, h2⟩ := hown p rfl
    rw [h1, h2, hS rfl]
    obtain ⟨a, b, c, v, d, e⟩ := h
    exact ⟨a, by omega, c, v, d, henq _ _ e⟩
  | sMoved v p | sDestroyed v p =>
    simp only [PcInv, hc] at h ⊢
    obtain ⟨h1, h2⟩ := hown p rfl
    rw [h1, h2, hS rfl]
    exact ⟨h.1, by omega, h.2.2.1, h.2.2.2.1, henq _ _ h.2.2.2.2⟩

/-- Holders survive a change of one thread's program counter if that thread keeps its hold. -/
theorem held_set {s s' : State α} {f : Pc α → Option Nat} {p t : Nat} {pc pc' : Pc α}
    (ht : s.th[t]? = some pc) (hth : s'.th = s.th.set t pc') (hk : f pc = some p → f pc' = some p)
    (h : Held s f p) : Held s' f p := by
  obtain ⟨i, pi, hi, hf⟩ := h
  by_cases e : i = t
  · subst e
    rw [ht] at hi
    simp only [Option.some.injEq] at hi
    subst hi
    exact ⟨i, pc', by rw [hth, List.getElem?_set_self (lt_of_get ht)], hk hf⟩
  · exact ⟨i, pi, by rw [hth, List.getElem?_set_ne (fun c => e c.symm)]; exact hi, hf⟩

end Verif.Mpmc
