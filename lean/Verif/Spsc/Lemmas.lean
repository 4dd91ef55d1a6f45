import Verif.Spsc.Model
namespace Verif.Spsc
open Verif.Common
variable {α : Type}

theorem next_mod {size n : Nat} (h : 2 ≤ size) : next size (n % size) = (n + 1) % size := by
  unfold next
  have hlt := Nat.mod_lt n (show 0 < size by omega)
  rw [Nat.add_mod, Nat.mod_eq_of_lt (show 1 < size by omega)]
  split
  · rename_i h1; rw [h1, Nat.mod_self]
  · rw [Nat.mod_eq_of_lt (a := n % size + 1) (by omega)]

/-- What the producer's program counter says. -/
def PInv (s : State α) : Prop :=
  match s.prod with
  | .idle => True
  | .loaded _ cur => cur = s.w
  | .space _ cur nxt => cur = s.w ∧ nxt = next s.size s.w ∧
      s.written.length < s.taken.length + (s.size - 1)
  | .built _ nxt => nxt = next s.size s.w ∧ s.written.length < s.taken.length + (s.size - 1)

/-- A record is available and it is `v`. -/
def Avail (s : State α) : Prop := s.taken.length < s.written.length

def CInv (s : State α) : Prop :=
  match s.cons with
  | .idle => True
  | .rLoaded cur => cur = s.r
  | .rAvail cur nxt => cur = s.r ∧ nxt = next s.size s.r ∧ Avail s
  | .rMoved v cur nxt => cur = s.r ∧ nxt = next s.size s.r ∧ s.written[s.taken.length]? = some v
  | .rDestroyed v nxt => nxt = next s.size s.r ∧ s.written[s.taken.length]? = some v
  | .fLoaded cur => cur = s.r
  | .holding cur => cur = s.r ∧ Avail s
  | .pLoaded v cur nxt => cur = s.r ∧ nxt = next s.size s.r ∧ s.written[s.taken.length]? = some v
  | .pDestroyed v nxt => nxt = next s.size s.r ∧ s.written[s.taken.length]? = some v

/-- The consumer has destroyed the front record but not yet advanced the read index. -/
def CPc.gone : CPc α → Bool
  | .rDestroyed _ _ => true
  | .pDestroyed _ _ => true
  | _ => false

def PPc.builtVal : PPc α → Option α
  | .built x _ => some x
  | _ => none

/-- Contents of the slot that position `k` maps to, for `taken ≤ k < taken + size`. -/
def SlotAt (s : State α) (k : Nat) : Option α :=
  if k = s.taken.length ∧ s.cons.gone then none
  else if k < s.written.length then s.written[k]?
  else if k = s.written.length then s.prod.builtVal
  else none

structure Inv (s : State α) : Prop where
  size2 : 2 ≤ s.size
  r : s.r = s.taken.length % s.size
  w : s.w = s.written.length % s.size
  le : s.taken.length ≤ s.written.length
  cap : s.written.length ≤ s.taken.length + (s.size - 1)
  pre : s.written.take s.taken.length = s.taken
  p : PInv s
  c : CInv s
  bad : s.bad = false
  slots : ∀ k, s.taken.length ≤ k → k < s.taken.length + s.size → s.slots (k % s.size) = SlotAt s k

theorem inv_init {s : State α} (h : Init s) : Inv s := by
  obtain ⟨size, h2, rfl⟩ := h
  constructor <;> simp [PInv, CInv, SlotAt, PPc.builtVal, CPc.gone]
  exact h2

theorem mod_ne {n a b : Nat} (h : a ≠ b) (h1 : a < b + n) (h2 : b < a + n) : a % n ≠ b % n :=
  fun he => h (mod_window he h1 h2)

/-- Test "next write index equals read index" iff full. -/
theorem full_iff {s : State α} (h : Inv s) :
    next s.size s.w = s.r ↔ s.written.length = s.taken.length + (s.size - 1) := by
  have h2 := h.size2; have hc := h.cap; have hl := h.le
  rw [h.w, h.r, next_mod h2]
  constructor
  · intro he
    have := mod_window (n := s.size) (a := s.written.length + 1) (b := s.taken.length + s.size)
      (by rw [Nat.add_mod_right]; exact he) (by omega) (by omega)
    omega
  · intro he
    rw [he, show s.taken.length + (s.size - 1) + 1 = s.taken.length + s.size by omega,
      Nat.add_mod_right]

theorem empty_iff {s : State α} (h : Inv s) : s.r = s.w ↔ s.written.length = s.taken.length := by
  have h2 := h.size2; have hc := h.cap; have hl := h.le
  rw [h.w, h.r]
  constructor
  · intro he; exact (mod_window he (by omega) (by omega)).symm
  · intro he; rw [he]

theorem slot_front {s : State α} (h : Inv s) (hne : s.taken.length < s.written.length)
    (hg : s.cons.gone = false) : s.slots s.r = s.written[s.taken.length]? := by
  have h2 := h.size2
  rw [h.r, h.slots _ (Nat.le_refl _) (by omega)]
  simp [SlotAt, hg, hne]

theorem slot_back {s : State α} (h : Inv s) (hb : s.prod.builtVal = none) : s.slots s.w = none := by
  have h2 := h.size2; have hc := h.cap; have hl := h.le
  rw [h.w, h.slots _ hl (by omega)]
  unfold SlotAt
  split
  · rfl
  · simp [hb]

theorem inv_write {s s' : State α} {x : α} (h : Inv s) (hs : step s (.write x) = some s') : Inv s' := by
  obtain ⟨size2, r, w, le, cap, pre, p, c, bad, slots⟩ := h
  unfold step at hs
  simp only at hs
  split at hs
  · rename_i hp
    simp only [Option.some.injEq] at hs
    subst hs
    exact ⟨size2, r, w, le, cap, pre, rfl, c, bad, fun k h1 h2 => by
      rw [slots k h1 h2]; simp [SlotAt, hp, PPc.builtVal]⟩
  · simp at hs

theorem inv_p {s s' : State α} (h : Inv s) (hs : step s .p = some s') : Inv s' := by
  have hfull := full_iff h
  have hback := slot_back h
  obtain ⟨size2, r, w, le, cap, pre, p, c, bad, slots⟩ := h
  unfold step at hs
  simp only at hs
  cases hp : s.prod with
  | idle => simp [hp] at hs
  | loaded x cur =>
    simp only [hp] at hs
    simp only [PInv, hp] at p
    subst p
    split at hs
    · rename_i hne
      simp only [Option.some.injEq] at hs
      subst hs
      refine ⟨size2, r, w, le, cap, pre, ⟨rfl, rfl, ?_⟩, c, bad, fun k h1 h2 => ?_⟩
      · have : s.written.length ≠ s.taken.length + (s.size - 1) := fun e => hne (hfull.mpr e)
        simp only; omega
      · rw [slots k h1 h2]; simp [SlotAt, hp, PPc.builtVal]
    · simp only [Option.some.injEq] at hs
      subst hs
      exact ⟨size2, r, w, le, cap, pre, trivial, c, bad, fun k h1 h2 => by
        rw [slots k h1 h2]; simp [SlotAt, hp, PPc.builtVal]⟩
  | space x cur nxt =>
    simp only [hp, Option.some.injEq] at hs
    simp only [PInv, hp] at p
    obtain ⟨rfl, rfl, hlt⟩ := p
    subst hs
    rw [hp] at hback
    have hb := hback rfl
    refine ⟨size2, r, w, le, cap, pre, ⟨rfl, hlt⟩, c, ?_, fun k h1 h2 => ?_⟩
    · have : s.w < s.size := by rw [w]; exact Nat.mod_lt _ (by omega)
      simp [bad, hb, this]
    · simp only at h1 h2 ⊢
      by_cases hk : k = s.written.length
      · subst hk
        rw [← w, upd_same]
        unfold SlotAt
        simp only
        by_cases hg : s.written.length = s.taken.length ∧ s.cons.gone = true
        · exfalso
          obtain ⟨e, hg⟩ := hg
          cases hcc : s.cons <;> simp only [hcc, CPc.gone, Bool.false_eq_true] at hg
          all_goals
            simp only [CInv, hcc] at c
            have := c.2
            rw [← e] at this
            simp at this
        · rw [if_neg hg]; simp [PPc.builtVal]
      · rw [w, upd_ne _ _ (mod_ne hk (by omega) (by omega)), slots k h1 h2]
        simp [SlotAt, hk]
  | built x nxt =>
    simp only [hp, Option.some.injEq] at hs
    simp only [PInv, hp] at p
    obtain ⟨rfl, hlt⟩ := p
    subst hs
    refine ⟨size2, r, ?_, ?_, ?_, ?_, trivial, ?_, bad, fun k h1 h2 => ?_⟩
    · simp only [List.length_append, List.length_singleton]; rw [w, next_mod size2]
    · simp only [List.length_append, List.length_singleton]; omega
    · simp only [List.length_append, List.length_singleton]; omega
    · simp only; rw [List.take_append_of_le_length le]; exact pre
    · unfold CInv at c ⊢
      have aux : ∀ v, s.written[s.taken.length]? = some v →
          (s.written ++ [x])[s.taken.length]? = some v := by
        intro v hv
        have : s.taken.length < s.written.length := by
          rcases Nat.lt_or_ge s.taken.length s.written.length with h | h
          · exact h
          · rw [List.getElem?_eq_none h] at hv; simp at hv
        rw [List.getElem?_append_left this]; exact hv
      have aux2 : Avail s → s.taken.length < (s.written ++ [x]).length := by
        unfold Avail; simp only [List.length_append, List.length_singleton]; omega
      cases hcc : s.cons <;> simp only [hcc] at c ⊢
      · exact c
      · exact ⟨c.1, c.2.1, aux2 c.2.2⟩
      · exact ⟨c.1, c.2.1, aux _ c.2.2⟩
      · exact ⟨c.1, aux _ c.2⟩
      · exact c
      · exact ⟨c.1, aux2 c.2⟩
      · exact ⟨c.1, c.2.1, aux _ c.2.2⟩
      · exact ⟨c.1, aux _ c.2⟩
    · simp only at h1 h2 ⊢
      rw [slots k h1 h2]
      unfold SlotAt
      simp only [hp, PPc.builtVal, List.length_append, List.length_singleton]
      split
      · rfl
      · by_cases h3 : k < s.written.length
        · rw [if_pos h3, if_pos (by omega), List.getElem?_append_left h3]
        · rw [if_neg h3]
          by_cases h4 : k = s.written.length
          · subst h4; simp
          · rw [if_neg h4, if_neg (by omega)]; simp

theorem inv_cstart {s s' : State α} {a : Act α} (h : Inv s) (ha : a = .read ∨ a = .front ∨ a = .drop)
    (hs : step s a = some s') : Inv s' := by
  obtain ⟨size2, r, w, le, cap, pre, p, c, bad, slots⟩ := h
  rcases ha with rfl | rfl | rfl <;> unfold step at hs <;> simp only at hs <;> split at hs <;>
    first
    | (simp at hs; done)
    | (rename_i hc
       simp only [Option.some.injEq] at hs
       subst hs
       exact ⟨size2, r, w, le, cap, pre, p, by simp [CInv], bad, fun k h1 h2 => by
         rw [slots k h1 h2]; simp [SlotAt, hc, CPc.gone]⟩)

theorem inv_pop {s s' : State α} (h : Inv s) (hs : step s .pop = some s') : Inv s' := by
  have hfront := slot_front h
  obtain ⟨size2, r, w, le, cap, pre, p, c, bad, slots⟩ := h
  unfold step at hs
  simp only at hs
  split at hs
  · rename_i cur hc
    simp only [CInv, hc] at c
    have hf := hfront c.2 (by rw [hc]; rfl)
    rw [hf, List.getElem?_eq_getElem c.2] at hs
    simp only [Option.some.injEq] at hs
    subst hs
    refine ⟨size2, r, w, le, cap, pre, p, ?_, bad, fun k h1 h2 => by
      rw [slots k h1 h2]; simp [SlotAt, hc, CPc.gone]⟩
    simp only [CInv]
    exact ⟨trivial, trivial, List.getElem?_eq_getElem c.2⟩
  · simp at hs

theorem lt_of_get {l : List α} {i : Nat} {v : α} (h : l[i]? = some v) : i < l.length := by
  rcases Nat.lt_or_ge i l.length with h1 | h1
  · exact h1
  · rw [List.getElem?_eq_none h1] at h; simp at h

/-- Destroying the front record. -/
theorem inv_destroy {s : State α} {cc : CPc α} {v : α} {nxt : Nat} (h : Inv s)
    (hg : s.cons.gone = false) (hv : s.written[s.taken.length]? = some v)
    (hn : nxt = next s.size s.r) (hcc : cc = .rDestroyed v nxt ∨ cc = .pDestroyed v nxt) :
    Inv { s with cons := cc, slots := upd s.slots s.r none, ev := .none,
                 bad := s.bad || (s.slots s.r).isNone } := by
  have hf := slot_front h (lt_of_get hv) hg
  obtain ⟨size2, r, w, le, cap, pre, p, c, bad, slots⟩ := h
  refine ⟨size2, r, w, le, cap, pre, p, ?_, ?_, fun k h1 h2 => ?_⟩
  · rcases hcc with rfl | rfl <;> exact ⟨hn, hv⟩
  · simp only [bad, hf, hv]; rfl
  · simp only at h1 h2 ⊢
    have hgone : cc.gone = true := by rcases hcc with rfl | rfl <;> rfl
    by_cases hk : k = s.taken.length
    · subst hk
      rw [r, upd_same]; simp [SlotAt, hgone]
    · rw [r, upd_ne _ _ (mod_ne hk (by omega) (by omega)), slots k h1 h2]
      simp [SlotAt, hk]

/-- Advancing the read index. -/
theorem inv_advance {s : State α} {ev : Event α} {v : α} {nxt : Nat} (h : Inv s)
    (hg : s.cons.gone = true) (hv : s.written[s.taken.length]? = some v)
    (hn : nxt = next s.size s.r) :
    Inv { s with cons := .idle, r := nxt, taken := s.taken ++ [v], ev := ev } := by
  have hlt := lt_of_get hv
  obtain ⟨size2, r, w, le, cap, pre, p, c, bad, slots⟩ := h
  refine ⟨size2, ?_, w, ?_, ?_, ?_, ?_, trivial, bad, fun k h1 h2 => ?_⟩
  · simp only [List.length_append, List.length_singleton]; rw [hn, r, next_mod size2]
  · simp only [List.length_append, List.length_singleton]; omega
  · simp only [List.length_append, List.length_singleton]; omega
  · simp only [List.length_append, List.length_singleton]
    rw [List.take_add_one, pre, hv]; rfl
  · unfold PInv at p ⊢
    simp only [List.length_append, List.length_singleton]
    cases hp : s.prod <;> simp only [hp] at p ⊢
    · exact p
    · exact ⟨p.1, p.2.1, by omega⟩
    · exact ⟨p.1, by omega⟩
  · simp only [List.length_append, List.length_singleton] at h1 h2 ⊢
    by_cases hk : k < s.taken.length + s.size
    · rw [slots k (by omega) hk]
      unfold SlotAt
      have e1 : ¬ (k = s.taken.length ∧ s.cons.gone = true) := fun hh => by have := hh.1; omega
      rw [if_neg e1]
      simp [CPc.gone]
    · have : k = s.taken.length + s.size := by omega
      subst this
      rw [Nat.add_mod_right, slots _ (Nat.le_refl _) (by omega)]
      unfold SlotAt
      rw [if_pos ⟨rfl, hg⟩]
      have e2 : ¬ (s.taken.length + s.size < s.written.length) := by omega
      have e3 : ¬ (s.taken.length + s.size = s.written.length) := by omega
      simp [CPc.gone, e2, e3]

theorem inv_c {s s' : State α} (h : Inv s) (hs : step s .c = some s') : Inv s' := by
  have hfront := slot_front h
  have hempty := empty_iff h
  have hinv := h
  obtain ⟨size2, r, w, le, cap, pre, p, c, bad, slots⟩ := h
  unfold step at hs
  simp only at hs
  cases hc : s.cons with
  | idle => simp [hc] at hs
  | holding => simp [hc] at hs
  | rLoaded cur =>
    simp only [hc] at hs
    simp only [CInv, hc] at c
    subst c
    split at hs <;> simp only [Option.some.injEq] at hs <;> subst hs
    · exact ⟨size2, r, w, le, cap, pre, p, trivial, bad, fun k h1 h2 => by
        rw [slots k h1 h2]; simp [SlotAt, hc, CPc.gone]⟩
    · rename_i hne
      refine ⟨size2, r, w, le, cap, pre, p, ⟨rfl, rfl, ?_⟩, bad, fun k h1 h2 => by
        rw [slots k h1 h2]; simp [SlotAt, hc, CPc.gone]⟩
      have : s.written.length ≠ s.taken.length := fun e => hne (hempty.mpr e)
      simp only [Avail]; omega
  | fLoaded cur =>
    simp only [hc] at hs
    simp only [CInv, hc] at c
    subst c
    split at hs <;> simp only [Option.some.injEq] at hs <;> subst hs
    · exact ⟨size2, r, w, le, cap, pre, p, trivial, bad, fun k h1 h2 => by
        rw [slots k h1 h2]; simp [SlotAt, hc, CPc.gone]⟩
    · rename_i hne
      refine ⟨size2, r, w, le, cap, pre, p, ⟨rfl, ?_⟩, bad, fun k h1 h2 => by
        rw [slots k h1 h2]; simp [SlotAt, hc, CPc.gone]⟩
      have : s.written.length ≠ s.taken.length := fun e => hne (hempty.mpr e)
      simp only [Avail]; omega
  | rAvail cur nxt =>
    simp only [hc] at hs
    simp only [CInv, hc] at c
    obtain ⟨rfl, rfl, hav⟩ := c
    have hf := hfront hav (by rw [hc]; rfl)
    rw [hf, List.getElem?_eq_getElem hav] at hs
    simp only [Option.some.injEq] at hs
    subst hs
    refine ⟨size2, r, w, le, cap, pre, p, ?_, bad, fun k h1 h2 => by
      rw [slots k h1 h2]; simp [SlotAt, hc, CPc.gone]⟩
    simp only [CInv]
    exact ⟨trivial, trivial, List.getElem?_eq_getElem hav⟩
  | rMoved v cur nxt =>
    simp only [hc, Option.some.injEq] at hs
    simp only [CInv, hc] at c
    obtain ⟨rfl, hn, hv⟩ := c
    subst hs
    exact inv_destroy hinv (by rw [hc]; rfl) hv hn (Or.inl rfl)
  | pLoaded v cur nxt =>
    simp only [hc, Option.some.injEq] at hs
    simp only [CInv, hc] at c
    obtain ⟨rfl, hn, hv⟩ := c
    subst hs
    exact inv_destroy hinv (by rw [hc]; rfl) hv hn (Or.inr rfl)
  | rDestroyed v nxt =>
    simp only [hc, Option.some.injEq] at hs
    simp only [CInv, hc] at c
    subst hs
    exact inv_advance hinv (by rw [hc]; rfl) c.2 c.1
  | pDestroyed v nxt =>
    simp only [hc, Option.some.injEq] at hs
    simp only [CInv, hc] at c
    subst hs
    exact inv_advance hinv (by rw [hc]; rfl) c.2 c.1

theorem inv_reach {s : State α} (h : Reachable Init step s) : Inv s :=
  Reachable.invariant Inv (fun _ => inv_init) (fun s a s' hI hs => by
    cases a with
    | write x => exact inv_write hI hs
    | p => exact inv_p hI hs
    | read => exact inv_cstart hI (Or.inl rfl) hs
    | front => exact inv_cstart hI (Or.inr (Or.inl rfl)) hs
    | drop => exact inv_cstart hI (Or.inr (Or.inr rfl)) hs
    | pop => exact inv_pop hI hs
    | c => exact inv_c hI hs) h

end Verif.Spsc
