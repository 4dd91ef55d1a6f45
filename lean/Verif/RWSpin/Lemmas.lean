import Verif.RWSpin.Model
/-! The invariant of the spin lock. -/
namespace Verif.RWSpin
open Verif.Common

/-- The lock is held for writing (until the last step of a downgrade). -/
def Pc.isW : Pc → Bool | .wr | .wr2r | .wr2u => true | _ => false
/-- READER has been added for this thread. -/
def Pc.isR : Pc → Bool | .rd | .back | .wr2r => true | _ => false
def Pc.isRd : Pc → Bool | .rd => true | _ => false
def Pc.isU : Pc → Bool | .up => true | _ => false
def Pc.isWU : Pc → Bool | .wr2u => true | _ => false

/-- The thread holds the lock in some way. -/
def Pc.holds : Pc → Bool | .idle | .back => false | _ => true

def State.n (s : State) (p : Pc → Bool) : Nat := s.th.countP p

structure Inv (s : State) : Prop where
  len : s.th.length < 2 ^ 29
  bits : ∃ u, s.bits = 4 * s.n Pc.isR + 2 * u + s.n Pc.isW ∧
    (s.n Pc.isW = 0 ∧ u = s.n Pc.isU ∧ u ≤ 1 ∨
     s.n Pc.isW = 1 ∧ s.n Pc.isU = 0 ∧ s.n Pc.isRd = 0 ∧ s.n Pc.isWU ≤ u ∧ u ≤ 1)

theorem count_set {l : List Pc} {t : Nat} {p q : Pc} {f : Pc → Bool} (h : l[t]? = some p) :
    (l.set t q).countP f + (if f p then 1 else 0) = l.countP f + (if f q then 1 else 0) := by
  have ht := lt_of_get h
  have hp : l[t] = p := by rw [List.getElem?_eq_getElem ht] at h; simpa using h
  rw [List.countP_set ht, hp]
  have : (if f p then 1 else 0) ≤ l.countP f := by
    split
    · rename_i hf
      exact List.countP_pos_iff.2 ⟨p, by rw [← hp]; exact List.getElem_mem ht, hf⟩
    · exact Nat.zero_le _
  have e : (if f p = true then 1 else 0) = (if f p then 1 else 0) := rfl
  omega

theorem inv_step {s s1 : State} {a : Nat × Call} (h : Inv s) (e : step s a = some s1) : Inv s1 := by
  obtain ⟨t, c⟩ := a
  unfold step at e
  cases hp : s.th[t]? with
  | none => simp [hp] at e
  | some p =>
    simp only [hp, Option.map_eq_some_iff] at e
    obtain ⟨⟨b, q⟩, e1, e2⟩ := e
    obtain ⟨hl, u, hb, hu⟩ := h
    have hr := count_set (q := q) (f := Pc.isR) hp
    have hw := count_set (q := q) (f := Pc.isW) hp
    have hup := count_set (q := q) (f := Pc.isU) hp
    have hrd := count_set (q := q) (f := Pc.isRd) hp
    have hwu := count_set (q := q) (f := Pc.isWU) hp
    have l1 : s.th.countP Pc.isR ≤ s.th.length := List.countP_le_length
    have l2 : s.th.countP Pc.isRd ≤ s.th.countP Pc.isR :=
      List.countP_mono_left (by intro x _ hx; cases x <;> simp_all [Pc.isRd, Pc.isR])
    have l3 : s.th.countP Pc.isWU ≤ s.th.countP Pc.isW :=
      List.countP_mono_left (by intro x _ hx; cases x <;> simp_all [Pc.isWU, Pc.isW])
    have l4 : (s.th.set t q).countP Pc.isWU ≤ (s.th.set t q).countP Pc.isW :=
      List.countP_mono_left (by intro x _ hx; cases x <;> simp_all [Pc.isWU, Pc.isW])
    subst e2
    refine ⟨by simpa using hl, ?_⟩
    simp only [State.n] at hb hu ⊢
    cases p <;> cases c <;> (try (simp [stepPc] at e1; done)) <;>
      simp only [stepPc] at e1 <;> (try split at e1) <;>
      simp only [Option.some.injEq, Prod.mk.injEq] at e1 <;> obtain ⟨e1, e2⟩ := e1 <;>
      (try split at e2) <;> subst e2 <;> simp [Pc.isR, Pc.isW, Pc.isU, Pc.isRd, Pc.isWU] at hr hw hup hrd hwu <;>
      (try simp only [hb, add32, orU, clearWU] at e1) <;> (try split at e1) <;>
      first
        | exact ⟨0, by omega, by omega⟩
        | exact ⟨1, by omega, by omega⟩
        | exact ⟨u, by omega, by omega⟩

theorem inv_init {s : State} (h : Init s) : Inv s := by
  obtain ⟨h1, h2, h3⟩ := h
  have z : ∀ f : Pc → Bool, f .idle = false → s.n f = 0 := by
    intro f hf
    refine List.countP_eq_zero.2 fun p hp => ?_
    rw [h2 p hp, hf]; simp
  exact ⟨h3, 0, by rw [h1, z Pc.isR rfl, z Pc.isW rfl], .inl ⟨z _ rfl, (z _ rfl).symm, by omega⟩⟩

theorem inv_of {s : State} (h : Reachable Init step s) : Inv s :=
  h.invariant Inv (fun _ => inv_init) fun _ _ _ => inv_step

theorem pos_of {s : State} {i : Nat} {p : Pc} {f : Pc → Bool} (h : s.th[i]? = some p) (hf : f p = true) : 1 ≤ s.n f :=
  List.countP_pos_iff.2 ⟨p, List.mem_of_getElem? h, hf⟩

theorem zero_iff {s : State} {f : Pc → Bool} : s.n f = 0 ↔ ∀ p ∈ s.th, f p = false := by
  unfold State.n
  rw [List.countP_eq_zero]
  constructor <;> intro h p hp <;> have := h p hp <;> simpa using this

/-- Two threads counted. -/
theorem two_of {l : List Pc} {i j : Nat} {p q : Pc} {f : Pc → Bool} (hi : l[i]? = some p) (hj : l[j]? = some q)
    (hp : f p = true) (hq : f q = true) (hij : i ≠ j) : 2 ≤ l.countP f := by
  -- remove `i`, what is left still has `j`
  have hd : (l.eraseIdx i).countP f + 1 = l.countP f := by
    have hlt := lt_of_get hi
    have e : l = l.take i ++ p :: l.drop (i + 1) := by
      have : l[i] = p := by rw [List.getElem?_eq_getElem hlt] at hi; simpa using hi
      rw [← this, ← List.drop_eq_getElem_cons hlt, List.take_append_drop]
    conv => rhs; rw [e]
    rw [List.eraseIdx_eq_take_drop_succ, List.countP_append, List.countP_append, List.countP_cons, hp]
    simp; omega
  have : 1 ≤ (l.eraseIdx i).countP f := by
    refine List.countP_pos_iff.2 ⟨q, ?_, hq⟩
    rw [List.mem_eraseIdx_iff_getElem?]
    exact ⟨j, fun h => hij h.symm, hj⟩
  omega

end Verif.RWSpin
