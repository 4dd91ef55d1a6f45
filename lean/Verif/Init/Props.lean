import Verif.Init.Spec
/-!
# C115: module initializers
-/
namespace Verif.Init
open Common

theorem globalList_eq (regs : List Node) : globalList regs = regs.reverse := by
  have : ∀ (l acc : List Node), l.foldl register acc = l.reverse ++ acc := by
    intro l
    induction l with
    | nil => intro acc; rfl
    | cons a l ih => intro acc; simp [List.foldl_cons, ih, register]
  simp [globalList, this]

/-- The thread holds a unit of the count. -/
def live : Phase → Bool
  | .ctor _ => true
  | .made => true
  | _ => false

def isC : Phase → Bool
  | .ctor _ => true
  | _ => false

theorem countP_set (p : Phase → Bool) : ∀ (l : List Phase) (i : Nat) (x y : Phase), l[i]? = some x →
    (l.set i y).countP p + (if p x then 1 else 0) = l.countP p + (if p y then 1 else 0)
  | [], i, x, y, h => by simp at h
  | a :: l, 0, x, y, h => by
    simp only [List.getElem?_cons_zero, Option.some.injEq] at h
    subst h
    simp only [List.set_cons_zero, List.countP_cons]
    omega
  | a :: l, i + 1, x, y, h => by
    simp only [List.getElem?_cons_succ] at h
    have := countP_set p l i x y h
    simp only [List.set_cons_succ, List.countP_cons]
    omega

theorem isC_le (l : List Phase) : l.countP isC ≤ l.countP live := by
  apply List.countP_mono_left
  intro x _ h
  cases x <;> simp_all [isC, live]

structure Inv (s : S) : Prop where
  cnt : s.count = (s.ths.countP live : Nat)
  one : s.ths.countP isC ≤ 1
  ok : s.failed = false

theorem inv_init (n : Nat) : Inv (init n) := by
  refine ⟨?_, ?_, rfl⟩
  · simp [init, List.countP_replicate, live]
  · simp [init, List.countP_replicate, isC]

theorem inv_step {gl : List Node} {s s' : S} {i : Nat} (I : Inv s) (h : step gl s i = some s') : Inv s' := by
  obtain ⟨h1, h2, h3⟩ := I
  have h4 := isC_le s.ths
  unfold step at h
  split at h
  · cases h
  · rename_i e
    cases h
    by_cases hc : s.count = 0
    · have a := countP_set live s.ths i _ (.ctor gl) e
      have b := countP_set isC s.ths i _ (.ctor gl) e
      simp only [live, isC] at a b
      refine ⟨?_, ?_, h3⟩ <;> simp [hc] <;> simp at a b <;> omega
    · have a := countP_set live s.ths i _ .made e
      have b := countP_set isC s.ths i _ .made e
      simp only [live, isC] at a b
      refine ⟨?_, ?_, h3⟩ <;> simp [hc] <;> simp at a b <;> omega
  · rename_i e
    cases h
    have a := countP_set live s.ths i _ .made e
    have b := countP_set isC s.ths i _ .made e
    simp [live, isC] at a b
    refine ⟨?_, ?_, h3⟩ <;> simp <;> omega
  · rename_i n r e
    cases h
    have a := countP_set live s.ths i _ (.ctor r) e
    have b := countP_set isC s.ths i _ (.ctor r) e
    simp [live, isC] at a b
    refine ⟨?_, ?_, h3⟩ <;> simp <;> omega
  · rename_i e
    cases h
    by_cases hc : 1 < s.count
    · have a := countP_set live s.ths i _ .gone e
      have b := countP_set isC s.ths i _ .gone e
      simp [live, isC] at a b
      refine ⟨?_, ?_, ?_⟩ <;> simp [hc, h3] <;> omega
    · have a := countP_set live s.ths i _ (.dtor gl) e
      have b := countP_set isC s.ths i _ (.dtor gl) e
      simp [live, isC] at a b
      refine ⟨?_, ?_, ?_⟩ <;> simp [hc, h3] <;> omega
  · rename_i e
    cases h
    have a := countP_set live s.ths i _ .gone e
    have b := countP_set isC s.ths i _ .gone e
    simp [live, isC] at a b
    refine ⟨?_, ?_, h3⟩ <;> simp <;> omega
  · rename_i n r e
    cases h
    have a := countP_set live s.ths i _ (.dtor r) e
    have b := countP_set isC s.ths i _ (.dtor r) e
    simp [live, isC] at a b
    refine ⟨?_, ?_, h3⟩ <;> simp <;> omega
  · cases h

/-- Whatever threads construct and destroy guards, no CHECK fails, and two threads never run the initializers at the same time. -/
theorem C115_concurrent {regs : List Node} {n : Nat} {s : S} (h : Reaches regs n s) :
    s.failed = false ∧ ∀ (i j : Nat) (r r' : List Node), s.ths[i]? = some (Phase.ctor r) → s.ths[j]? = some (Phase.ctor r') → i = j := by
  have I : Inv s := Reachable.invariant Inv (fun s hs => by subst hs; exact inv_init n) (fun s a s' I h => inv_step I h) h
  refine ⟨I.ok, ?_⟩
  intro i j r r' hi hj
  by_cases hij : i = j
  · exact hij
  exfalso
  have a := countP_set isC s.ths i _ .gone hi
  have hj' : (s.ths.set i .gone)[j]? = some (.ctor r') := by rw [List.getElem?_set_ne hij]; exact hj
  have b := countP_set isC (s.ths.set i .gone) j _ .gone hj'
  have := I.one
  simp [isC] at a b
  omega

/-! ## One at a time -/

theorem get_set {l : List Phase} {i : Nat} {x : Phase} (h : l[i]? = some x) (y : Phase) : (l.set i y)[i]? = some y := by
  have : i < l.length := by
    rcases Nat.lt_or_ge i l.length with h' | h'
    · exact h'
    · rw [List.getElem?_eq_none h'] at h; cases h
  rw [List.getElem?_set_self this]

theorem set_same : ∀ {l : List Phase} {i : Nat} {x : Phase}, l[i]? = some x → l.set i x = l
  | [], _, _, h => by simp at h
  | a :: l, 0, x, h => by simp at h; simp [h]
  | a :: l, i + 1, x, h => by simp at h; simp [set_same h]

theorem exec_succ (gl : List Node) (s t : S) (i k : Nat) (h : step gl s i = some t) :
    exec (step gl) s (List.replicate (k + 1) i) = exec (step gl) t (List.replicate k i) := by
  rw [List.replicate_succ, exec, h]

/-- What a loop logs, and where it ends. -/
theorem run_ctor (gl : List Node) (i : Nat) : ∀ (r : List Node) (s : S), s.ths[i]? = some (.ctor r) →
    exec (step gl) s (List.replicate (r.length + 1) i) = some { s with ths := s.ths.set i .made, log := s.log ++ (r.filter (fun n => n.isCtor)).map Node.id } ∧
    ∀ j, j ≤ r.length → ∃ r' l, exec (step gl) s (List.replicate j i) = some { s with ths := s.ths.set i (.ctor r'), log := l }
  | [], s, h => by
    refine ⟨?_, ?_⟩
    · rw [List.length_nil, exec_succ gl s _ i 0 (by rw [step, h])]
      simp [exec]
    · intro j hj
      obtain rfl : j = 0 := by simpa using hj
      refine ⟨[], s.log, ?_⟩
      simp only [List.replicate_zero, exec]
      rw [set_same h]
  | n :: r, s, h => by
    have st : step gl s i = some { s with ths := s.ths.set i (.ctor r), log := if n.isCtor = true then s.log ++ [n.id] else s.log } := by rw [step, h]
    obtain ⟨h1, h2⟩ := run_ctor gl i r { s with ths := s.ths.set i (.ctor r), log := if n.isCtor = true then s.log ++ [n.id] else s.log } (get_set h _)
    refine ⟨?_, ?_⟩
    · rw [List.length_cons, exec_succ gl s _ i _ st, h1]
      cases hn : n.isCtor <;> simp [hn]
    · intro j hj
      cases j with
      | zero =>
        refine ⟨n :: r, s.log, ?_⟩
        simp only [List.replicate_zero, exec]
        rw [set_same h]
      | succ j =>
        obtain ⟨r', l, e⟩ := h2 j (by simpa using hj)
        exact ⟨r', l, by rw [exec_succ gl s _ i _ st, e]; simp⟩

theorem run_dtor (gl : List Node) (i : Nat) : ∀ (r : List Node) (s : S), s.ths[i]? = some (.dtor r) →
    exec (step gl) s (List.replicate (r.length + 1) i) = some { s with ths := s.ths.set i .gone, log := s.log ++ (r.filter (fun n => !n.isCtor)).map Node.id } ∧
    ∀ j, j ≤ r.length → ∃ r' l, exec (step gl) s (List.replicate j i) = some { s with ths := s.ths.set i (.dtor r'), log := l }
  | [], s, h => by
    refine ⟨?_, ?_⟩
    · rw [List.length_nil, exec_succ gl s _ i 0 (by rw [step, h])]
      simp [exec]
    · intro j hj
      obtain rfl : j = 0 := by simpa using hj
      refine ⟨[], s.log, ?_⟩
      simp only [List.replicate_zero, exec]
      rw [set_same h]
  | n :: r, s, h => by
    have st : step gl s i = some { s with ths := s.ths.set i (.dtor r), log := if n.isCtor = false then s.log ++ [n.id] else s.log } := by rw [step, h]
    obtain ⟨h1, h2⟩ := run_dtor gl i r { s with ths := s.ths.set i (.dtor r), log := if n.isCtor = false then s.log ++ [n.id] else s.log } (get_set h _)
    refine ⟨?_, ?_⟩
    · rw [List.length_cons, exec_succ gl s _ i _ st, h1]
      cases hn : n.isCtor <;> simp [hn]
    · intro j hj
      cases j with
      | zero =>
        refine ⟨n :: r, s.log, ?_⟩
        simp only [List.replicate_zero, exec]
        rw [set_same h]
      | succ j =>
        obtain ⟨r', l, e⟩ := h2 j (by simpa using hj)
        exact ⟨r', l, by rw [exec_succ gl s _ i _ st, e]; simp⟩

/-- The constructor, alone. -/
theorem whole_ctor {regs : List Node} {s s' : S} {i : Nat} (hi : s.ths[i]? = some .idle) :
    Whole regs s i s' ↔ s' = { s with count := s.count + 1, ths := s.ths.set i .made, log := s.log ++ if s.count = 0 then inits regs else [] } := by
  by_cases hc : s.count = 0
  · have st : step (globalList regs) s i = some { s with count := s.count + 1, ths := s.ths.set i (.ctor (globalList regs)) } := by
      rw [step, hi]; simp [hc]
    obtain ⟨h1, h2⟩ := run_ctor (globalList regs) i (globalList regs) { s with count := s.count + 1, ths := s.ths.set i (.ctor (globalList regs)) } (get_set hi _)
    have fin : exec (step (globalList regs)) s (List.replicate ((globalList regs).length + 1 + 1) i)
        = some { s with count := s.count + 1, ths := s.ths.set i .made, log := s.log ++ inits regs } := by
      rw [exec_succ _ _ _ _ _ st, h1]
      simp only [List.set_set, inits, globalList_eq]
    have mid : ∀ j, 0 < j → j ≤ (globalList regs).length + 1 → ∀ t, exec (step (globalList regs)) s (List.replicate j i) = some t →
        ¬ (t.ths[i]? = some .made ∨ t.ths[i]? = some .gone) := by
      intro j h0 hj t ht
      obtain ⟨m, rfl⟩ : ∃ m, j = m + 1 := ⟨j - 1, by omega⟩
      rw [exec_succ _ _ _ _ _ st] at ht
      obtain ⟨r', l, e⟩ := h2 m (by omega)
      rw [e] at ht
      cases ht
      simp only [List.set_set]
      rw [get_set hi]
      simp
    rw [if_pos hc]
    constructor
    · rintro ⟨k, hk, hm, hmin⟩
      rcases Nat.lt_trichotomy k ((globalList regs).length + 1) with h | h | h
      · exact absurd hm (mid (k + 1) (by omega) (by omega) _ hk)
      · subst h; rw [fin] at hk; exact (Option.some.inj hk).symm
      · exact absurd (Or.inl (get_set hi _)) (hmin ((globalList regs).length + 1 + 1) (by omega) (by omega) _ fin)
    · rintro rfl
      exact ⟨_, fin, Or.inl (get_set hi _), mid⟩
  · have st : step (globalList regs) s i = some { s with count := s.count + 1, ths := s.ths.set i .made } := by
      rw [step, hi]; simp [hc]
    rw [if_neg hc, List.append_nil]
    constructor
    · rintro ⟨k, hk, hm, hmin⟩
      cases k with
      | zero => rw [exec_succ _ _ _ _ _ st] at hk; exact (Option.some.inj hk).symm
      | succ k => exact absurd (Or.inl (get_set hi _)) (hmin 1 (by omega) (by omega) _ (exec_succ _ _ _ _ 0 st))
    · rintro rfl
      exact ⟨0, exec_succ _ _ _ _ 0 st, Or.inl (get_set hi _), fun j h0 hj => absurd hj (by omega)⟩

/-- The destructor, alone. -/
theorem whole_dtor {regs : List Node} {s s' : S} {i : Nat} (hi : s.ths[i]? = some .made) (hp : 0 < s.count) (hf : s.failed = false) :
    Whole regs s i s' ↔ s' = { s with count := s.count - 1, ths := s.ths.set i .gone, log := s.log ++ if s.count = 1 then dtors regs else [] } := by
  by_cases hc : s.count = 1
  · have st : step (globalList regs) s i = some { s with count := s.count - 1, ths := s.ths.set i (.dtor (globalList regs)) } := by
      rw [step, hi]; simp [hc, hf]
    obtain ⟨h1, h2⟩ := run_dtor (globalList regs) i (globalList regs) { s with count := s.count - 1, ths := s.ths.set i (.dtor (globalList regs)) } (get_set hi _)
    have fin : exec (step (globalList regs)) s (List.replicate ((globalList regs).length + 1 + 1) i)
        = some { s with count := s.count - 1, ths := s.ths.set i .gone, log := s.log ++ dtors regs } := by
      rw [exec_succ _ _ _ _ _ st, h1]
      simp only [List.set_set, dtors, globalList_eq]
    have mid : ∀ j, 0 < j → j ≤ (globalList regs).length + 1 → ∀ t, exec (step (globalList regs)) s (List.replicate j i) = some t →
        ¬ (t.ths[i]? = some .made ∨ t.ths[i]? = some .gone) := by
      intro j h0 hj t ht
      obtain ⟨m, rfl⟩ : ∃ m, j = m + 1 := ⟨j - 1, by omega⟩
      rw [exec_succ _ _ _ _ _ st] at ht
      obtain ⟨r', l, e⟩ := h2 m (by omega)
      rw [e] at ht
      cases ht
      simp only [List.set_set]
      rw [get_set hi]
      simp
    rw [if_pos hc]
    constructor
    · rintro ⟨k, hk, hm, hmin⟩
      rcases Nat.lt_trichotomy k ((globalList regs).length + 1) with h | h | h
      · exact absurd hm (mid (k + 1) (by omega) (by omega) _ hk)
      · subst h; rw [fin] at hk; exact (Option.some.inj hk).symm
      · exact absurd (Or.inr (get_set hi _)) (hmin ((globalList regs).length + 1 + 1) (by omega) (by omega) _ fin)
    · rintro rfl
      exact ⟨_, fin, Or.inr (get_set hi _), mid⟩
  · have st : step (globalList regs) s i = some { s with count := s.count - 1, ths := s.ths.set i .gone } := by
      rw [step, hi]
      have : 1 < s.count := by omega
      simp [this, hf]
      omega
    rw [if_neg hc, List.append_nil]
    constructor
    · rintro ⟨k, hk, hm, hmin⟩
      cases k with
      | zero => rw [exec_succ _ _ _ _ _ st] at hk; exact (Option.some.inj hk).symm
      | succ k => exact absurd (Or.inr (get_set hi _)) (hmin 1 (by omega) (by omega) _ (exec_succ _ _ _ _ 0 st))
    · rintro rfl
      exact ⟨0, exec_succ _ _ _ _ 0 st, Or.inr (get_set hi _), fun j h0 hj => absurd hj (by omega)⟩

/-- Between calls every thread is before, between or after its calls. -/
def Quiet (s : S) : Prop := ∀ (i : Nat) (x : Phase), s.ths[i]? = some x → x = .idle ∨ x = .made ∨ x = .gone

theorem quiet_set {s : S} (h : Quiet s) (i : Nat) (y : Phase) (hy : y = .idle ∨ y = .made ∨ y = .gone) : ∀ (j : Nat) (x : Phase), (s.ths.set i y)[j]? = some x → x = .idle ∨ x = .made ∨ x = .gone := by
  intro j x hx
  by_cases hij : i = j
  · subst hij
    rw [List.getElem?_set] at hx
    simp only [if_true] at hx
    split at hx
    · cases hx; exact hy
    · cases hx
  · rw [List.getElem?_set_ne hij] at hx
    exact h j x hx

theorem expected_close (regs : List Node) (k : Nat) : expected regs k true ++ dtors regs = expected regs (k + 1) false := by
  simp [expected, List.replicate_succ', List.append_assoc]

theorem expected_open (regs : List Node) (k : Nat) : expected regs k false ++ inits regs = expected regs k true := by
  simp [expected]

structure SInv (regs : List Node) (s : S) : Prop where
  inv : Inv s
  quiet : Quiet s
  log : ∃ k, s.log = expected regs k (decide (0 < s.count))

theorem inv_exec {gl : List Node} : ∀ (acts : List Nat) {s s' : S}, Inv s → exec (step gl) s acts = some s' → Inv s'
  | [], s, s', I, h => by cases h; exact I
  | a :: acts, s, s', I, h => by
    rw [exec] at h
    split at h
    · cases h
    · rename_i t ht
      exact inv_exec acts (inv_step I ht) h

theorem sinv {regs : List Node} {n : Nat} {s : S} (h : Serial regs n s) : SInv regs s := by
  induction h with
  | init =>
    refine ⟨inv_init n, ?_, 0, by simp [init, expected]⟩
    intro i x hx
    simp only [init, List.getElem?_replicate] at hx
    split at hx <;> cases hx
    exact Or.inl rfl
  | @call s i s' _ hw ih =>
    obtain ⟨I, Q, k, hk⟩ := ih
    have I' : Inv s' := by obtain ⟨k, he, _⟩ := hw; exact inv_exec _ I he
    cases hi : s.ths[i]? with
    | none =>
      obtain ⟨k, he, _⟩ := hw
      rw [List.replicate_succ, exec, step, hi] at he
      cases he
    | some x =>
      rcases Q i x hi with rfl | rfl | rfl
      · have := (whole_ctor hi).1 hw
        subst this
        refine ⟨I', quiet_set Q i _ (Or.inr (Or.inl rfl)), k, ?_⟩
        have := I.cnt
        simp only
        rw [show decide (0 < s.count + 1) = true from decide_eq_true (by omega)]
        by_cases hc : s.count = 0
        · rw [if_pos hc, hk, show decide (0 < s.count) = false from decide_eq_false (by omega), expected_open]
        · rw [if_neg hc, hk, show decide (0 < s.count) = true from decide_eq_true (by omega), List.append_nil]
      · have hp : 0 < s.count := by
          have a := countP_set live s.ths i _ .gone hi
          have := I.cnt
          simp [live] at a
          omega
        have := (whole_dtor hi hp I.ok).1 hw
        subst this
        by_cases hc : s.count = 1
        · refine ⟨I', quiet_set Q i _ (Or.inr (Or.inr rfl)), k + 1, ?_⟩
          simp only
          rw [if_pos hc, hk, show decide (0 < s.count) = true from decide_eq_true (by omega), expected_close,
            show decide (0 < s.count - 1) = false from decide_eq_false (by omega)]
        · refine ⟨I', quiet_set Q i _ (Or.inr (Or.inr rfl)), k, ?_⟩
          simp only
          rw [if_neg hc, hk, show decide (0 < s.count) = true from decide_eq_true (by omega), List.append_nil,
            show decide (0 < s.count - 1) = true from decide_eq_true (by omega)]
      · obtain ⟨k, he, _⟩ := hw
        rw [List.replicate_succ, exec, step, hi] at he
        cases he

/-- If guards are constructed and destroyed one at a time, in any order and nesting, by any threads: the initializers run when the
first guard is constructed and the destructors when the last one is destroyed, each exactly once, last registered first; while a
guard exists the initializers have run; and every constructor and destructor returns. What is missing is
`C115_early_return` and `C115_overlap`. -/
theorem C115_serial_partial {regs : List Node} {n : Nat} {s : S} (h : Serial regs n s) :
    (∃ k, (Held s → s.log = expected regs k true) ∧ (¬ Held s → s.log = expected regs k false)) ∧
    (∀ i : Nat, s.ths[i]? = some Phase.idle → ∃ s', Whole regs s i s' ∧ s'.ths[i]? = some Phase.made) ∧
    (∀ i : Nat, s.ths[i]? = some Phase.made → ∃ s', Whole regs s i s' ∧ s'.ths[i]? = some Phase.gone) := by
  obtain ⟨I, Q, k, hk⟩ := sinv h
  have pos : ∀ i : Nat, s.ths[i]? = some Phase.made → 0 < s.count := by
    intro i hi
    have a := countP_set live s.ths i _ .gone hi
    have := I.cnt
    simp [live] at a
    omega
  refine ⟨⟨k, ?_, ?_⟩, ?_, ?_⟩
  · rintro ⟨i, hi⟩
    rw [hk, decide_eq_true (pos i hi)]
  · intro hn
    rw [hk, decide_eq_false]
    intro hc
    have hp : 0 < s.ths.countP live := by have := I.cnt; omega
    obtain ⟨x, hx, hl⟩ := List.countP_pos_iff.1 hp
    obtain ⟨i, hi⟩ := List.getElem?_of_mem hx
    rcases Q i x hi with rfl | rfl | rfl
    · simp [live] at hl
    · exact hn ⟨i, hi⟩
    · simp [live] at hl
  · intro i hi
    exact ⟨_, (whole_ctor hi).2 rfl, get_set hi _⟩
  · intro i hi
    exact ⟨_, (whole_dtor hi (pos i hi) I.ok).2 rfl, get_set hi _⟩

/-- Three registrations, as in a program: two initializers and a destructor. -/
def demo : List Node := [⟨1, true⟩, ⟨2, true⟩, ⟨3, false⟩]

/-- A guard with a second one inside it: initializers 2 and 1 ran, and the destructor after both are destroyed. -/
theorem C115_nested : ∃ s, Serial demo 2 s ∧ ¬ Held s ∧ s.log = [2, 1, 3] := by
  have s0 : Serial demo 2 ⟨1, [.made, .idle], [2, 1], false⟩ := .call .init ((whole_ctor (i := 0) rfl).2 rfl)
  have s1 : Serial demo 2 ⟨2, [.made, .made], [2, 1], false⟩ := .call s0 ((whole_ctor (i := 1) rfl).2 rfl)
  have s2 : Serial demo 2 ⟨1, [.made, .gone], [2, 1], false⟩ := .call s1 ((whole_dtor (i := 1) rfl (by decide) rfl).2 rfl)
  have s3 : Serial demo 2 ⟨0, [.gone, .gone], [2, 1, 3], false⟩ := .call s2 ((whole_dtor (i := 0) rfl (by decide) rfl).2 rfl)
  refine ⟨_, s3, ?_, by decide⟩
  rintro ⟨i, hi⟩
  match i, hi with
  | 0, hi => exact absurd hi (by decide)
  | 1, hi => exact absurd hi (by decide)
  | i + 2, hi => simp at hi

/-- With two threads the constructor of the second guard returns before any initializer has run. -/
theorem C115_early_return : ∃ s, Reaches demo 2 s ∧ s.ths[1]? = some Phase.made ∧ s.log = [] ∧ inits demo ≠ [] :=
  ⟨⟨2, [.ctor (globalList demo), .made], [], false⟩,
    Reachable.exec (.init rfl trivial) [0, 1] (by decide), by decide, rfl, by decide⟩

/-- A guard constructed by another thread while the last one is being destroyed runs the initializers before the destructors have
finished. -/
theorem C115_overlap : ∃ s, Reaches demo 2 s ∧ (∃ r, s.ths[0]? = some (Phase.dtor r)) ∧ s.ths[1]? = some Phase.made ∧ s.log = [2, 1, 2, 1] :=
  ⟨⟨1, [.dtor (globalList demo), .made], [2, 1, 2, 1], false⟩,
    Reachable.exec (.init rfl trivial) [0, 0, 0, 0, 0, 0, 1, 1, 1, 1, 1] (by decide), ⟨_, rfl⟩, rfl, rfl⟩

end Verif.Init
