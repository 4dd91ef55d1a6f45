import Verif.Listener.Model
/-! The two counters: the word of the gate and the number of open connections. -/
namespace Verif.Listener
open Verif.Common

theorem countP_set {α : Type} {p : α → Bool} {l : List α} {i : Nat} {x : α} (y : α) (h : l[i]? = some x) :
    (l.set i y).countP p + (if p x then 1 else 0) = l.countP p + (if p y then 1 else 0) := by
  induction l generalizing i with
  | nil => simp at h
  | cons a l ih =>
    cases i with
    | zero =>
      simp only [List.getElem?_cons_zero, Option.some.injEq] at h
      subst h
      simp only [List.set_cons_zero, List.countP_cons]
      omega
    | succ i =>
      simp only [List.getElem?_cons_succ] at h
      have := ih h
      simp only [List.set_cons_succ, List.countP_cons]
      omega

theorem countP_pos_of {α : Type} {p : α → Bool} {l : List α} {i : Nat} {x : α} (h : l[i]? = some x) (hp : p x = true) :
    0 < l.countP p := List.countP_pos_iff.2 ⟨x, List.mem_of_getElem? h, hp⟩

/-- The connections counted in the word, those that passed the gate, those counted in `open_connections_`. -/
def Conn.counted (x : Conn) : Bool :=
  match x.pc with
  | .mgBack _ | .mgHeld _ | .transit _ | .mgOut => true
  | _ => false
def Conn.passed (x : Conn) : Bool :=
  match x.pc with
  | .mgHeld _ | .transit _ | .mgOut => true
  | _ => false
def Conn.live (x : Conn) : Bool := decide (x.pc ≠ .gone)

theorem counted_live (l : List Conn) : l.countP Conn.counted ≤ l.countP Conn.live :=
  List.countP_mono_left (by
    intro x _ h
    unfold Conn.counted at h
    unfold Conn.live
    revert h
    cases x.pc <;> simp)

theorem passed_counted (l : List Conn) : l.countP Conn.passed ≤ l.countP Conn.counted :=
  List.countP_mono_left (by
    intro x _ h
    unfold Conn.passed at h
    unfold Conn.counted
    revert h
    cases x.pc <;> simp)

theorem visits_counted (l : List Tr) : l.countP Tr.visits ≤ l.countP Tr.counted :=
  List.countP_mono_left (by
    intro x _ h
    unfold Tr.visits at h
    unfold Tr.counted
    revert h
    cases x.pc <;> simp)

structure Gate (s : S) : Prop where
  word : s.word = s.conns.countP Conn.counted * 2 ^ 32 + s.trs.countP Tr.counted
  tr : s.trs.countP Tr.counted < 2 ^ 32
  opn : s.opn = s.conns.countP Conn.live
  lt : s.opn < 2 ^ 32
  max : s.max < 2 ^ 32
  excl : 0 < s.trs.countP Tr.visits → s.conns.countP Conn.passed = 0

theorem Gate.cm {s : S} (g : Gate s) : s.conns.countP Conn.counted < 2 ^ 32 := by
  have := counted_live s.conns
  have := g.opn
  have := g.lt
  omega

theorem dec_inc {x : Nat} (h : x < 2 ^ 32) : dec32 (inc32 x) = x := by
  unfold dec32 inc32
  omega

theorem gate_low {s : S} (g : Gate s) : s.word % 2 ^ 32 = 0 ↔ s.trs.countP Tr.counted = 0 := by
  have := g.word
  have := g.tr
  omega
theorem gate_high {s : S} (g : Gate s) : s.word / 2 ^ 32 = 0 ↔ s.conns.countP Conn.counted = 0 := by
  have := g.word
  have := g.tr
  omega

/-- Changes that leave all counters alone. -/
theorem Gate.same {s s1 : S} (g : Gate s) (h1 : s1.word = s.word) (h2 : s1.conns = s.conns) (h3 : s1.trs = s.trs)
    (h4 : s1.opn = s.opn) (h5 : s1.max = s.max) : Gate s1 := by
  obtain ⟨a, b, c, d, e, f⟩ := g
  refine ⟨?_, ?_, ?_, ?_, ?_, ?_⟩
  · rw [h1, h2, h3]; exact a
  · rw [h3]; exact b
  · rw [h4, h2]; exact c
  · rw [h4]; exact d
  · rw [h5]; exact e
  · rw [h2, h3]; exact f

theorem up_word {w a b : Nat} (h : w = a * 2 ^ 32 + b) (ha : a + 1 < 2 ^ 32) (hb : b < 2 ^ 32) :
    add64 w kMigrateVal = (a + 1) * 2 ^ 32 + b := by
  unfold add64 kMigrateVal
  omega
theorem down_word {w a b : Nat} (h : w = (a + 1) * 2 ^ 32 + b) (ha : a + 1 < 2 ^ 32) (hb : b < 2 ^ 32) :
    sub64 w kMigrateVal = a * 2 ^ 32 + b := by
  unfold sub64 kMigrateVal
  omega
theorem up_word1 {w a b : Nat} (h : w = a * 2 ^ 32 + b) (ha : a < 2 ^ 32) (hb : b + 1 < 2 ^ 32) :
    add64 w 1 = a * 2 ^ 32 + (b + 1) := by
  unfold add64
  omega
theorem down_word1 {w a b : Nat} (h : w = a * 2 ^ 32 + (b + 1)) (ha : a < 2 ^ 32) (hb : b + 1 < 2 ^ 32) :
    sub64 w 1 = a * 2 ^ 32 + b := by
  unfold sub64
  omega
theorem down32 {x y : Nat} (h : x = y + 1) (hx : x < 2 ^ 32) : dec32 x = y := by
  unfold dec32
  omega

/-- A step of connection `c`. -/
theorem Gate.conn {s s1 : S} (g : Gate s) {c : Nat} {x y : Conn} (hx : s.conns[c]? = some x)
    (h2 : s1.conns = s.conns.set c y) (h3 : s1.trs = s.trs) (h5 : s1.max = s.max)
    (hw : s1.word = if x.counted = y.counted then s.word else if y.counted then add64 s.word kMigrateVal else sub64 s.word kMigrateVal)
    (ho : s1.opn = if x.live = y.live then s.opn else dec32 s.opn) (hl : y.live = true → x.live = true)
    (hp : y.passed = true → x.passed = true ∨ s.trs.countP Tr.counted = 0) : Gate s1 := by
  have gc := g.cm
  obtain ⟨a, b, o, d, e, f⟩ := g
  have k1 := countP_set (p := Conn.counted) y hx
  have k2 := countP_set (p := Conn.live) y hx
  have k3 := countP_set (p := Conn.passed) y hx
  have m1 := counted_live (s.conns.set c y)
  have v := visits_counted s.trs
  have wl : s1.opn = (s.conns.set c y).countP Conn.live ∧ s1.opn < 2 ^ 32 := by
    rw [ho]
    cases hx1 : x.live <;> cases hy1 : y.live <;> rw [hx1, hy1] at k2 <;>
      simp only [if_true, if_false, reduceCtorEq, Bool.false_eq_true] at k2 ⊢
    · omega
    · rw [hx1] at hl
      exact absurd (hl hy1) (by simp)
    · have := down32 (x := s.opn) (y := (s.conns.set c y).countP Conn.live) (by omega) d
      omega
    · omega
  refine ⟨?_, by rw [h3]; exact b, by rw [h2]; exact wl.1, wl.2, by rw [h5]; exact e, ?_⟩
  · rw [hw, h2, h3]
    have lt : (s.conns.set c y).countP Conn.counted < 2 ^ 32 := by
      have := wl.1
      have := wl.2
      omega
    cases hx1 : x.counted <;> cases hy1 : y.counted <;> rw [hx1, hy1] at k1 <;>
      simp only [if_true, if_false, reduceCtorEq, Bool.false_eq_true] at k1 ⊢
    · rw [show (s.conns.set c y).countP Conn.counted = s.conns.countP Conn.counted by omega]; exact a
    · rw [show (s.conns.set c y).countP Conn.counted = s.conns.countP Conn.counted + 1 by omega] at lt ⊢
      exact up_word a lt b
    · rw [show s.conns.countP Conn.counted = (s.conns.set c y).countP Conn.counted + 1 by omega] at a gc
      exact down_word a gc b
    · rw [show (s.conns.set c y).countP Conn.counted = s.conns.countP Conn.counted by omega]; exact a
  · rw [h2, h3]
    intro hv
    have := f hv
    cases hx1 : x.passed <;> cases hy1 : y.passed <;> rw [hx1, hy1] at k3 <;>
      simp only [if_true, if_false, reduceCtorEq, Bool.false_eq_true] at k3
    · omega
    · rcases hp hy1 with h | h
      · rw [hx1] at h; cases h
      · omega
    · omega
    · omega

/-- A step of traversal `k`. -/
theorem Gate.trav {s s1 : S} (g : Gate s) {k : Nat} {r q : Tr} (hr : s.trs[k]? = some r)
    (h2 : s1.trs = s.trs.set k q) (h3 : s1.conns = s.conns) (h4 : s1.opn = s.opn) (h5 : s1.max = s.max)
    (hw : s1.word = if r.counted = q.counted then s.word else if q.counted then add64 s.word 1 else sub64 s.word 1)
    (hn : q.counted = true → r.counted = true ∨ s.trs.countP Tr.counted + 1 < 2 ^ 32)
    (hp : q.visits = true → r.visits = true ∨ s.conns.countP Conn.counted = 0) : Gate s1 := by
  have gc := g.cm
  obtain ⟨a, b, o, d, e, f⟩ := g
  have k1 := countP_set (p := Tr.counted) q hr
  have k3 := countP_set (p := Tr.visits) q hr
  have v := passed_counted s.conns
  have lt : (s.trs.set k q).countP Tr.counted < 2 ^ 32 := by
    cases hx1 : r.counted <;> cases hy1 : q.counted <;> rw [hx1, hy1] at k1 <;>
      simp only [if_true, if_false, reduceCtorEq, Bool.false_eq_true] at k1
    · omega
    · rcases hn hy1 with h | h
      · rw [hx1] at h; cases h
      · omega
    · omega
    · omega
  refine ⟨?_, by rw [h2]; exact lt, by rw [h4, h3]; exact o, by rw [h4]; exact d, by rw [h5]; exact e, ?_⟩
  · rw [hw, h2, h3]
    cases hx1 : r.counted <;> cases hy1 : q.counted <;> rw [hx1, hy1] at k1 <;>
      simp only [if_true, if_false, reduceCtorEq, Bool.false_eq_true] at k1 ⊢
    · rw [show (s.trs.set k q).countP Tr.counted = s.trs.countP Tr.counted by omega]; exact a
    · rw [show (s.trs.set k q).countP Tr.counted = s.trs.countP Tr.counted + 1 by omega] at lt ⊢
      exact up_word1 a gc lt
    · rw [show s.trs.countP Tr.counted = (s.trs.set k q).countP Tr.counted + 1 by omega] at a b
      exact down_word1 a gc b
    · rw [show (s.trs.set k q).countP Tr.counted = s.trs.countP Tr.counted by omega]; exact a
  · rw [h2, h3]
    intro hv
    by_cases hq : q.visits = true
    · rcases hp hq with h | h
      · exact f (countP_pos_of hr h)
      · omega
    · rw [if_neg hq] at k3
      exact f (by omega)

end Verif.Listener
