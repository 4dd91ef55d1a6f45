import Verif.Metrics.Iter
/-!
C71: what metrics report is what was added; three ways in which it is not.
-/
namespace Verif.Metrics
open Verif.Common

/-- Histories in which no thread's table of values was made shorter. -/
abbrev Kept (h : Str → Nat) (s : S) : Prop := Reach Init (step h) (fun s => s.lost = false) s

theorem inv_kept {h : Str → Nat} {s : S} (hr : Kept h s) : Inv h s :=
  Reach.invariant (Inv h) (fun _ ⟨n, e⟩ _ => e ▸ inv_init h n) (fun _ _ _ hi _ hs hq => inv_step hi hs hq) hr

/-- C71, the value of a thread: it is what the calls of this thread with this label tuple lead to, in their order, no matter how
the calls of all threads were interleaved. Missing: histories in which a table was made shorter (`C71_lost`) and label tuples that
are mixed up (`C71_boundary`). -/
theorem C71_value_partial {h : Str → Nat} {s : S} (hr : Kept h s) (hn : s.NoClash h) (i t : Nat) (ls : List Str)
    (hv : s.vals[i]? = some ls) (ht : t < s.ts.length) :
    s.val t i = outcome ((s.hist.filter fun e => e.1 == t && e.2.1 == ls).map fun e => e.2.2) ∧ s.bad = false := by
  refine ⟨?_, (inv_kept hr).ok⟩
  rw [val_eq (inv_kept hr) hv ht]
  unfold opsOf
  congr 2
  apply List.filter_congr
  intro e he
  congr 1
  by_cases hh : e.2.1 = ls
  · simp [hh]
  · have : key h e.2.1 ≠ key h ls := fun hk => hh (hn ls (List.mem_of_getElem? hv) e he hk.symm).symm
    exact (beq_eq_false_iff_ne.2 this).trans (beq_eq_false_iff_ne.2 hh).symm

/-- C71, counters: the sum over the threads is what was added in all calls. -/
theorem C71_exact_partial {h : Str → Nat} {s : S} (hr : Kept h s) (hn : s.NoClash h) (hc : s.Counter) (i : Nat) (ls : List Str)
    (hv : s.vals[i]? = some ls) : s.seen i = added s.hist ls := by
  rw [seen_eq (inv_kept hr) hc hv, addedK_eq hn hv s.hist (fun e he => he)]

/-- C71, every label tuple that was used has a number, and only one. -/
theorem C71_numbered {h : Str → Nat} {s : S} (hr : Kept h s) (hn : s.NoClash h) :
    (∀ e ∈ s.hist, ∃ i : Nat, s.vals[i]? = some e.2.1) ∧
    ∀ (i j : Nat) (ls : List Str), s.vals[i]? = some ls → s.vals[j]? = some ls → i = j := by
  have hi := inv_kept hr
  refine ⟨fun e he => ?_, fun i j ls h1 h2 => ?_⟩
  · obtain ⟨⟨id, hid⟩, _⟩ := hi.hk e he
    obtain ⟨l2, h1, h2⟩ := hi.g1 _ _ hid
    refine ⟨id, ?_⟩
    rw [h1, hn l2 (List.mem_of_getElem? h1) e he h2]
  · have := hi.g2 i ls h1
    rw [hi.g2 j ls h2] at this
    exact (Option.some.inj this).symm

/-- C71, `Iterate` beside running calls: what it reports for a counter is at least what was added before it started and at most
what was added when it ended. -/
theorem C71_iterate_partial {h : Str → Nat} {s : S} (hr : Reach Init (step h) (fun s => s.lost = false ∧ s.Counter) s)
    (hn : s.NoClash h) (it : It) (hit : s.it = some it) (htodo : it.todo = []) (j : Nat) (a : Int) (ls : List Str)
    (hj : it.acc[j]? = some a) (hv : s.vals[j]? = some ls) :
    added (s.hist.take it.h0) ls ≤ a ∧ a ≤ added s.hist ls := by
  have : Inv h s ∧ InvI h s := by
    refine Reach.invariant (fun s => Inv h s ∧ InvI h s) ?_ ?_ hr
    · rintro s ⟨n, rfl⟩ _
      exact ⟨inv_init h n, ⟨fun i hi => (by cases hi)⟩⟩
    · intro s a s' hi hq hs hq'
      exact ⟨inv_step hi.1 hs hq'.1, invI_step hi.1 hi.2 hq.2 hs hq'.1 hq'.2⟩
  obtain ⟨_, _, _, _, h5⟩ := this.2.sums it hit
  have := h5 j a ls hj hv
  rw [htodo] at this
  simp only [List.map_nil, List.sum_nil, Int.add_zero] at this
  rw [addedK_eq hn hv _ (fun e he => he), addedK_eq hn hv _ (fun e he => List.mem_of_mem_take he)] at this
  exact this

/-! A pool of one thread. -/

structure One (s : S) : Prop where
  one : ∃ x : T, s.ts = [x] ∧ x.lmap = s.gmap ∧ x.vec.length = s.vals.length
  num : ∀ k id, s.gmap k = some id → id < s.vals.length
  kept : s.lost = false

theorem apply_one {s : S} (hi : One s) {t id : Nat} {ls : List Str} {op : Op} : One (s.apply t id ls op) := by
  obtain ⟨x, h1, h2, h3⟩ := hi.one
  unfold S.apply
  split
  · exact hi
  · rename_i y hy
    split
    · exact ⟨⟨x, h1, h2, h3⟩, hi.num, hi.kept⟩
    · rename_i v hv
      rw [h1] at hy
      cases t with
      | zero =>
        simp only [List.getElem?_cons_zero, Option.some.injEq] at hy
        subst hy
        refine ⟨⟨{ x with vec := x.vec.set id (op.app v) }, ?_, h2, by simpa using h3⟩, hi.num, hi.kept⟩
        show s.ts.set 0 _ = _
        rw [h1]; rfl
      | succ t => simp at hy

theorem one_step {h : Str → Nat} {s s' : S} {a : Act} (hi : One s) (hs : step h s a = some s') : One s' := by
  obtain ⟨x, h1, h2, h3⟩ := hi.one
  cases a with
  | call t ls op =>
    simp only [step] at hs
    split at hs
    · cases hs
    · split at hs
      · cases hs; exact apply_one hi
      · cases hs; exact ⟨hi.one, hi.num, hi.kept⟩
  | fin i =>
    simp only [step] at hs
    split at hs
    · cases hs
    · rename_i p hp
      split at hs
      · cases hs
      · rename_i y hy
        cases hs
        refine apply_one ?_
        rw [h1] at hy
        cases ht : p.t with
        | succ t => rw [ht] at hy; simp at hy
        | zero =>
          rw [ht] at hy
          simp only [List.getElem?_cons_zero, Option.some.injEq] at hy
          subst hy
          unfold S.enter
          cases hl : x.lmap (h p.ls.flatten) with
          | some id => simp only; exact ⟨hi.one, hi.num, hi.kept⟩
          | none =>
            have hg : s.gmap (h p.ls.flatten) = none := by rw [← h2]; exact hl
            simp only [hg]
            refine ⟨⟨_, by rw [h1]; rfl, by rw [h2], ?_⟩, fun k id hk => ?_, ?_⟩
            · simp [resize_length]
            · simp only [upd] at hk
              rw [List.length_append]
              split at hk
              · cases hk; simp
              · have := hi.num k id hk
                omega
            · simp only [hi.kept, Bool.false_or, decide_eq_false_iff_not]
              omega
  | iter =>
    simp only [step] at hs
    split at hs
    · cases hs; exact ⟨hi.one, hi.num, hi.kept⟩
    · cases hs
  | scan t =>
    simp only [step] at hs
    split at hs
    · split at hs
      · cases hs; exact ⟨hi.one, hi.num, hi.kept⟩
      · cases hs
    · cases hs
  | done =>
    simp only [step] at hs
    split at hs
    · split at hs
      · cases hs; exact ⟨hi.one, hi.num, hi.kept⟩
      · cases hs
    · cases hs

/-- C71, with one thread no table is ever made shorter, so the other theorems speak of every history. -/
theorem C71_one_thread {h : Str → Nat} {s : S} (hr : Reachable (fun s => s = S.init 1) (step h) s) : Kept h s := by
  have key : Reach (fun s => s = S.init 1) (step h) (fun s => s.lost = false) s := by
    induction hr with
    | init h0 _ =>
      subst h0
      exact .init rfl rfl
    | step hr' hst _ ih =>
      refine .step ih hst ?_
      refine (one_step (Reachable.invariant One (fun s e => ?_) (fun s a s' hi hs => one_step hi hs) hr') hst).kept
      subst e
      exact ⟨⟨_, rfl, rfl, rfl⟩, fun k id hk => (by cases hk), rfl⟩
  clear hr
  induction key with
  | init h0 hq => exact .init ⟨1, h0⟩ hq
  | step _ hst hq ih => exact .step ih hst hq

/-! What goes wrong. -/

theorem reach_of {h : Str → Nat} {n : Nat} {acts : List Act} {P : S → Bool}
    (he : (exec (step h) (S.init n) acts).map P = some true) : ∃ s, Reachable Init (step h) s ∧ P s = true := by
  cases hx : exec (step h) (S.init n) acts with
  | none => rw [hx] at he; cases he
  | some s =>
    rw [hx] at he
    exact ⟨s, Reachable.exec (.init ⟨n, rfl⟩ trivial) acts hx, by simpa using he⟩

/-- A hash without collisions on short strings, for the examples. -/
def h0 : Str → Nat := List.foldl (fun a b => a * 256 + b + 1) 0

/-- Two threads: the first counts A, the second counts B and then A. -/
def shrink : List Act := [.call 0 [[1]] (.inc 1), .fin 0, .call 1 [[2]] (.inc 5), .fin 0, .call 1 [[1]] (.inc 1), .fin 0]

/-- C71, a thread that meets label tuples in another order than they were registered loses values: here the five that were added
for B are gone, though no two label tuples have the same key. -/
theorem C71_lost : ∃ s, Reachable Init (step h0) s ∧
    (s.vals[1]? = some [[2]] ∧ added s.hist [[2]] = 5 ∧ s.seen 1 = 0 ∧ s.lost = true ∧ s.bad = false) := by
  obtain ⟨s, hr, h⟩ := reach_of (h := h0) (n := 2) (acts := shrink)
    (P := fun s => decide (s.vals[1]? = some [[2]] ∧ added s.hist [[2]] = 5 ∧ s.seen 1 = 0 ∧ s.lost = true ∧ s.bad = false))
    (by decide)
  exact ⟨s, hr, by simpa using h⟩

/-- C71, and its next call for B uses memory outside of the table. -/
theorem C71_out_of_bounds : ∃ s, Reachable Init (step h0) s ∧ s.bad = true :=
  reach_of (h := h0) (n := 2) (acts := shrink ++ [.call 1 [[2]] (.inc 1)]) (P := fun s => s.bad) (by decide)

/-- C71, label tuples whose values are the same bytes in a row are taken for one, whatever the hash: a call with the second counts
for the first, and the second has no number. -/
theorem C71_boundary (h : Str → Nat) : ∃ s, Reachable Init (step h) s ∧ s.vals = [[[1, 2], [3]]] ∧
    added s.hist [[1, 2], [3]] = 1 ∧ added s.hist [[1], [2, 3]] = 10 ∧ s.seen 0 = 11 := by
  refine ⟨⟨[[[1, 2], [3]]], upd (fun _ => none) (h [1, 2, 3]) (some 0), [⟨upd (fun _ => none) (h [1, 2, 3]) (some 0), [11]⟩], [], none,
      [(0, [[1, 2], [3]], .inc 1), (0, [[1], [2, 3]], .inc 10)], false, false⟩,
    Reachable.exec (.init ⟨1, rfl⟩ trivial) [.call 0 [[1, 2], [3]] (.inc 1), .fin 0, .call 0 [[1], [2, 3]] (.inc 10)] ?_,
    rfl, rfl, rfl, rfl⟩
  simp [exec, step, S.init, S.enter, S.apply, upd, resize, Op.app]

/-- C71, gauges that two threads set: the values are added. -/
theorem C71_gauge_sum : ∃ s, Reachable Init (step h0) s ∧
    s.hist = [(0, [[1]], .set 7), (1, [[1]], .set 9)] ∧ s.seen 0 = 16 := by
  obtain ⟨s, hr, h⟩ := reach_of (h := h0) (n := 2) (acts := [.call 0 [[1]] (.set 7), .fin 0, .call 1 [[1]] (.set 9), .fin 0])
    (P := fun s => decide (s.hist = [(0, [[1]], .set 7), (1, [[1]], .set 9)] ∧ s.seen 0 = 16)) (by decide)
  exact ⟨s, hr, by simpa using h⟩

/-! A history that meets the hypotheses: two threads, two label tuples, `Iterate` beside a call. -/

theorem kept_of {h : Str → Nat} {Q : S → Prop} : ∀ (acts : List Act) (s s' : S), Reach Init (step h) Q s →
    (∀ k, ∀ t, exec (step h) s (acts.take k) = some t → Q t) → exec (step h) s acts = some s' → Reach Init (step h) Q s'
  | [], s, s', hr, _, he => by cases he; exact hr
  | a :: acts, s, s', hr, hq, he => by
    simp only [exec] at he
    cases hs : step h s a with
    | none => rw [hs] at he; cases he
    | some s1 =>
      rw [hs] at he
      refine kept_of acts s1 s' (.step hr hs (hq 1 s1 (by simp [exec, hs]))) (fun k t ht => hq (k + 1) t ?_) he
      simp [exec, hs, ht]

def good : List Act := [.call 0 [[1]] (.inc 1), .call 1 [[1]] (.inc 2), .fin 1, .fin 0, .call 1 [[2]] (.inc 5), .fin 0, .iter, .scan 1,
  .call 1 [[2]] (.inc 3), .call 0 [[1]] (.inc 4), .scan 0]

def goodCheck (s : S) : Bool := decide (s.lost = false) && s.hist.all fun e => match e.2.2 with
  | .inc v => decide (0 ≤ v)
  | .set _ => false

theorem goodCheck_spec {s : S} (h : goodCheck s = true) : s.lost = false ∧ s.Counter := by
  simp only [goodCheck, Bool.and_eq_true, decide_eq_true_eq, List.all_eq_true] at h
  refine ⟨h.1, fun e he => ?_⟩
  have := h.2 e he
  revert this
  cases e.2.2 with
  | inc v => intro h; exact ⟨v, by simpa using h, rfl⟩
  | set v => intro h; cases h

example : ∃ s, Reach Init (step h0) (fun s => s.lost = false ∧ s.Counter) s ∧ s.NoClash h0 ∧
    s.it = some ⟨[7, 5], [], 3⟩ ∧ s.vals = [[[1]], [[2]]] ∧ s.seen 0 = 7 ∧ s.seen 1 = 8 := by
  have hex : ∃ s, exec (step h0) (S.init 2) good = some s ∧
      decide (s.it = some ⟨[7, 5], [], 3⟩ ∧ s.vals = [[[1]], [[2]]] ∧ s.seen 0 = 7 ∧ s.seen 1 = 8 ∧
        (∀ a ∈ s.vals, ∀ e ∈ s.hist, key h0 a = key h0 e.2.1 → a = e.2.1)) = true := by
    have : (exec (step h0) (S.init 2) good).map (fun s => decide (s.it = some ⟨[7, 5], [], 3⟩ ∧ s.vals = [[[1]], [[2]]] ∧
        s.seen 0 = 7 ∧ s.seen 1 = 8 ∧ (∀ a ∈ s.vals, ∀ e ∈ s.hist, key h0 a = key h0 e.2.1 → a = e.2.1))) = some true := by decide
    cases hx : exec (step h0) (S.init 2) good with
    | none => rw [hx] at this; cases this
    | some s => rw [hx] at this; exact ⟨s, rfl, by simpa using this⟩
  obtain ⟨s, hx, hs⟩ := hex
  simp only [decide_eq_true_eq] at hs
  obtain ⟨h1, h2, h3, h4, h5⟩ := hs
  refine ⟨s, kept_of good (S.init 2) s (.init ⟨2, rfl⟩ ⟨rfl, fun e he => (by cases he)⟩) (fun k t ht => ?_) hx, h5, h1, h2, h3, h4⟩
  apply goodCheck_spec
  have hall : ∀ k, k < 12 → ∀ t, exec (step h0) (S.init 2) (good.take k) = some t → goodCheck t = true := by
    intro k hk t ht
    have : ∀ k : Fin 12, ((exec (step h0) (S.init 2) (good.take k.val)).map goodCheck).getD true = true := by decide
    have := this ⟨k, hk⟩
    simp only [ht, Option.map_some, Option.getD_some] at this
    exact this
  by_cases hk : k < 12
  · exact hall k hk t ht
  · rw [List.take_of_length_le (by show 11 ≤ k; omega)] at ht
    exact hall 11 (by omega) t (by rw [show good.take 11 = good from rfl]; exact ht)

end Verif.Metrics
