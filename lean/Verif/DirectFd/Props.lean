import Verif.DirectFd.Spec

/-! # C31: registered direct descriptors are distinct -/
namespace Verif.DirectFd

theorem find_some {a : List (Option Nat)} {s i : Nat} (h : find a s = some i) :
    s ≤ i ∧ a[i]? = some none ∧ ∀ j, s ≤ j → j < i → a[j]? ≠ some none := by
  unfold find at h
  rw [List.find?_eq_some_iff_append] at h
  obtain ⟨h1, as, bs, h2, h3⟩ := h
  have hm : i ∈ (List.range a.length).filter (fun i => decide (s ≤ i)) := by rw [h2]; simp
  have hs := List.mem_filter.1 hm
  refine ⟨by simpa using hs.2, by simpa using h1, ?_⟩
  intro j h4 h5 h6
  have hjl : j < a.length := by
    by_cases hl : j < a.length
    · exact hl
    · rw [List.getElem?_eq_none (by omega)] at h6; cases h6
  have hj : j ∈ (List.range a.length).filter (fun i => decide (s ≤ i)) := by
    simp [hjl, h4]
  have hsort : ((List.range a.length).filter (fun i => decide (s ≤ i))).Pairwise (· < ·) :=
    List.Pairwise.filter _ List.pairwise_lt_range
  rw [h2] at hj hsort
  rcases List.mem_append.1 hj with h7 | h7
  · have := h3 j h7
    simp [h6] at this
  · rcases List.mem_cons.1 h7 with h8 | h8
    · omega
    · have := (List.pairwise_append.1 hsort).2.1
      have := (List.pairwise_cons.1 this).1 j h8
      omega

theorem find_none {a : List (Option Nat)} {s : Nat} (h : find a s = none) (j : Nat) (hj : s ≤ j) :
    a[j]? ≠ some none := by
  intro h6
  have hjl : j < a.length := by
    by_cases hl : j < a.length
    · exact hl
    · rw [List.getElem?_eq_none (by omega)] at h6; cases h6
  unfold find at h
  rw [List.find?_eq_none] at h
  have := h j (by simp [hjl, hj])
  simp [h6] at this

/-- How many indices below `n` are registered. -/
def count (n : Nat) (m : Tab) : Nat := ((List.range n).filter (fun i => (m i).isSome)).length

theorem count_set {n i : Nat} {m : Tab} {v : Option Nat} (hi : i < n) :
    count n (fun j => if j = i then v else m j) + (if (m i).isSome then 1 else 0) =
      count n m + (if v.isSome then 1 else 0) := by
  unfold count
  induction n with
  | zero => omega
  | succ n ih =>
    rw [List.range_succ, List.filter_append, List.filter_append, List.length_append, List.length_append]
    by_cases he : n = i
    · subst he
      have e : (List.range n).filter (fun j => (if j = n then v else m j).isSome) =
          (List.range n).filter (fun j => (m j).isSome) := by
        apply List.filter_congr
        intro j hj
        have := List.mem_range.1 hj
        rw [if_neg (by omega)]
      rw [e]
      cases h1 : (m n).isSome <;> cases h2 : v.isSome <;> simp [h1, h2]
    · have := ih (by omega)
      have e : (List.filter (fun j => (if j = i then v else m j).isSome) [n]) =
          List.filter (fun j => (m j).isSome) [n] := by
        simp only [List.filter_cons, List.filter_nil, if_neg he]
      rw [e]
      omega

/-- The invariant. -/
structure Inv (n : Nat) (r : R) (m : Tab) (bad : Bool) : Prop where
  len : r.arr.length = n
  kern : ∀ i, r.kern i = m i
  arr : ∀ i fd, m i = some fd → r.arr[i]? = some (some fd)
  low : ∀ i, i < r.next → r.arr[i]? ≠ some none
  cnt : r.cnt = count n m
  good : bad = false → ∀ i, i < n → m i = none → r.arr[i]? = some none

theorem inv_init (n : Nat) : Inv n (R.init n) (fun _ => none) false := by
  refine ⟨by simp [R.init], fun _ => rfl, (fun _ _ h => nomatch h), fun i h => by simp [R.init] at h, ?_, ?_⟩
  · simp only [R.init, count, Option.isSome_none]
    have : (List.range n).filter (fun _ => false) = [] := List.filter_eq_nil_iff.2 (fun _ _ h => by cases h)
    rw [this]
    rfl
  · intro _ i hi _
    simp [R.init, hi]

theorem inv_step {n r m bad op o r'} (h : Inv n r m bad) (ha : Allowed m op) (hs : step r op = some (o, r')) :
    Inv n r' (note m op o) (bad || refused op) := by
  cases op with
  | reg fd ok =>
    simp only [step] at hs
    cases hf : find r.arr r.next with
    | none =>
      rw [hf] at hs
      simp only [Option.some.injEq, Prod.mk.injEq] at hs
      obtain ⟨rfl, rfl⟩ := hs
      refine ⟨h.len, h.kern, h.arr, h.low, h.cnt, ?_⟩
      intro hb
      apply h.good
      cases bad
      · rfl
      · cases hb
    | some i =>
      rw [hf] at hs
      simp only at hs
      obtain ⟨f1, f2, f3⟩ := find_some hf
      have hil : i < n := by
        rw [← h.len]
        by_cases hl : i < r.arr.length
        · exact hl
        · rw [List.getElem?_eq_none (by omega)] at f2; cases f2
      have hmi : m i = none := by
        cases hm : m i with
        | none => rfl
        | some x => rw [h.arr i x hm] at f2; cases f2
      have hlow : ∀ j, j < i + 1 → (r.arr.set i (some fd))[j]? ≠ some none := by
        intro j hj
        rw [List.getElem?_set]
        by_cases e : i = j
        · subst e
          rw [if_pos rfl, if_pos (by rw [h.len]; exact hil)]
          intro e; cases e
        · rw [if_neg e]
          by_cases hj2 : j < r.next
          · exact h.low j hj2
          · exact f3 j (by omega) (by omega)
      have harr : ∀ j x, m j = some x → (r.arr.set i (some fd))[j]? = some (some x) := by
        intro j x hx
        have : i ≠ j := by intro e; subst e; rw [hmi] at hx; cases hx
        rw [List.getElem?_set, if_neg this]
        exact h.arr j x hx
      cases ok with
      | true =>
        simp only [if_true, Option.some.injEq, Prod.mk.injEq] at hs
        obtain ⟨rfl, rfl⟩ := hs
        refine ⟨by simp [h.len], ?_, ?_, hlow, ?_, ?_⟩
        · intro j; simp only [put, note, h.kern]
        · intro j x hx
          simp only [note] at hx
          by_cases e : j = i
          · subst e
            rw [if_pos rfl] at hx
            cases hx
            simp [h.len, hil]
          · rw [if_neg e] at hx
            exact harr j x hx
        · have := count_set (m := m) (v := some fd) hil
          rw [hmi] at this
          simp only [Option.isSome_none, Option.isSome_some, if_true, Bool.false_eq_true, if_false] at this
          simp only [note]
          have := h.cnt
          omega
        · intro hb j hj hm
          simp only [note] at hm
          by_cases e : j = i
          · rw [if_pos e] at hm; cases hm
          · rw [if_neg e] at hm
            simp only
            rw [List.getElem?_set, if_neg (fun h => e h.symm)]
            exact h.good (by cases bad; rfl; exact nomatch hb) j hj hm
      | false =>
        simp only [Bool.false_eq_true, if_false, Option.some.injEq, Prod.mk.injEq] at hs
        obtain ⟨rfl, rfl⟩ := hs
        refine ⟨by simp [h.len], h.kern, harr, fun j hj => hlow j (by simp only at hj; omega), h.cnt, ?_⟩
        intro hb
        cases bad <;> cases hb
  | unreg i =>
    simp only [step] at hs
    split at hs
    · rename_i fd hfd
      simp only [Option.some.injEq, Prod.mk.injEq] at hs
      obtain ⟨rfl, rfl⟩ := hs
      have hmi : m i = some fd := by
        cases hm : m i with
        | none => exact absurd hm ha
        | some x =>
          have := h.arr i x hm
          rw [hfd] at this
          cases this; rfl
      have hil : i < n := by
        rw [← h.len]
        by_cases hl : i < r.arr.length
        · exact hl
        · rw [List.getElem?_eq_none (by omega)] at hfd; cases hfd
      refine ⟨by simp [h.len], ?_, ?_, ?_, ?_, ?_⟩
      · intro j; simp only [put, note, h.kern]
      · intro j x hx
        simp only [note] at hx
        by_cases e : j = i
        · rw [if_pos e] at hx; cases hx
        · rw [if_neg e] at hx
          simp only
          rw [List.getElem?_set, if_neg (fun h => e h.symm)]
          exact h.arr j x hx
      · intro j hj
        simp only at hj ⊢
        have hji : j < i ∨ (i < j ∧ False) ∨ (¬ i < r.next ∧ j < r.next) := by
          split at hj
          · exact Or.inl hj
          · right; right; exact ⟨by assumption, hj⟩
        rw [List.getElem?_set]
        rcases hji with hji | ⟨_, hji⟩ | ⟨hji1, hji2⟩
        · rw [if_neg (by omega)]
          apply h.low
          split at hj <;> omega
        · exact hji.elim
        · rw [if_neg (by omega)]
          exact h.low j hji2
      · have := count_set (m := m) (v := none) hil
        rw [hmi] at this
        simp only [Option.isSome_none, Option.isSome_some, if_true, Bool.false_eq_true, if_false] at this
        simp only [note]
        have := h.cnt
        omega
      · intro hb j hj hm
        simp only [note] at hm
        simp only
        rw [List.getElem?_set]
        by_cases e : j = i
        · subst e; rw [if_pos rfl, if_pos (by rw [h.len]; exact hj)]
        · rw [if_neg e] at hm
          rw [if_neg (fun h => e h.symm)]
          exact h.good (by cases bad; rfl; exact nomatch hb) j hj hm
    · cases hs
  | get i =>
    simp only [step] at hs
    split at hs
    · simp only [Option.some.injEq, Prod.mk.injEq] at hs
      obtain ⟨rfl, rfl⟩ := hs
      refine ⟨h.len, h.kern, h.arr, h.low, h.cnt, ?_⟩
      intro hb
      exact h.good (by cases bad; rfl; exact nomatch hb)
    · cases hs

theorem reach_inv {n r m bad} (h : Reach n r m bad) : Inv n r m bad := by
  induction h with
  | init => exact inv_init n
  | step _ ha hs ih => exact inv_step ih ha hs

/-- **C31** `RegisterFd` never hands out an index that is still registered, and the index is inside
the table and names the new descriptor. -/
theorem C31_register_fresh (n : Nat) (r : R) (m : Tab) (bad ok : Bool) (h : Reach n r m bad) (fd i : Nat)
    (r' : R) (hs : step r (.reg fd ok) = some (.index (some i), r')) :
    m i = none ∧ i < n ∧ ok = true ∧ r'.kern i = some fd ∧ ∀ j, j ≠ i → r'.kern j = m j := by
  have hi := reach_inv h
  simp only [step] at hs
  cases hf : find r.arr r.next with
  | none => rw [hf] at hs; simp at hs
  | some k =>
    rw [hf] at hs
    simp only at hs
    obtain ⟨f1, f2, f3⟩ := find_some hf
    cases ok with
    | false => simp at hs
    | true =>
      simp only [if_true, Option.some.injEq, Prod.mk.injEq, Res.index.injEq] at hs
      obtain ⟨rfl, rfl⟩ := hs
      refine ⟨?_, ?_, rfl, by simp [put], fun j hj => by simp [put, hj, hi.kern]⟩
      · cases hm : m k with
        | none => rfl
        | some x => rw [hi.arr k x hm] at f2; cases f2
      · rw [← hi.len]
        by_cases hl : k < r.arr.length
        · exact hl
        · rw [List.getElem?_eq_none (by omega)] at f2; cases f2

/-- **C31** What the client registered is what the kernel has and what `TranslateDirectFd` returns. -/
theorem C31_translate (n : Nat) (r : R) (m : Tab) (bad : Bool) (h : Reach n r m bad) :
    (∀ i, r.kern i = m i) ∧ ∀ i fd, m i = some fd → step r (.get i) = some (.fd fd, r) := by
  have hi := reach_inv h
  exact ⟨hi.kern, fun i fd hm => by simp only [step, hi.arr i fd hm]⟩

/-- **C31** `UnregisterFd` of a registered index is defined and returns its descriptor; exactly that
index is released. -/
theorem C31_unregister (n : Nat) (r : R) (m : Tab) (bad : Bool) (h : Reach n r m bad) (i fd : Nat)
    (hm : m i = some fd) :
    ∃ r', step r (.unreg i) = some (.fd fd, r') ∧ ∀ j, r'.kern j = if j = i then none else m j := by
  have hi := reach_inv h
  refine ⟨_, by simp only [step, hi.arr i fd hm]; rfl, ?_⟩
  intro j
  simp only [put, hi.kern]

/-- **C31** The counter of direct descriptors is the number of registered indices. -/
theorem C31_count (n : Nat) (r : R) (m : Tab) (bad : Bool) (h : Reach n r m bad) :
    r.cnt = ((List.range n).filter (fun i => (m i).isSome)).length := (reach_inv h).cnt

/-- **C31** (partial) As long as the kernel has refused no registration, `RegisterFd` finds a free index
whenever there is one, and takes the lowest. Missing: histories with refusals, where it is false
(`C31_refusal_loses_index`). -/
theorem C31_finds_free_partial (n : Nat) (r : R) (m : Tab) (h : Reach n r m false) (fd i : Nat) (hi : i < n)
    (hfree : m i = none) :
    ∃ k r', step r (.reg fd true) = some (.index (some k), r') ∧ k ≤ i ∧ m k = none ∧
      ∀ j, j < k → m j ≠ none := by
  have hv := reach_inv h
  have ha := hv.good rfl i hi hfree
  cases hf : find r.arr r.next with
  | none =>
    exfalso
    by_cases hl : i < r.next
    · exact hv.low i hl ha
    · exact find_none hf i (by omega) ha
  | some k =>
    obtain ⟨f1, f2, f3⟩ := find_some hf
    have hbelow : ∀ j, j < k → r.arr[j]? ≠ some none := by
      intro j hj
      by_cases hl : j < r.next
      · exact hv.low j hl
      · exact f3 j (by omega) hj
    have hkn : k < n := by
      rw [← hv.len]
      by_cases hl : k < r.arr.length
      · exact hl
      · rw [List.getElem?_eq_none (by omega)] at f2; cases f2
    refine ⟨k, _, by simp only [step, hf, if_true]; rfl, ?_, ?_, ?_⟩
    · by_cases hk : k ≤ i
      · exact hk
      · exact absurd ha (hbelow i (by omega))
    · cases hm : m k with
      | none => rfl
      | some x => rw [hv.arr k x hm] at f2; cases f2
    · intro j hj hm
      exact hbelow j hj (hv.good rfl j (by omega) hm)

/-- **C31** (refuted) An index whose registration the kernel refused is lost: the table of one element
then reports that it is full although nothing is registered. -/
theorem C31_refusal_loses_index :
    ∃ r, Reach 1 r (fun _ => none) true ∧ step r (.reg 7 true) = some (.index none, r) := by
  refine ⟨⟨[some 5], 0, 0, fun _ => none⟩, ?_, rfl⟩
  have := Reach.step (n := 1) (op := .reg 5 false) Reach.init trivial
    (show step (R.init 1) (.reg 5 false) = some (.index none, ⟨[some 5], 0, 0, fun _ => none⟩) from rfl)
  exact this

/-- A history with reuse. -/
example : (Common.run step (R.init 3) [.reg 10 true, .reg 11 true, .unreg 0, .reg 12 true, .get 0, .reg 13 true,
    .reg 14 true]).map (·.1) = some [.index (some 0), .index (some 1), .fd 10, .index (some 0), .fd 12,
      .index (some 2), .index none] := by decide +kernel

end Verif.DirectFd
