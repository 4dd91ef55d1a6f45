import Verif.Sliding.Spec
/-!
C35: `SlidingCounter` equals the sum over the window.
-/
namespace Verif.Sliding

/-- Sum over entries. -/
def wsum (es : List (Nat × Int)) (p : Nat → Bool) : Int := ((es.filter fun e => p e.1).map (·.2)).sum

theorem wsum_nil (p) : wsum [] p = 0 := rfl
theorem wsum_cons (e es p) : wsum (e :: es) p = (if p e.1 then e.2 else 0) + wsum es p := by
  simp only [wsum, List.filter_cons]; split <;> simp
theorem wsum_append (es fs p) : wsum (es ++ fs) p = wsum es p + wsum fs p := by
  simp [wsum, List.filter_append]

theorem wsum_congr {es : List (Nat × Int)} {p q : Nat → Bool} (h : ∀ e ∈ es, p e.1 = q e.1) : wsum es p = wsum es q := by
  induction es with
  | nil => rfl
  | cons e es ih => rw [wsum_cons, wsum_cons, h e (by simp), ih (fun x hx => h x (by simp [hx]))]

theorem wsum_zero {es : List (Nat × Int)} {p : Nat → Bool} (h : ∀ e ∈ es, p e.1 = false) : wsum es p = 0 := by
  induction es with
  | nil => rfl
  | cons e es ih => rw [wsum_cons, h e (by simp), ih (fun x hx => h x (by simp [hx]))]; rfl

theorem wsum_split {es : List (Nat × Int)} {p q r : Nat → Bool}
    (h : ∀ e ∈ es, (p e.1 = (q e.1 || r e.1)) ∧ (q e.1 && r e.1) = false) : wsum es p = wsum es q + wsum es r := by
  induction es with
  | nil => rfl
  | cons e es ih =>
    rw [wsum_cons, wsum_cons, wsum_cons, ih (fun x hx => h x (by simp [hx]))]
    obtain ⟨h1, h2⟩ := h e (by simp)
    cases hq : q e.1 <;> cases hr : r e.1 <;> simp_all <;> omega

/-- The counter stands for the log, its current slot being `t`. -/
structure Rep (num : Nat) (s : SC) (es : List (Nat × Int)) (t : Nat) : Prop where
  le : ∀ e ∈ es, e.1 ≤ t
  bins : ∀ j, j < num → s.count j = wsum es (fun x => x + num > t && x % num = j)
  tot : s.total = wsum es (fun x => x + num > t)

/-- A slot of the window before `t + 1` in the bin of `t + 1` is the one that leaves the window. -/
theorem leaving {num t x : Nat} (hn : 0 < num) (h1 : x ≤ t) (h2 : t < x + num) (h3 : x % num = (t + 1) % num) : x + num = t + 1 := by
  have hx := Nat.div_add_mod x num
  have ht := Nat.div_add_mod (t + 1) num
  rw [h3] at hx
  have : num * (x / num) + num > num * ((t + 1) / num) - 1 := by omega
  have hlt : num * (x / num) < num * ((t + 1) / num) := by omega
  have hlt' : x / num < (t + 1) / num := Nat.lt_of_mul_lt_mul_left hlt
  have hle : num * (x / num + 1) ≤ num * ((t + 1) / num) := Nat.mul_le_mul_left _ hlt'
  rw [Nat.mul_add, Nat.mul_one] at hle
  omega

theorem clearBin_rep {num : Nat} (hn : 0 < num) {s : SC} {es : List (Nat × Int)} {t : Nat} (h : Rep num s es t) :
    Rep num (s.clearBin num (t + 1)) es (t + 1) := by
  have hbin := h.bins ((t + 1) % num) (Nat.mod_lt _ hn)
  refine ⟨fun e he => by have := h.le e he; omega, ?_, ?_⟩
  · intro j hj
    simp only [SC.clearBin]
    by_cases hjb : j = (t + 1) % num
    · simp only [hjb, if_true]
      symm
      apply wsum_zero
      intro e he
      have hle := h.le e he
      rw [Bool.eq_false_iff]
      intro hc
      simp only [Bool.and_eq_true, decide_eq_true_eq] at hc
      have := leaving hn hle (by omega) hc.2
      omega
    · simp only [hjb, if_false]
      rw [h.bins j hj]
      apply wsum_congr
      intro e he
      have hle := h.le e he
      rw [Bool.eq_iff_iff]
      simp only [Bool.and_eq_true, decide_eq_true_eq]
      constructor
      · rintro ⟨h1, h2⟩
        refine ⟨?_, h2⟩
        apply Classical.byContradiction
        intro h3
        have h4 : e.1 + num = t + 1 := by omega
        have : e.1 % num = (t + 1) % num := by rw [← h4, Nat.add_mod_right]
        omega
      · rintro ⟨h1, h2⟩; exact ⟨by omega, h2⟩
  · simp only [SC.clearBin]
    rw [hbin, h.tot]
    have : wsum es (fun x => x + num > t) =
        wsum es (fun x => x + num > t + 1) + wsum es (fun x => x + num > t && x % num = (t + 1) % num) := by
      apply wsum_split
      intro e he
      have hle := h.le e he
      constructor
      · rw [Bool.eq_iff_iff]
        simp only [Bool.or_eq_true, Bool.and_eq_true, decide_eq_true_eq]
        constructor
        · intro h1
          by_cases h2 : e.1 + num > t + 1
          · exact .inl h2
          · have h4 : e.1 + num = t + 1 := by omega
            exact .inr ⟨h1, by rw [← h4, Nat.add_mod_right]⟩
        · rintro (h1 | h1) <;> omega
      · rw [Bool.eq_false_iff]
        intro hc
        simp only [Bool.and_eq_true, decide_eq_true_eq] at hc
        have := leaving hn hle (by omega) hc.2.2
        omega
    omega

theorem clearBin_last (num : Nat) (s : SC) (i : Nat) : (s.clearBin num i).last = s.last := rfl

theorem clearBins_rep {num : Nat} (hn : 0 < num) {es : List (Nat × Int)} :
    ∀ (n : Nat) (s : SC) (t : Nat), Rep num s es t → Rep num (s.clearBins num (t + 1) n) es (t + n) := by
  intro n
  induction n with
  | zero => intro s t h; exact h
  | succ n ih =>
    intro s t h
    have := ih _ _ (clearBin_rep hn h)
    rw [show t + 1 + n = t + (n + 1) by omega] at this
    exact this

theorem move_rep {num : Nat} (hn : 0 < num) {s : SC} {es : List (Nat × Int)} (h : Rep num s es s.last) (now : Nat) :
    Rep num (s.move num now) es (max s.last now) ∧ (s.move num now).last = max s.last now := by
  unfold SC.move
  split
  · rename_i hgt
    have hmax : max s.last now = now := by omega
    rw [hmax]
    split
    · refine ⟨⟨fun e he => by have := h.le e he; omega, ?_, ?_⟩, rfl⟩
      · intro j hj
        symm; apply wsum_zero
        intro e he
        have := h.le e he
        rw [Bool.eq_false_iff]; intro hc
        simp only [Bool.and_eq_true, decide_eq_true_eq] at hc
        omega
      · symm; apply wsum_zero
        intro e he
        have := h.le e he
        rw [Bool.eq_false_iff]; intro hc
        simp only [decide_eq_true_eq] at hc
        omega
    · have := clearBins_rep hn (now - s.last) s s.last h
      rw [show s.last + (now - s.last) = now by omega] at this
      exact ⟨⟨this.le, this.bins, this.tot⟩, rfl⟩
  · have hmax : max s.last now = s.last := by omega
    rw [hmax]; exact ⟨h, rfl⟩

theorem step_rep {num : Nat} (hn : 0 < num) {s : SC} {l : Log} (h : Rep num s l.entries s.last) (hl : l.now = s.last) (op : Op) :
    (s.step num op).1 = (l.step num op).1 ∧ Rep num (s.step num op).2 (l.step num op).2.entries (s.step num op).2.last ∧
      (l.step num op).2.now = (s.step num op).2.last := by
  cases op with
  | incBy now d =>
    obtain ⟨h1, h2⟩ := move_rep hn h now
    simp only [SC.step, Log.step, true_and]
    rw [h2, hl]
    generalize max s.last now = t at *
    refine ⟨⟨?_, ?_, ?_⟩, rfl⟩
    · intro e he
      rcases List.mem_append.1 he with he | he
      · exact h1.le e he
      · simp at he; subst he; simp
    · intro j hj
      rw [wsum_append, wsum_cons, wsum_nil, ← h1.bins j hj]
      have : t < t + num := by omega
      by_cases hjb : j = t % num
      · simp [hjb, hn]
      · have : ¬ t % num = j := fun h => hjb h.symm
        simp [hjb, this]
    · rw [wsum_append, wsum_cons, wsum_nil, ← h1.tot]
      simp [hn]
  | sum now =>
    obtain ⟨h1, h2⟩ := move_rep hn h now
    simp only [SC.step, Log.step]
    rw [h2, hl]
    exact ⟨by rw [h1.tot]; rfl, h1, rfl⟩
  | sumTail now =>
    obtain ⟨h1, h2⟩ := move_rep hn h now
    simp only [SC.step, Log.step]
    rw [h2, hl]
    refine ⟨?_, h1, rfl⟩
    rw [h1.tot, h1.bins _ (Nat.mod_lt _ hn)]
    generalize max s.last now = t at *
    congr 1
    have : wsum l.entries (fun x => decide (x + num > t)) =
        wsum l.entries (fun x => decide (x + num > t) && decide (x < t)) +
        wsum l.entries (fun x => decide (x + num > t) && decide (x % num = t % num)) := by
      apply wsum_split
      intro e he
      have hle := h1.le e he
      have key : t < e.1 + num → e.1 % num = t % num → ¬ e.1 < t := by
        intro ha hb hc
        have e1 : t - 1 + 1 = t := by omega
        have := leaving (num := num) (t := t - 1) (x := e.1) hn (by omega) (by omega) (by rw [e1]; exact hb)
        omega
      constructor
      · rw [Bool.eq_iff_iff]
        simp only [Bool.or_eq_true, Bool.and_eq_true, decide_eq_true_eq]
        constructor
        · intro h
          by_cases h2 : e.1 < t
          · exact .inl ⟨h, h2⟩
          · have : e.1 = t := by omega
            exact .inr ⟨h, by rw [this]⟩
        · rintro (h | h) <;> exact h.1
      · rw [Bool.eq_false_iff]
        intro hc
        simp only [Bool.and_eq_true, decide_eq_true_eq] at hc
        exact key hc.2.1 hc.2.2 hc.1.2
    have hsum : l.sumOf (fun s => decide (s + num > t) && decide (s < t)) =
        wsum l.entries (fun x => decide (x + num > t) && decide (x < t)) := rfl
    rw [hsum, this]; omega
  | reset =>
    simp only [SC.step, Log.step, true_and]
    refine ⟨⟨by simp, by intro j _; rfl, rfl⟩, hl⟩

/-- For every sequence of calls at whatever times the clock shows (also when it stands still or goes back), the values returned are
the sums of the increments over the last `num` slots, the current one included or not; the current slot is the largest shown. -/
theorem C35_window_sums (num : Nat) (hn : 1 < num) (ops : List Op) :
    SC.init.run num ops = (Log.mk [] 0).run num ops := by
  have : ∀ (ops : List Op) (s : SC) (l : Log), Rep num s l.entries s.last → l.now = s.last → s.run num ops = l.run num ops := by
    intro ops
    induction ops with
    | nil => intros; rfl
    | cons op ops ih =>
      intro s l h hl
      obtain ⟨h1, h2, h3⟩ := step_rep (by omega) h hl op
      simp only [SC.run, Log.run, h1, ih _ _ h2 h3]
  exact this ops _ _ ⟨by simp, by intro j _; rfl, rfl⟩ rfl

/-! A concrete history over 3 slots. -/
example : SC.init.run 3 [.incBy 10 5, .incBy 11 7, .sum 12, .sumTail 11, .incBy 13 1, .sum 13, .sumTail 13, .sum 16, .reset, .sum 16] =
    [none, none, some 12, some 12, none, some 8, some 7, some 0, none, some 0] := by decide +kernel

end Verif.Sliding
