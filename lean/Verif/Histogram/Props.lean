import Verif.Histogram.Lemmas
/-!
# C11: `Histogram` bookkeeping is exact and merge-compatible
-/
namespace Verif.Histogram

/-- C11. Count, sum and bucket counts are exact (the counters modulo 2^64). -/
theorem C11_exact {h : H} {xs : Samples} (hb : Built h xs) :
    h.num = total xs % 2 ^ 64 ∧ h.sum = sumOf xs ∧
    ∀ b, h.buckets.getD b 0 = countIf (fun v => bucketOf v == b) xs % 2 ^ 64 :=
  ⟨(desc hb).num, (desc hb).sum, (desc hb).bkt⟩

/-- C11. Every value belongs to exactly one bucket, and that is where `Add` counts it. -/
theorem C11_bucket (v : Rat) : InBucket (bucketOf v) v ∧ ∀ b, InBucket b v → b = bucketOf v :=
  ⟨(bucketOf_iff v _).1 rfl, fun b h => ((bucketOf_iff v b).2 h).symm⟩

theorem ln_le (xs : Samples) : ln xs ≤ 154 := by
  induction xs with
  | nil => simp [ln]
  | cons x xs ih =>
    have := (C11_bucket x.1).1.1
    simp only [ln, List.foldr_cons] at ih ⊢; omega

theorem mn_spec (xs : Samples) : (∀ x ∈ xs, mn xs ≤ x.1) ∧ (mn xs = limit 153 ∨ ∃ x ∈ xs, mn xs = x.1) := by
  induction xs with
  | nil => exact ⟨by simp, .inl rfl⟩
  | cons x xs ih => simp only [mn, List.foldr_cons, List.mem_cons] at ih ⊢; grind

theorem mx_spec (xs : Samples) : (∀ x ∈ xs, x.1 ≤ mx xs) ∧ (mx xs = 0 ∨ ∃ x ∈ xs, mx xs = x.1) := by
  induction xs with
  | nil => exact ⟨by simp, .inl rfl⟩
  | cons x xs ih => simp only [mx, List.foldr_cons, List.mem_cons] at ih ⊢; grind

/-- C11. For samples between 0 and 1e200, `min` and `max` are the true extremes. -/
theorem C11_extremes {h : H} {xs : Samples} (hb : Built h xs) (hne : xs ≠ []) (hr : ∀ x ∈ xs, 0 ≤ x.1 ∧ x.1 ≤ limit 153) :
    (∀ x ∈ xs, h.min ≤ x.1 ∧ x.1 ≤ h.max) ∧ (∃ x ∈ xs, x.1 = h.min) ∧ ∃ x ∈ xs, x.1 = h.max := by
  rw [(desc hb).min, (desc hb).max]
  obtain ⟨h1, h2⟩ := mn_spec xs
  obtain ⟨h3, h4⟩ := mx_spec xs
  obtain ⟨x, hx⟩ := List.exists_mem_of_ne_nil xs hne
  refine ⟨fun x hx => ⟨h1 x hx, h3 x hx⟩, ?_, ?_⟩
  · rcases h2 with h2 | ⟨y, hy, h2⟩
    · refine ⟨x, hx, ?_⟩
      have := h1 x hx; have := hr x hx; grind
    · exact ⟨y, hy, h2.symm⟩
  · rcases h4 with h4 | ⟨y, hy, h4⟩
    · refine ⟨x, hx, ?_⟩
      have := h3 x hx; have := hr x hx; grind
    · exact ⟨y, hy, h4.symm⟩

/-- C11. Without a range assumption `max` is the larger of 0 and the samples and `min` the smaller of 1e200 and the samples:
for samples that are all negative, `max` is 0. -/
theorem C11_extremes_any {h : H} {xs : Samples} (hb : Built h xs) :
    (∀ x ∈ xs, h.min ≤ x.1 ∧ x.1 ≤ h.max) ∧ (h.min = limit 153 ∨ ∃ x ∈ xs, h.min = x.1) ∧ (h.max = 0 ∨ ∃ x ∈ xs, h.max = x.1) := by
  rw [(desc hb).min, (desc hb).max]
  exact ⟨fun x hx => ⟨(mn_spec xs).1 x hx, (mx_spec xs).1 x hx⟩, (mn_spec xs).2, (mx_spec xs).2⟩

/-- C11. A negative sample is not reflected in `max`. -/
theorem C11_negative_max : ∃ h, Built h [(-5, 1)] ∧ h.max = 0 :=
  ⟨_, .add (-5) 1 .clear, by decide +kernel⟩

/-- C11. The histogram depends on the multiset of samples only: any way of building it from the same samples, in any order and
with any merges, gives the same histogram. -/
theorem C11_order_free {h h' : H} {xs ys : Samples} (hb : Built h xs) (hb' : Built h' ys) (hp : xs.Perm ys) : h = h' :=
  desc_unique (desc hb) (desc hb') hp

/-- C11. Merging gives the histogram of the concatenated samples. -/
theorem C11_merge {h o u : H} {xs ys : Samples} (hb : Built h xs) (ho : Built o ys) (hu : Built u (xs ++ ys)) : h.merge o = u :=
  C11_order_free (.merge hb ho) hu (.refl _)

/-- A histogram built by `Add` alone, for any samples. -/
def addSamples (xs : Samples) : H := xs.foldl (fun h x => h.add x.1 x.2) clear

theorem addSamples_built (xs : Samples) : Built (addSamples xs) xs := by
  suffices H : ∀ xs ys h, Built h ys → Built (xs.foldl (fun h x => h.add x.1 x.2) h) (ys ++ xs) by
    simpa [addSamples] using H xs [] clear .clear
  intro xs
  induction xs with
  | nil => intro ys h hb; simpa using hb
  | cons x xs ih =>
    intro ys h hb
    have := ih (ys ++ [x]) _ (.add x.1 x.2 hb)
    simpa using this

/-- C11. In particular: adding two lists of samples to two histograms and merging them is the same as adding all of them to
one. -/
theorem C11_merge_add (xs ys : Samples) : (addSamples xs).merge (addSamples ys) = addSamples (xs ++ ys) :=
  C11_merge (addSamples_built xs) (addSamples_built ys) (addSamples_built _)

theorem countIf_le (f : Rat → Bool) (xs : Samples) : countIf f xs ≤ total xs := by
  induction xs with
  | nil => simp [countIf, total]
  | cons x xs ih => simp [countIf, total] at ih ⊢; split <;> omega

/-- Number of samples in the buckets below `b`. -/
def below (b : Nat) (xs : Samples) : Nat := countIf (fun v => decide (bucketOf v < b)) xs

theorem take_below {h : H} {xs : Samples} (hd : Desc h xs) (hs : total xs < 2 ^ 64) (b : Nat) :
    (h.buckets.take b).sum = below b xs := by
  have hcnt : ∀ b, h.buckets.getD b 0 = countIf (fun v => bucketOf v == b) xs := by
    intro b
    rw [hd.bkt b]; exact Nat.mod_eq_of_lt (by have := countIf_le (fun v => bucketOf v == b) xs; omega)
  induction b with
  | zero =>
    have : ∀ xs, below 0 xs = 0 := by
      intro xs; induction xs with
      | nil => rfl
      | cons x xs ih => simpa [below, countIf] using ih
    simp [this]
  | succ b ih =>
    have hstep : ∀ xs, below (b + 1) xs = below b xs + countIf (fun v => bucketOf v == b) xs := by
      intro xs; induction xs with
      | nil => rfl
      | cons x xs ih =>
        simp only [below, countIf, List.map_cons, List.sum_cons, decide_eq_true_eq, beq_iff_eq] at ih ⊢
        rw [ih]
        split <;> split <;> split <;> omega
    have h1 := hcnt b
    rw [List.take_add_one, List.sum_append, ih, hstep, ← h1]
    simp only [List.getD_eq_getElem?_getD]
    cases h.buckets[b]? <;> simp

theorem below_all (xs : Samples) : below 154 xs = total xs := by
  induction xs with
  | nil => rfl
  | cons x xs ih =>
    have := (C11_bucket x.1).1.1
    simp [below, countIf, total, this] at ih ⊢; exact ih

theorem sum_total {h : H} {xs : Samples} (hd : Desc h xs) (hs : total xs < 2 ^ 64) : h.buckets.sum = h.num ∧ h.num = total xs := by
  have h1 := take_below hd hs 154
  have h2 : h.buckets.length ≤ 154 := by rw [hd.len]; exact ln_le xs
  rw [List.take_of_length_le h2, below_all] at h1
  have h3 : h.num = total xs := by rw [hd.num]; exact Nat.mod_eq_of_lt hs
  exact ⟨by omega, h3⟩

/-- C11. The bucket counts sum to the count, as long as the 64 bit counter does not wrap. -/
theorem C11_total {h : H} {xs : Samples} (hb : Built h xs) (hs : total xs < 2 ^ 64) : h.buckets.sum = h.num :=
  (sum_total (desc hb) hs).1

/-- The states reachable with `Decay` as well. -/
inductive Decayed : H → Prop
  | clear : Decayed clear
  | add {h} (v c) : Decayed h → Decayed (h.add v c)
  | merge {h o} : Decayed h → Decayed o → Decayed (h.merge o)
  | decay {h} : Decayed h → Decayed h.decay

theorem modify_sum (l : List Nat) (b c : Nat) (hb : b < l.length) (f : Nat → Nat) (hf : ∀ x, f x % 2 ^ 64 = (x + c) % 2 ^ 64) :
    (l.modify b f).sum % 2 ^ 64 = (l.sum + c) % 2 ^ 64 := by
  induction l generalizing b with
  | nil => simp at hb
  | cons x l ih =>
    cases b with
    | zero => have := hf x; simp [List.modify_cons] at this ⊢; omega
    | succ b =>
      have := ih b (by simpa using hb)
      simp [List.modify_cons] at this ⊢; omega

theorem addAll_sum (xs ys : List Nat) (h : ys.length ≤ xs.length) : (addAll xs ys).sum % 2 ^ 64 = (xs.sum + ys.sum) % 2 ^ 64 := by
  induction xs generalizing ys with
  | nil => cases ys <;> simp [addAll] at h ⊢
  | cons x xs ih =>
    cases ys with
    | nil => simp [addAll]
    | cons y ys =>
      have := ih ys (by simpa using h)
      simp [addAll, w64] at this ⊢; omega

theorem grow_sum (n : Nat) (l : List Nat) : (grow n l).sum = l.sum := by simp [grow]

theorem foldl_sum (l : List Nat) (a : Nat) : l.foldl (fun a b => w64 (a + b)) a % 2 ^ 64 = (a + l.sum) % 2 ^ 64 := by
  induction l generalizing a with
  | nil => simp
  | cons x l ih => rw [List.foldl_cons, ih]; simp only [w64, List.sum_cons]; omega

/-- C11. The bucket counts sum to the count modulo 2^64, with `Decay` too. -/
theorem C11_total_decay {h : H} (hd : Decayed h) : h.num % 2 ^ 64 = h.buckets.sum % 2 ^ 64 := by
  induction hd with
  | clear => rfl
  | add v c _ ih =>
    rename_i h _
    simp only [H.add]
    have key : ∀ bs : List Nat, bucketOf v < bs.length → bs.sum = h.buckets.sum →
        w64 (h.num + c) % 2 ^ 64 = (bs.modify (bucketOf v) fun x => w64 (x + c)).sum % 2 ^ 64 := by
      intro bs h1 h2
      rw [modify_sum bs _ c h1 _ (by intro x; simp [w64]), h2]; simp only [w64]; omega
    split
    · exact key _ (by rw [grow_length]; omega) (grow_sum _ _)
    · exact key _ (by omega) rfl
  | merge _ _ ih1 ih2 =>
    rename_i h o _ _
    simp only [H.merge]
    split
    · rw [addAll_sum _ _ (by rw [grow_length]; omega), grow_sum]; simp only [w64]; omega
    · rw [addAll_sum _ _ (by omega)]; simp only [w64]; omega
  | decay _ ih =>
    rename_i h _
    simp only [H.decay]
    rw [foldl_sum]; simp

/-- C11. `Average` is the sum of the samples divided by their number. -/
theorem C11_average {h : H} {xs : Samples} (hb : Built h xs) (hs : total xs < 2 ^ 64) (h0 : total xs ≠ 0) :
    h.average = sumOf xs / (total xs : Rat) := by
  have h1 := (sum_total (desc hb) hs).2
  simp [H.average, h1, h0, (desc hb).sum]

/-! ## Percentiles -/

theorem threshold_mono (h : H) {p q : Rat} (hpq : p ≤ q) : h.threshold p ≤ h.threshold q := by
  unfold H.threshold
  have h1 : p / 100 ≤ q / 100 := by grind
  have := Rat.floor_monotone (Rat.mul_le_mul_of_nonneg_left h1 (c := (h.num : Rat)) Rat.natCast_nonneg)
  omega

theorem small {h : H} {xs : Samples} (hd : Desc h xs) (hs : total xs + 1 < 2 ^ 64) (b : Nat) : h.buckets.getD b 0 + 1 < 2 ^ 64 := by
  rw [hd.bkt b]
  have := countIf_le (fun v => bucketOf v == b) xs
  have : w64 (countIf (fun v => bucketOf v == b) xs) ≤ countIf (fun v => bucketOf v == b) xs := Nat.mod_le _ _
  omega

theorem percentile_eq {h : H} {xs : Samples} (hd : Desc h xs) (hs : total xs + 1 < 2 ^ 64) (p : Rat) :
    h.percentile p = if h.num = 0 then 0 else find1 h (h.threshold p) h.buckets 0 0 := by
  unfold H.percentile H.percentiles
  split
  · simp
  · rw [scan_eq h h.buckets 0 0 [p] (by simp) (by have := sum_total hd (by omega); omega)]; simp

/-- C11. Computing several ascending percentiles in one pass gives the same as computing them one by one. -/
theorem C11_percentiles {h : H} {xs : Samples} (hb : Built h xs) (hs : total xs + 1 < 2 ^ 64) (ps : List Rat)
    (hp : ps.Pairwise (· ≤ ·)) : h.percentiles ps = ps.map h.percentile := by
  have hd := desc hb
  have hmap : (ps.map h.threshold).Pairwise (· ≤ ·) := hp.map h.threshold (fun _ _ h' => threshold_mono h h')
  have : h.percentiles ps = ps.map fun p => if h.num = 0 then 0 else find1 h (h.threshold p) h.buckets 0 0 := by
    unfold H.percentiles
    split
    · rfl
    · rw [scan_eq h h.buckets 0 0 ps hmap (by have := sum_total hd (by omega); omega)]
  rw [this]
  exact List.map_congr_left (fun p _ => (percentile_eq hd hs p).symm)

/-- C11. Percentiles are monotone. -/
theorem C11_percentile_mono {h : H} {xs : Samples} (hb : Built h xs) (hs : total xs + 1 < 2 ^ 64) {p q : Rat} (hpq : p ≤ q) :
    h.percentile p ≤ h.percentile q := by
  have hd := desc hb
  rw [percentile_eq hd hs, percentile_eq hd hs]
  split
  · exact Rat.le_refl
  · exact find1_mono h (threshold_mono h hpq) _ _ _ rfl (by rw [hd.len]; exact ln_le xs) (small hd hs)

/-- The rank asked for by percentile `p`: `p`% of the number of samples, rounded down. -/
def rank (p : Rat) (xs : Samples) : Nat := ((total xs : Rat) * (p / 100)).floor.toNat

theorem countIf_pos {f : Rat → Bool} {xs : Samples} (h : 0 < countIf f xs) : ∃ x ∈ xs, f x.1 = true := by
  induction xs with
  | nil => simp [countIf] at h
  | cons x xs ih =>
    by_cases hf : f x.1
    · exact ⟨x, by simp, hf⟩
    · simp only [countIf, List.map_cons, List.sum_cons, hf, Bool.false_eq_true, if_false, Nat.zero_add] at h
      obtain ⟨y, hy, h2⟩ := ih h
      exact ⟨y, List.mem_cons_of_mem _ hy, h2⟩

/-- C11. A percentile of samples between 0 and 1e200 lies between the smallest and the largest sample, and in the bucket that
contains the sample of the rank asked for: `k` of the samples (and not fewer) are in the buckets up to that one. -/
theorem C11_percentile {h : H} {xs : Samples} (hb : Built h xs) (hs : total xs + 1 < 2 ^ 64)
    (hr : ∀ x ∈ xs, 0 ≤ x.1 ∧ x.1 ≤ limit 153) {p : Rat} (hk : 0 < rank p xs) (hk' : rank p xs ≤ total xs) :
    h.min ≤ h.percentile p ∧ h.percentile p ≤ h.max ∧
    ∃ b, InBucket b (h.percentile p) ∧ countIf (fun v => decide (bucketOf v < b)) xs < rank p xs ∧
      rank p xs ≤ countIf (fun v => decide (bucketOf v < b + 1)) xs := by
  have hd := desc hb
  obtain ⟨hn1, hn2⟩ := sum_total hd (by omega)
  have hth : h.threshold p = rank p xs := by unfold H.threshold rank; rw [hn2]
  have hn0 : h.num ≠ 0 := by omega
  obtain ⟨i, hi, h1, h2, h3⟩ := find1_bucket h (k := rank p xs) h.buckets 0 0 hk (by omega)
  simp only [Nat.zero_add] at h1 h2 h3
  have hval : h.percentile p = h.interpolate i (rank p xs - (h.buckets.take i).sum) := by
    rw [percentile_eq hd hs, if_neg hn0, hth, h3]
  have hi154 : i < 154 := by have := ln_le xs; rw [← hd.len] at this; omega
  rw [take_below hd (by omega)] at h1 h2
  have hbi : below (i + 1) xs - below i xs = h.buckets.getD i 0 := by
    rw [← take_below hd (by omega), ← take_below hd (by omega), List.take_add_one, List.sum_append]
    simp only [List.getD_eq_getElem?_getD]
    cases h.buckets[i]? <;> simp
  have hpos : rank p xs - (h.buckets.take i).sum ≤ h.buckets.getD i 0 := by
    rw [take_below hd (by omega)]; omega
  -- a sample in the bucket
  obtain ⟨x, hx, hxb⟩ : ∃ x ∈ xs, bucketOf x.1 = i := by
    have : 0 < countIf (fun v => bucketOf v == i) xs := by
      have := hd.bkt i
      rw [← hbi, w64, Nat.mod_eq_of_lt (by have := countIf_le (fun v => bucketOf v == i) xs; omega)] at this
      omega
    obtain ⟨x, hx, h4⟩ := countIf_pos this
    exact ⟨x, hx, by simpa using h4⟩
  have hin := (bucketOf_iff x.1 i).1 hxb
  have hext := (C11_extremes_any hb).1 x hx
  have hx0 := hr x hx
  rw [interp_eq _ _ _ (small hd hs i)] at hval
  have r1 := raw_lo h i (rank p xs - (h.buckets.take i).sum) hi154
  have r2 := raw_hi h i (rank p xs - (h.buckets.take i).sum) hi154 hpos
  change h.percentile p = clampH h (raw h i _) at hval
  rw [hval]
  generalize raw h i _ = r at *
  have hlo : lo i ≤ x.1 := by
    unfold lo; split
    · exact hx0.1
    · rcases hin.2.1 with h0 | h0
      · contradiction
      · exact h0
  refine ⟨by unfold clampH; grind, clamp_le _ _, i, ⟨hi154, ?_, ?_⟩, h1, h2⟩
  · by_cases h0 : i = 0
    · exact .inl h0
    · right
      have : lo i = limit (i - 1) := by simp [lo, h0]
      unfold clampH; grind
  · by_cases h0 : i = 153
    · exact .inl h0
    · right
      have := hin.2.2.resolve_left h0
      unfold clampH; grind

/-! ## Concrete histograms -/

example : Built (addSamples [(3, 2), (15, 1), (10 ^ 10, 1)]) [(3, 2), (15, 1), (10 ^ 10, 1)] := addSamples_built _
example : (addSamples [(3, 2), (15, 1), (10 ^ 10, 1)]).num = 4 := by decide +kernel
example : bucketOf 3 = 3 ∧ bucketOf (299 / 100) = 2 ∧ bucketOf (10 ^ 10) = 153 ∧ bucketOf (-1) = 0 := by decide +kernel
example : (addSamples [(3, 2), (15, 1), (10 ^ 10, 1)]).percentile 75 = 15 := by decide +kernel
example : rank 50 [(3, 2), (15, 1), (10 ^ 10, 1)] = 2 := by decide +kernel
example : (addSamples [(3, 2), (15, 1), (10 ^ 10, 1)]).percentile 50 = 3 + 2 / 3 := by decide +kernel

end Verif.Histogram
