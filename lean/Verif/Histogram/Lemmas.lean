import Verif.Histogram.Spec
namespace Verif.Histogram

def mn (xs : Samples) : Rat := xs.foldr (fun x m => if x.1 < m then x.1 else m) (limit (numBuckets - 1))
def mx (xs : Samples) : Rat := xs.foldr (fun x m => if x.1 > m then x.1 else m) 0
def ln (xs : Samples) : Nat := xs.foldr (fun x m => max (bucketOf x.1 + 1) m) 0

structure Desc (h : H) (xs : Samples) : Prop where
  num : h.num = w64 (total xs)
  sum : h.sum = sumOf xs
  min : h.min = mn xs
  max : h.max = mx xs
  len : h.buckets.length = ln xs
  bkt : ∀ b, h.buckets.getD b 0 = w64 (countIf (fun v => bucketOf v == b) xs)

theorem total_append (xs ys) : total (xs ++ ys) = total xs + total ys := by simp [total]
theorem countIf_append (f xs ys) : countIf f (xs ++ ys) = countIf f xs + countIf f ys := by simp [countIf]
theorem sumOf_append (xs ys) : sumOf (xs ++ ys) = sumOf xs + sumOf ys := by
  induction xs with
  | nil => simp [sumOf]; grind
  | cons x xs ih => simp [sumOf] at ih ⊢; grind
theorem mn_le (xs) : mn xs ≤ limit (numBuckets - 1) := by
  induction xs with
  | nil => exact Rat.le_refl
  | cons x xs ih => simp only [mn, List.foldr_cons] at ih ⊢; grind
theorem mx_ge (xs) : 0 ≤ mx xs := by
  induction xs with
  | nil => exact Rat.le_refl
  | cons x xs ih => simp only [mx, List.foldr_cons] at ih ⊢; grind
theorem mn_append (xs ys) : mn (xs ++ ys) = if mn ys < mn xs then mn ys else mn xs := by
  induction xs with
  | nil => have := mn_le ys; simp only [List.nil_append]; rw [show mn [] = limit (numBuckets - 1) from rfl]; grind
  | cons x xs ih =>
    simp only [mn, List.cons_append, List.foldr_cons] at ih ⊢
    rw [ih]; grind
theorem mx_append (xs ys) : mx (xs ++ ys) = if mx ys > mx xs then mx ys else mx xs := by
  induction xs with
  | nil => have := mx_ge ys; simp only [List.nil_append]; rw [show mx [] = 0 from rfl]; grind
  | cons x xs ih =>
    simp only [mx, List.cons_append, List.foldr_cons] at ih ⊢
    rw [ih]; grind
theorem ln_append (xs ys) : ln (xs ++ ys) = max (ln xs) (ln ys) := by
  induction xs with
  | nil => simp [ln]
  | cons x xs ih =>
    simp only [ln, List.cons_append, List.foldr_cons] at ih ⊢
    rw [ih]; omega

theorem getD_eq (l : List Nat) (b : Nat) : l.getD b 0 = (l[b]?).getD 0 := by simp

theorem grow_length (n l) : (grow n l).length = max n l.length := by simp [grow]; omega
theorem grow_get (n l b) : (grow n l).getD b 0 = l.getD b 0 := by
  simp only [grow, getD_eq, List.getElem?_append]
  split
  · rfl
  · rw [List.getElem?_replicate]
    have : l[b]? = none := by simp; omega
    rw [this]; split <;> simp

theorem addAll_length (xs ys : List Nat) (h : ys.length ≤ xs.length) : (addAll xs ys).length = xs.length := by
  induction xs generalizing ys with
  | nil => cases ys <;> simp [addAll] at h ⊢
  | cons x xs ih => cases ys <;> simp [addAll] at h ⊢; exact ih _ h
theorem addAll_get (xs ys : List Nat) (h : ys.length ≤ xs.length) (hx : ∀ x ∈ xs, x < 2 ^ 64) (b : Nat) :
    (addAll xs ys).getD b 0 = w64 (xs.getD b 0 + ys.getD b 0) := by
  induction xs generalizing ys b with
  | nil => cases ys <;> simp [addAll, w64] at h ⊢
  | cons x xs ih =>
    cases ys with
    | nil =>
      simp only [addAll, List.getD_nil, Nat.add_zero]
      simp only [List.getD_eq_getElem?_getD]
      cases hh : (x :: xs)[b]? with
      | none => simp [w64]
      | some y => have := hx y (List.mem_of_getElem? hh); simp [w64]; omega
    | cons y ys =>
      simp only [List.length_cons, Nat.add_le_add_iff_right] at h
      cases b with
      | zero => simp [addAll]
      | succ b => simpa [addAll] using ih ys h (fun x hm => hx x (List.mem_cons_of_mem _ hm)) b

theorem getD_lt {h : H} {xs : Samples} (hd : Desc h xs) : ∀ x ∈ h.buckets, x < 2 ^ 64 := by
  intro x hx
  obtain ⟨b, hb, rfl⟩ := List.mem_iff_getElem.1 hx
  have := hd.bkt b
  simp only [List.getD_eq_getElem?_getD, List.getElem?_eq_getElem hb, Option.getD_some] at this
  rw [this]; exact Nat.mod_lt _ (by decide)

theorem desc_clear : Desc clear [] := by
  constructor <;> simp [clear, total, sumOf, mn, mx, ln, countIf, w64]

theorem desc_add {h : H} {xs : Samples} (v c) (hd : Desc h xs) : Desc (h.add v c) (xs ++ [(v, c)]) := by
  constructor
  · simp only [H.add, hd.num, total_append]; simp [total, w64]
  · simp only [H.add, hd.sum, sumOf_append]; simp [sumOf]; grind
  · simp only [H.add, hd.min, mn_append]
    have := mn_le xs
    simp only [mn, List.foldr_cons, List.foldr_nil] at this ⊢; grind
  · simp only [H.add, hd.max, mx_append]
    have := mx_ge xs
    simp only [mx, List.foldr_cons, List.foldr_nil] at this ⊢; grind
  · simp only [H.add, List.length_modify, ln_append]
    have := hd.len
    split <;> simp [grow_length, ln] at this ⊢ <;> omega
  · intro b
    have hb := hd.bkt b
    have key : ∀ bs : List Nat, (bucketOf v < bs.length) → bs.getD b 0 = h.buckets.getD b 0 →
        (bs.modify (bucketOf v) fun x => w64 (x + c)).getD b 0 = w64 (countIf (fun v => bucketOf v == b) (xs ++ [(v, c)])) := by
      intro bs hlt he
      rw [countIf_append]
      simp only [List.getD_eq_getElem?_getD, List.getElem?_modify] at hb he ⊢
      by_cases e : bucketOf v = b
      · subst e
        simp only [List.getElem?_eq_getElem hlt] at he ⊢
        simp [countIf, hb, w64] at he ⊢
        rw [he]; omega
      · simp [e, countIf] at he hb ⊢; rw [he, hb]
    simp only [H.add]
    split
    · exact key _ (by rw [grow_length]; omega) (grow_get _ _ _)
    · exact key _ (by omega) rfl

theorem desc_merge {h o : H} {xs ys : Samples} (hd : Desc h xs) (ho : Desc o ys) : Desc (h.merge o) (xs ++ ys) := by
  have hlen : ∀ bs : List Nat, bs = (if o.buckets.length > h.buckets.length then grow o.buckets.length h.buckets else h.buckets) →
      o.buckets.length ≤ bs.length ∧ bs.length = max h.buckets.length o.buckets.length ∧ (∀ b, bs.getD b 0 = h.buckets.getD b 0) ∧
      ∀ x ∈ bs, x < 2 ^ 64 := by
    rintro bs rfl
    split
    · refine ⟨by rw [grow_length]; omega, by rw [grow_length]; omega, grow_get _ _, ?_⟩
      intro x hx
      simp only [grow, List.mem_append, List.mem_replicate] at hx
      rcases hx with hx | hx
      · exact getD_lt hd x hx
      · omega
    · exact ⟨by omega, by omega, fun _ => rfl, getD_lt hd⟩
  obtain ⟨h1, h2, h3, h4⟩ := hlen _ rfl
  constructor
  · simp only [H.merge, hd.num, ho.num, total_append, w64]; omega
  · simp only [H.merge, hd.sum, ho.sum, sumOf_append]
  · simp only [H.merge, hd.min, ho.min, mn_append]
  · simp only [H.merge, hd.max, ho.max, mx_append]
  · simp only [H.merge]; rw [addAll_length _ _ h1, h2, ln_append, hd.len, ho.len]
  · intro b
    simp only [H.merge]
    rw [addAll_get _ _ h1 h4, h3, hd.bkt, ho.bkt, countIf_append]
    simp only [w64]; omega

theorem desc {h : H} {xs : Samples} (hb : Built h xs) : Desc h xs := by
  induction hb with
  | clear => exact desc_clear
  | add v c _ ih => exact desc_add v c ih
  | merge _ _ ih1 ih2 => exact desc_merge ih1 ih2

/-- The samples determine the histogram, whatever their order. -/
theorem desc_unique {h h' : H} {xs ys : Samples} (hd : Desc h xs) (hd' : Desc h' ys) (hp : xs.Perm ys) : h = h' := by
  have h0 : ∀ f, countIf f xs = countIf f ys := by
    intro f; unfold countIf; exact (hp.map _).sum_nat
  have h1 : total xs = total ys ∧ sumOf xs = sumOf ys ∧ mn xs = mn ys ∧ mx xs = mx ys ∧ ln xs = ln ys := by
    clear hd hd' h0
    induction hp with
    | nil => simp
    | cons x _ ih =>
      simp only [total, sumOf, mn, mx, ln, List.map_cons, List.sum_cons, List.foldr_cons] at ih ⊢
      grind
    | swap x y l =>
      simp only [total, sumOf, mn, mx, ln, List.map_cons, List.sum_cons, List.foldr_cons]
      refine ⟨by omega, by grind, by grind, by grind, by omega⟩
    | trans _ _ ih1 ih2 => grind
  obtain ⟨h1, h2, h3, h4, h5⟩ := h1
  have e1 := hd.num.trans (h1 ▸ hd'.num.symm)
  have e2 := hd.sum.trans (h2 ▸ hd'.sum.symm)
  have e3 := hd.min.trans (h3 ▸ hd'.min.symm)
  have e4 := hd.max.trans (h4 ▸ hd'.max.symm)
  have e5 := hd.len.trans (h5 ▸ hd'.len.symm)
  have e6 : h.buckets = h'.buckets := by
    apply List.ext_getElem e5
    intro b hb hb'
    have := (hd.bkt b).trans (h0 _ ▸ (hd'.bkt b).symm)
    simpa [List.getD_eq_getElem?_getD, List.getElem?_eq_getElem, hb, hb'] using this
  cases h; cases h'; simp_all

theorem limits_sorted : limits.Pairwise (· < ·) := by decide +kernel
theorem limits_length : limits.length = 154 := by decide +kernel

theorem limit_mono {a b : Nat} (h : a ≤ b) (hb : b < 154) : limit a ≤ limit b := by
  rcases Nat.lt_or_eq_of_le h with h | rfl
  · have := List.pairwise_iff_getElem.1 limits_sorted a b (by rw [limits_length]; omega) (by rw [limits_length]; omega) h
    simp only [limit, List.getD_eq_getElem?_getD]
    rw [List.getElem?_eq_getElem (by rw [limits_length]; omega), List.getElem?_eq_getElem (by rw [limits_length]; omega)]
    exact Rat.natCast_le_natCast.2 (by simp; omega)
  · exact Rat.le_refl

theorem bucketOf_iff (v : Rat) (b : Nat) : bucketOf v = b ↔ InBucket b v := by
  have hl : (limits.take (numBuckets - 1)).length = 153 := by decide +kernel
  have hg : ∀ i, (hi : i < (limits.take (numBuckets - 1)).length) → (((limits.take (numBuckets - 1))[i] : Nat) : Rat) = limit i := by
    intro i hi
    rw [hl] at hi
    simp only [List.getElem_take, limit, List.getD_eq_getElem?_getD]
    rw [List.getElem?_eq_getElem (by rw [limits_length]; omega)]; rfl
  unfold bucketOf
  have hle := List.findIdx_le_length (p := fun (l : Nat) => decide (v < (l : Rat))) (xs := limits.take (numBuckets - 1))
  constructor
  · intro h
    refine ⟨by omega, ?_, ?_⟩
    · by_cases h0 : b = 0
      · exact .inl h0
      · right
        have := List.not_of_lt_findIdx (p := fun (l : Nat) => decide (v < (l : Rat))) (xs := limits.take (numBuckets - 1)) (i := b - 1) (by omega)
        simp only [hg, decide_eq_false_iff_not] at this
        grind
    · by_cases h0 : b = 153
      · exact .inl h0
      · right
        have h1 : List.findIdx (fun (l : Nat) => decide (v < (l : Rat))) (limits.take (numBuckets - 1)) < (limits.take (numBuckets - 1)).length := by omega
        have := List.findIdx_getElem (w := h1)
        simp only [hg, decide_eq_true_eq, h] at this
        exact this
  · rintro ⟨h1, h2, h3⟩
    generalize hi : List.findIdx _ _ = i at *
    rcases Nat.lt_trichotomy i b with hlt | h | hlt
    · exfalso
      have h4 : List.findIdx (fun (l : Nat) => decide (v < (l : Rat))) (limits.take (numBuckets - 1)) < (limits.take (numBuckets - 1)).length := by omega
      have := List.findIdx_getElem (w := h4)
      simp only [hg, decide_eq_true_eq, hi] at this
      have h5 : limit i ≤ limit (b - 1) := limit_mono (by omega) (by omega)
      grind
    · exact h
    · exfalso
      have := List.not_of_lt_findIdx (p := fun (l : Nat) => decide (v < (l : Rat))) (xs := limits.take (numBuckets - 1)) (i := b) (by omega)
      simp only [hg, decide_eq_false_iff_not] at this
      grind

/-! ### Percentiles -/

def clampH (h : H) (r : Rat) : Rat :=
  let r := if r < h.min then h.min else r
  if r > h.max then h.max else r

theorem clamp_mono (h : H) {a b : Rat} (hab : a ≤ b) : clampH h a ≤ clampH h b := by
  unfold clampH; grind

theorem clamp_le (h : H) (a : Rat) : clampH h a ≤ h.max := by
  unfold clampH; grind

/-- Lower end of a bucket. -/
def lo (b : Nat) : Rat := if b = 0 then 0 else limit (b - 1)

theorem limit_nonneg (b : Nat) : 0 ≤ limit b := Rat.natCast_nonneg

theorem lo_le (b : Nat) (hb : b < 154) : lo b ≤ limit b := by
  unfold lo; split
  · exact limit_nonneg b
  · exact limit_mono (by omega) hb

theorem lo_succ (b : Nat) : lo (b + 1) = limit b := by simp [lo]

theorem interp_eq (h : H) (b pos : Nat) (hn : h.buckets.getD b 0 + 1 < 2 ^ 64) :
    h.interpolate b pos = clampH h (lo b + (limit b - lo b) * ((pos : Rat) / ((h.buckets.getD b 0 + 1 : Nat) : Rat))) := by
  simp only [H.interpolate, clampH, bucketLimits, lo, w64, Nat.mod_eq_of_lt hn]
  rfl

theorem frac_mono {a b n : Nat} (h : a ≤ b) : (a : Rat) / ((n + 1 : Nat) : Rat) ≤ (b : Rat) / ((n + 1 : Nat) : Rat) := by
  have h1 : (a : Rat) ≤ (b : Rat) := Rat.natCast_le_natCast.2 h
  have h2 : (0 : Rat) ≤ ((n + 1 : Nat) : Rat)⁻¹ := by
    have : (0 : Rat) < ((n + 1 : Nat) : Rat) := Rat.natCast_lt_natCast (a := 0).2 (by omega)
    exact Rat.le_of_lt (Rat.inv_pos.2 this)
  rw [Rat.div_def, Rat.div_def]
  exact Rat.mul_le_mul_of_nonneg_right h1 h2

theorem frac_lt {a n : Nat} (h : a ≤ n) : (a : Rat) / ((n + 1 : Nat) : Rat) < 1 := by
  have h1 : (a : Rat) < ((n + 1 : Nat) : Rat) := Rat.natCast_lt_natCast.2 (by omega)
  have h3 : (0 : Rat) < ((n + 1 : Nat) : Rat) := by
    have : ((0 : Nat) : Rat) < ((n + 1 : Nat) : Rat) := Rat.natCast_lt_natCast.2 (by omega)
    exact this
  rw [Rat.div_lt_iff h3, Rat.one_mul]; exact h1

theorem frac_nonneg {a n : Nat} : 0 ≤ (a : Rat) / ((n + 1 : Nat) : Rat) := by
  have := frac_mono (a := 0) (b := a) (n := n) (by omega)
  simpa [Rat.div_def] using this

/-- The unclamped interpolation. -/
def raw (h : H) (b pos : Nat) : Rat := lo b + (limit b - lo b) * ((pos : Rat) / ((h.buckets.getD b 0 + 1 : Nat) : Rat))

theorem raw_lo (h : H) (b pos : Nat) (hb : b < 154) : lo b ≤ raw h b pos := by
  have h1 := lo_le b hb
  have := Rat.mul_nonneg (a := limit b - lo b) (b := (pos : Rat) / ((h.buckets.getD b 0 + 1 : Nat) : Rat)) (by grind) frac_nonneg
  unfold raw; grind

theorem raw_mono (h : H) (b : Nat) {p q : Nat} (hpq : p ≤ q) (hb : b < 154) : raw h b p ≤ raw h b q := by
  have h1 := lo_le b hb
  have := Rat.mul_le_mul_of_nonneg_left (c := limit b - lo b) (frac_mono (n := h.buckets.getD b 0) hpq) (by grind)
  unfold raw; grind

theorem lo_lt (b : Nat) (hb : b < 154) : lo b < limit b := by
  unfold lo; split
  · rename_i h; subst h; decide +kernel
  · have := List.pairwise_iff_getElem.1 limits_sorted (b - 1) b (by rw [limits_length]; omega) (by rw [limits_length]; omega) (by omega)
    simp only [limit, List.getD_eq_getElem?_getD]
    rw [List.getElem?_eq_getElem (by rw [limits_length]; omega), List.getElem?_eq_getElem (by rw [limits_length]; omega)]
    exact Rat.natCast_lt_natCast.2 (by simpa using this)

theorem raw_hi (h : H) (b pos : Nat) (hb : b < 154) (hp : pos ≤ h.buckets.getD b 0) : raw h b pos < limit b := by
  have h1 := lo_lt b hb
  have := Rat.mul_lt_mul_of_pos_left (c := limit b - lo b) (frac_lt hp) (by grind)
  unfold raw; grind

/-- What the scan finds for one percentile, with threshold `k`. -/
def find1 (h : H) (k : Nat) : List Nat → Nat → Nat → Rat
  | [], _, _ => h.max
  | n :: bs, b, sum => if k ≤ sum + n then h.interpolate b (k - sum) else find1 h k bs (b + 1) (sum + n)

theorem serve_eq (h : H) (b sum n : Nat) (ps : List Rat) (hs : (ps.map h.threshold).Pairwise (· ≤ ·)) :
    (h.serve b sum n ps).1 = (ps.filter fun p => decide (h.threshold p ≤ sum)).map (fun p => h.interpolate b (h.threshold p - (sum - n))) ∧
    (h.serve b sum n ps).2 = (ps.filter fun p => !decide (h.threshold p ≤ sum)) := by
  induction ps with
  | nil => simp [H.serve]
  | cons p ps ih =>
    simp only [List.map_cons, List.pairwise_cons] at hs
    simp only [H.serve]
    by_cases hp : h.threshold p ≤ sum
    · simp [hp, ih hs.2]
    · have : ∀ q ∈ ps, ¬ h.threshold q ≤ sum := by
        intro q hq
        have := hs.1 _ (List.mem_map_of_mem (f := h.threshold) hq)
        omega
      have h1 : (ps.filter fun p => decide (h.threshold p ≤ sum)) = [] := by
        simpa using fun q hq => Nat.lt_of_not_le (this q hq)
      have h2 : (ps.filter fun p => !decide (h.threshold p ≤ sum)) = ps := by
        rw [List.filter_eq_self]; simpa using fun q hq => Nat.lt_of_not_le (this q hq)
      simp [hp, h1]
      exact h2.symm

theorem sorted_split (h : H) (sum : Nat) (ps : List Rat) (hs : (ps.map h.threshold).Pairwise (· ≤ ·)) :
    (ps.filter fun p => decide (h.threshold p ≤ sum)) ++ (ps.filter fun p => !decide (h.threshold p ≤ sum)) = ps := by
  induction ps with
  | nil => rfl
  | cons p ps ih =>
    simp only [List.map_cons, List.pairwise_cons] at hs
    by_cases hp : h.threshold p ≤ sum
    · simpa [hp] using ih hs.2
    · have : ∀ q ∈ ps, ¬ h.threshold q ≤ sum := by
        intro q hq
        have := hs.1 _ (List.mem_map_of_mem (f := h.threshold) hq)
        omega
      have h1 : (ps.filter fun p => decide (h.threshold p ≤ sum)) = [] := by
        simpa using fun q hq => Nat.lt_of_not_le (this q hq)
      have h2 : (ps.filter fun p => !decide (h.threshold p ≤ sum)) = ps := by
        rw [List.filter_eq_self]; simpa using fun q hq => Nat.lt_of_not_le (this q hq)
      simp [hp, h1] at h2 ⊢
      exact h2

theorem scan_eq (h : H) (bs : List Nat) (b sum : Nat) (ps : List Rat) (hs : (ps.map h.threshold).Pairwise (· ≤ ·))
    (hw : sum + bs.sum < 2 ^ 64) : h.scan bs b sum ps = ps.map fun p => find1 h (h.threshold p) bs b sum := by
  induction bs generalizing b sum ps with
  | nil => simp [H.scan, find1]
  | cons n bs ih =>
    simp only [List.sum_cons] at hw
    have hw' : w64 (sum + n) = sum + n := Nat.mod_eq_of_lt (by omega)
    simp only [H.scan, hw']
    obtain ⟨h1, h2⟩ := serve_eq h b (sum + n) n ps hs
    have hs2 : ((h.serve b (sum + n) n ps).2.map h.threshold).Pairwise (· ≤ ·) := by
      rw [h2]; exact hs.sublist ((List.filter_sublist).map _)
    rw [ih _ _ _ hs2 (by omega), h1, h2]
    conv => rhs; rw [← sorted_split h (sum + n) ps hs, List.map_append]
    congr 1
    · apply List.map_congr_left
      intro p hp
      simp only [List.mem_filter, decide_eq_true_eq] at hp
      simp only [find1, hp.2, if_true]
      congr 1; omega
    · apply List.map_congr_left
      intro p hp
      simp only [List.mem_filter, Bool.not_eq_true', decide_eq_false_iff_not] at hp
      simp [find1, hp.2]

theorem find1_lo (h : H) (k : Nat) (bs : List Nat) (b sum : Nat) (hb : bs = h.buckets.drop b) (hl : h.buckets.length ≤ 154)
    (hx : ∀ b, h.buckets.getD b 0 + 1 < 2 ^ 64) : clampH h (lo b) ≤ find1 h k bs b sum := by
  induction bs generalizing b sum with
  | nil => exact clamp_le h _
  | cons n bs ih =>
    have hbl : b < h.buckets.length := by
      have := congrArg List.length hb; simp at this; omega
    have hd : bs = h.buckets.drop (b + 1) := by
      have := congrArg List.tail hb; simpa using this
    simp only [find1]
    split
    · rw [interp_eq _ _ _ (hx b)]
      exact clamp_mono h (raw_lo h b _ (by omega))
    · refine Rat.le_trans (clamp_mono h ?_) (ih (b + 1) _ hd)
      rw [lo_succ]; exact lo_le b (by omega)

theorem drop_head {l : List Nat} {b n : Nat} {bs : List Nat} (h : n :: bs = l.drop b) : n = l.getD b 0 := by
  have := congrArg (fun l => l[0]?) h
  simp at this
  simp [← this]

theorem find1_mono (h : H) {k k' : Nat} (hk : k ≤ k') (bs : List Nat) (b sum : Nat) (hb : bs = h.buckets.drop b)
    (hl : h.buckets.length ≤ 154) (hx : ∀ b, h.buckets.getD b 0 + 1 < 2 ^ 64) : find1 h k bs b sum ≤ find1 h k' bs b sum := by
  induction bs generalizing b sum with
  | nil => exact Rat.le_refl
  | cons n bs ih =>
    have hbl : b < h.buckets.length := by
      have := congrArg List.length hb; simp at this; omega
    have hd : bs = h.buckets.drop (b + 1) := by
      have := congrArg List.tail hb; simpa using this
    simp only [find1]
    by_cases h1 : k ≤ sum + n
    · by_cases h2 : k' ≤ sum + n
      · simp only [h1, h2, if_true, interp_eq _ _ _ (hx b)]
        exact clamp_mono h (raw_mono h b (by omega) (by omega))
      · simp only [h1, h2, if_true, if_false, interp_eq _ _ _ (hx b)]
        refine Rat.le_trans (clamp_mono h ?_) (find1_lo h k' bs (b + 1) _ hd hl hx)
        rw [lo_succ]
        have : raw h b (k - sum) < limit b := raw_hi h b _ (by omega) (by rw [← drop_head hb]; omega)
        unfold raw at this; grind
    · have h2 : ¬ k' ≤ sum + n := by omega
      simp only [h1, h2, if_false]
      exact ih (b + 1) _ hd

/-- For a rank `k` within the samples, the scan stops in the bucket containing that rank. -/
theorem find1_bucket (h : H) {k : Nat} (bs : List Nat) (b sum : Nat) (hk : sum < k) (hk' : k ≤ sum + bs.sum) :
    ∃ i, i < bs.length ∧ sum + (bs.take i).sum < k ∧ k ≤ sum + (bs.take (i + 1)).sum ∧
      find1 h k bs b sum = h.interpolate (b + i) (k - (sum + (bs.take i).sum)) := by
  induction bs generalizing b sum with
  | nil => simp at hk'; omega
  | cons n bs ih =>
    simp only [List.sum_cons] at hk'
    by_cases h1 : k ≤ sum + n
    · exact ⟨0, by simp, by simpa using hk, by simpa using h1, by simp [find1, h1]⟩
    · obtain ⟨i, h2, h3, h4, h5⟩ := ih (b + 1) (sum + n) (by omega) (by omega)
      refine ⟨i + 1, by simpa using h2, by simp; omega, by simp; omega, ?_⟩
      simp only [find1, h1, if_false, h5, List.take_succ_cons, List.sum_cons]
      congr 1 <;> omega

end Verif.Histogram
