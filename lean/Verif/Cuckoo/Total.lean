import Verif.Cuckoo.Dict
/-!
# Growing comes to an end

Once there are more buckets than the first hash of every key (before the remainder is taken), every entry
fits in its first bucket.
-/
namespace Verif.Cuckoo

/-- Every entry is in its first bucket. -/
def AtHome (t : Table) : Prop :=
  ∀ b i, b < t.cnt → i < 4 → (t.buf b i).key ≠ t.empty → b = id0 t.cnt (t.buf b i).key

/-- The first hash of the key is smaller than the number of buckets. -/
def Small (n k : Nat) : Prop := mask1 ^^^ k < n

theorem id0_small {n k : Nat} (h : Small n k) : id0 n k = mask1 ^^^ k := Nat.mod_eq_of_lt h

theorem id0_inj {n k k' : Nat} (h : Small n k) (h' : Small n k') (e : id0 n k = id0 n k') : k = k' := by
  rw [id0_small h, id0_small h'] at e
  have := congrArg (fun x => mask1 ^^^ x) e
  simpa only [← Nat.xor_assoc, Nat.xor_self, Nat.zero_xor] using this

theorem home_free {t : Table} {L : List Slot} (hR : Rep t L) (hA : AtHome t)
    (hL : ∀ s ∈ L, Small t.cnt s.key) {k : Nat} (hk : Small t.cnt k) (hn : k ∉ L.map Slot.key) :
    ∃ i, firstEmpty t (id0 t.cnt k) = some i := by
  cases hf : firstEmpty t (id0 t.cnt k) with
  | some i => exact ⟨i, rfl⟩
  | none =>
    have hne := firstEmpty_none hf 0 (by omega)
    have hlt := id0_lt hR.cnt2 k
    have hm := (hR.sound _ 0 hlt (by omega) hne).1
    have := hA _ 0 hlt (by omega) hne
    have := id0_inj hk (hL _ hm) this
    rw [this] at hn
    exact absurd (List.mem_map_of_mem hm) hn

theorem copyAll_wide (limit : Nat) : ∀ (ss : List Slot) (t : Table) (L : List Slot), Rep t L → AtHome t →
    ((used t.empty ss ++ L).map Slot.key).Nodup → (∀ s ∈ used t.empty ss ++ L, Small t.cnt s.key) →
    ∃ t', copyAll limit ss t = (t', true) ∧ AtHome t' := by
  intro ss
  induction ss with
  | nil =>
    intro t L _ hA _ _
    exact ⟨t, rfl, hA⟩
  | cons s ss ih =>
    intro t L hR hA hn hS
    simp only [copyAll]
    by_cases he : s.key = t.empty
    · rw [if_pos he]
      rw [used_cons_empty he] at hn hS
      exact ih { t with pkey := s.key } L (hR.congr rfl rfl rfl) hA hn hS
    · rw [if_neg he]
      rw [used_cons he] at hn hS
      have hnot : s.key ∉ L.map Slot.key := by
        simp only [List.cons_append, List.map_cons, List.nodup_cons, List.map_append, List.mem_append,
          not_or] at hn
        exact hn.1.2
      have hss : Small t.cnt s.key := hS s List.mem_cons_self
      have hSL : ∀ x ∈ L, Small t.cnt x.key :=
        fun x hx => hS x (List.mem_cons_of_mem _ (List.mem_append_right _ hx))
      obtain ⟨i, hi⟩ := home_free hR hA hSL hss hnot
      have hi4 := (firstEmpty_some hi).1
      cases hc : copyOne t s limit with
      | mk t1 o =>
        obtain ⟨k1, _, k2, _⟩ := copyOne_ok hR he hnot hc
        have hsame := setPVal_same t s
        have hbuf := setPVal_buf t s.key s.val
        have hcur := cur_setPVal t s
        unfold copyOne at hc
        generalize setPVal { t with pkey := s.key } s.val = t0 at *
        have hfe : firstEmpty t0 (id0 t0.cnt s.key) = some i := by
          unfold firstEmpty at hi ⊢
          rw [hbuf, hsame.cnt, hsame.empty]
          exact hi
        simp only [roll, hfe, Prod.mk.injEq] at hc
        obtain ⟨rfl, rfl⟩ := hc
        simp only
        have hp : (used t.empty ss ++ s :: L).Perm (s :: used t.empty ss ++ L) := List.perm_middle
        have hA1 : AtHome (insertInto t0 (id0 t0.cnt s.key) i) := by
          intro b j hb hj hk
          change b < t0.cnt at hb
          rw [buf_insert, put_apply] at hk ⊢
          change _ ≠ t0.empty at hk
          change b = id0 t0.cnt _
          by_cases hbi : b = id0 t0.cnt s.key ∧ j = i
          · rw [if_pos hbi, hcur]
            exact hbi.1
          · rw [if_neg hbi] at hk ⊢
            rw [hbuf, hsame.empty] at hk
            rw [hbuf, hsame.cnt]
            exact hA b j (by rw [← hsame.cnt]; exact hb) hj hk
        refine ih _ (s :: L) (k2 _ rfl) hA1 ?_ ?_
        · rw [k1.empty]
          exact (hp.map _).nodup_iff.2 hn
        · rw [k1.empty, k1.cnt]
          intro x hx
          exact hS x (hp.mem_iff.1 hx)

theorem atHome_allocate (t : Table) (n : Nat) : AtHome (allocate t n) := by
  intro b i _ _ h
  exact absurd rfl h

theorem growLoop_total (old : List Slot) (low B : Nat) : ∀ (f : Nat) (t : Table), 2 ≤ t.cnt →
    (∀ n, n < t.growth n) → ((used t.empty old).map Slot.key).Nodup →
    (∀ s ∈ used t.empty old, Small B s.key) → B - t.cnt < f →
    ∃ t', growLoop old low f t = some t' ∧ (B ≤ t'.cnt → AtHome t') := by
  intro f
  induction f with
  | zero =>
    intro t _ _ _ _ h
    omega
  | succ f ih =>
    intro t hc hg hn hS hf
    simp only [growLoop]
    obtain ⟨n, hp⟩ := getPrime_isSome (max (t.growth t.cnt) low)
    rw [hp]
    have hge := (getPrime_some hp).1
    have hgt := hg t.cnt
    have hlt : t.cnt < n := by omega
    simp only
    rw [if_pos hlt]
    have hwide : B ≤ n → ∃ t', copyAll (shiftsLimit n * 2) old (allocate t n) = (t', true) ∧ AtHome t' := by
      intro hB
      refine copyAll_wide _ old (allocate t n) [] (Rep.allocate (by omega)) (atHome_allocate t n) ?_ ?_
      · rw [List.append_nil]
        exact hn
      · rw [List.append_nil]
        intro s hs
        exact Nat.lt_of_lt_of_le (hS s hs) hB
    cases hca : copyAll (shiftsLimit n * 2) old (allocate t n) with
    | mk t1 ok =>
      obtain ⟨k1, _⟩ := copyAll_ok _ old (allocate t n) [] (Rep.allocate (by omega)) (by
        rw [List.append_nil]
        exact hn) t1 ok hca
      have e1 := k1.cnt
      change t1.cnt = n at e1
      have e2 := k1.empty
      change t1.empty = t.empty at e2
      have e3 := k1.growth
      change t1.growth = t.growth at e3
      cases ok with
      | true =>
        refine ⟨t1, rfl, fun hB => ?_⟩
        obtain ⟨t', h1, h2⟩ := hwide (by omega)
        rw [hca] at h1
        simp only [Prod.mk.injEq, and_true] at h1
        rw [h1]
        exact h2
      | false =>
        simp only
        have hB : n < B := by
          refine Classical.byContradiction (fun hx => ?_)
          obtain ⟨t', h1, _⟩ := hwide (by omega)
          rw [hca] at h1
          cases h1
        exact ih t1 (by omega) (by rw [e3]; exact hg) (by rw [e2]; exact hn) (by rw [e2]; exact hS) (by omega)

theorem grow_total {f low B : Nat} {t : Table} {L : List Slot} (hR : Rep t L) (hg : ∀ n, n < t.growth n)
    (hS : ∀ s ∈ L, Small B s.key) (hf : B - t.cnt < f) :
    ∃ t', grow f t low = some t' ∧ (B ≤ t'.cnt → AtHome t') := by
  have hp := slotsOf_used hR
  obtain ⟨t1, h1, h2⟩ := growLoop_total (slotsOf t.buf t.cnt) low B f t hR.cnt2 hg
    ((hp.map _).nodup_iff.2 hR.nodup) (fun s hs => hS s (hp.mem_iff.1 hs)) hf
  unfold grow
  rw [h1]
  refine ⟨_, rfl, ?_⟩
  have hs := setPVal_same t1 (cur t)
  have hb := setPVal_buf t1 t.pkey t.pval
  change Same t1 (setPVal { t1 with pkey := t.pkey } t.pval) at hs
  generalize setPVal { t1 with pkey := t.pkey } t.pval = t2 at *
  intro hB b i hbl hi hk
  rw [hs.cnt] at hB hbl
  rw [hb, hs.empty] at hk
  rw [hb, hs.cnt]
  exact h2 hB b i hbl hi hk

theorem insertLoop_total1 (gf B : Nat) : ∀ (f : Nat) (t : Table) (grew : Bool) (L : List Slot), Rep t L →
    Pend t L → (∀ n, n < t.growth n) → (∀ s ∈ cur t :: L, Small B s.key) → (B ≤ t.cnt → AtHome t) →
    B < gf → B - t.cnt < f → (insertLoop gf f t grew).isSome = true := by
  intro f
  induction f with
  | zero =>
    intro t _ L _ _ _ _ _ _ h
    omega
  | succ f ih =>
    intro t grew L hR hP hg hS hA hgf hf
    simp only [insertLoop]
    cases hr : roll (shiftsLimit t.cnt) t (id0 t.cnt t.pkey) (id1 t.cnt t.pkey) with
    | mk t1 o =>
      obtain ⟨k1, _, _, k3⟩ := roll_ok hR hP hr
      cases o with
      | some d => rfl
      | none =>
        simp only
        have hB : t.cnt < B := by
          refine Classical.byContradiction (fun hx => ?_)
          have hB : B ≤ t.cnt := by omega
          obtain ⟨i, hi⟩ := home_free hR (hA hB)
            (fun s hs => Nat.lt_of_lt_of_le (hS s (List.mem_cons_of_mem _ hs)) hB)
            (Nat.lt_of_lt_of_le (hS (cur t) List.mem_cons_self) hB) hP.2
          change firstEmpty t (id0 t.cnt t.pkey) = some i at hi
          simp only [roll, hi, Prod.mk.injEq] at hr
          cases hr.2
        obtain ⟨⟨L1, r1, r2, r3⟩, _, _⟩ := k3 rfl
        obtain ⟨t2, g1, g2⟩ := grow_total (f := gf) (low := 0) r1 (by rw [k1.growth]; exact hg)
          (fun s hs => hS s (r3.mem_iff.1 (List.mem_cons_of_mem _ hs))) (by omega)
        rw [g1]
        simp only
        obtain ⟨g3, g4, g5⟩ := grow_ok r1 g1
        have hpk : t2.pkey = t1.pkey := congrArg Slot.key g5
        have hc := g3.cnt
        have hc1 := k1.cnt
        refine ih t2 true L1 g4 ⟨by rw [hpk, g3.empty]; exact r2.1, by rw [hpk]; exact r2.2⟩ ?_ ?_ g2 hgf
          (by omega)
        · rw [g3.growth, k1.growth]
          exact hg
        · rw [g5]
          intro s hs
          exact hS s (r3.mem_iff.1 hs)

theorem insertLoop_total {B f : Nat} {t : Table} {L : List Slot} (hR : Rep t L) (hP : Pend t L)
    (hg : ∀ n, n < t.growth n) (hS : ∀ s ∈ cur t :: L, Small B s.key) (hf : B + 1 < f) :
    (insertLoop f f t false).isSome = true := by
  obtain ⟨f', rfl⟩ : ∃ f', f = f' + 1 := ⟨f - 1, by omega⟩
  rw [insertLoop]
  cases hr : roll (shiftsLimit t.cnt) t (id0 t.cnt t.pkey) (id1 t.cnt t.pkey) with
  | mk t1 o =>
    obtain ⟨k1, _, _, k3⟩ := roll_ok hR hP hr
    cases o with
    | some d => rfl
    | none =>
      simp only
      obtain ⟨⟨L1, r1, r2, r3⟩, _, _⟩ := k3 rfl
      obtain ⟨t2, g1, g2⟩ := grow_total (f := f' + 1) (low := 0) r1 (by rw [k1.growth]; exact hg)
        (fun s hs => hS s (r3.mem_iff.1 (List.mem_cons_of_mem _ hs))) (by omega)
      rw [g1]
      simp only
      obtain ⟨g3, g4, g5⟩ := grow_ok r1 g1
      have hpk : t2.pkey = t1.pkey := congrArg Slot.key g5
      refine insertLoop_total1 (f' + 1) B f' t2 true L1 g4
        ⟨by rw [hpk, g3.empty]; exact r2.1, by rw [hpk]; exact r2.2⟩ ?_ ?_ g2 (by omega) (by omega)
      · rw [g3.growth, k1.growth]
        exact hg
      · rw [g5]
        intro s hs
        exact hS s (r3.mem_iff.1 hs)

/-- A bound for finitely many keys. -/
theorem exists_small : ∀ L : List Slot, ∃ B, ∀ s ∈ L, Small B s.key := by
  intro L
  induction L with
  | nil => exact ⟨0, by intro s hs; cases hs⟩
  | cons a L ih =>
    obtain ⟨B, hB⟩ := ih
    refine ⟨B + (mask1 ^^^ a.key) + 1, ?_⟩
    intro s hs
    unfold Small at *
    rcases List.mem_cons.1 hs with e | e
    · subst e
      omega
    · have := hB s e
      omega

theorem insert_total {t : Table} {L : List Slot} (hR : Rep t L) (hg : ∀ n, n < t.growth n) (k v : Nat)
    (hk : k ≠ t.empty) : ∃ f0, ∀ f, f0 ≤ f → (insert f t k v).isSome = true := by
  obtain ⟨B, hB⟩ := exists_small (⟨k, v⟩ :: L)
  refine ⟨B + 2, fun f hf => ?_⟩
  unfold insert
  cases hfd : find t k with
  | some d => rfl
  | none =>
    simp only
    have hnot : k ∉ L.map Slot.key := by
      intro hm
      obtain ⟨s, hs, rfl⟩ := List.mem_map.1 hm
      obtain ⟨d, h1, _⟩ := find_mem hR hs
      rw [hfd] at h1
      cases h1
    have hsame := setPVal_same t ⟨k, v⟩
    have hcur := cur_setPVal t ⟨k, v⟩
    have hbuf := setPVal_buf t k v
    simp only at hsame hcur
    generalize setPVal { t with pkey := k } v = t1 at *
    have hpk : t1.pkey = k := congrArg Slot.key hcur
    have := insertLoop_total (B := B) (f := f) (hR.congr hbuf hsame.cnt hsame.empty)
      ⟨by rw [hpk, hsame.empty]; exact hk, by rw [hpk]; exact hnot⟩ (by rw [hsame.growth]; exact hg)
      (by rw [hcur]; exact hB) (by omega)
    cases hl : insertLoop f f t1 false with
    | none =>
      rw [hl] at this
      cases this
    | some x => rfl

theorem reserve_total {t : Table} {L : List Slot} (hR : Rep t L) (hg : ∀ n, n < t.growth n)
    (g0 : Nat → Nat) (c : Nat) : ∃ f0, ∀ f, f0 ≤ f → (reserve f g0 t c).isSome = true := by
  obtain ⟨B, hB⟩ := exists_small L
  refine ⟨B + 1, fun f hf => ?_⟩
  unfold reserve
  split
  · rfl
  · split
    · obtain ⟨t', h⟩ := init_total g0 t (c / bucketLen)
      rw [h]
      rfl
    · obtain ⟨t', h, _⟩ := grow_total (f := f) (low := c / bucketLen) hR hg hB (by omega)
      rw [h]
      rfl

end Verif.Cuckoo
