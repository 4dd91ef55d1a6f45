import Verif.Cuckoo.Basic
/-!
# Rolling the pending entry, copying an array, growing
-/
namespace Verif.Cuckoo

/-- What RollPending leaves when it gives up: the same entries, one of them still pending, and no free
slot in the buckets of that one. -/
structure Stuck (t : Table) (L : List Slot) (t' : Table) : Prop where
  rep : ∃ L', Rep t' L' ∧ Pend t' L' ∧ (cur t' :: L').Perm (cur t :: L)
  full0 : Full t' (id0 t'.cnt t'.pkey)
  full1 : Full t' (id1 t'.cnt t'.pkey)

theorem rollGo_ok (startB startI : Nat) (s0 : Slot) (hI : startI < 4) :
    ∀ (j : Nat) (t : Table) (bid si : Nat) (L : List Slot), Rep t L → Pend t L →
      Home t.cnt bid t.pkey → si < 4 → Full t (id0 t.cnt t.pkey) → Full t (id1 t.cnt t.pkey) →
      startB < t.cnt → s0.key ≠ t.empty →
      ((bid = startB ∧ si = startI ∧ cur t = s0) ∨
        (t.buf startB startI = s0 ∧ ¬ (bid = startB ∧ si = startI))) →
      ∀ t' r, rollGo startB startI j t bid si = (t', r) → Same t t' ∧ (∀ b, Full t b → Full t' b) ∧
        (∀ d, r = some d → Rep t' (cur t :: L) ∧ fromDense t' d = s0) ∧
        (r = none → Stuck t L t') := by
  intro j
  induction j with
  | zero =>
    intro t bid si L hR hP hH hsi hf0 hf1 hSB hs0 hst t' r h
    simp only [rollGo, Prod.mk.injEq] at h
    obtain ⟨rfl, rfl⟩ := h
    refine ⟨Same.refl _, fun _ h => h, (by intro d e; cases e),
      fun _ => ⟨⟨L, hR, hP, List.Perm.refl _⟩, hf0, hf1⟩⟩
  | succ j ih =>
    intro t bid si L hR hP hH hsi hf0 hf1 hSB hs0 hst t' r h
    have hfb : Full t bid := by
      rcases hH with e | e
      · rw [e]; exact hf0
      · rw [e]; exact hf1
    obtain ⟨L1, hR1, hP1, hperm, hH1⟩ := hR.swap hP hsi (hfb si hsi) hH
    have hslot : (swapPending t bid si).buf startB startI = s0 := by
      rw [buf_swap, put_apply]
      rcases hst with ⟨e1, e2, e3⟩ | ⟨e1, e2⟩
      · rw [if_pos ⟨e1.symm, e2.symm⟩]; exact e3
      · rw [if_neg (fun c => e2 ⟨c.1.symm, c.2.symm⟩)]; exact e1
    simp only [rollGo] at h
    have hnh : Home t.cnt (nextBucket t.cnt bid (swapPending t bid si).pkey) (swapPending t bid si).pkey :=
      nextBucket_home _ _ _
    cases hfe : firstEmpty (swapPending t bid si) (nextBucket t.cnt bid (swapPending t bid si).pkey) with
    | some e =>
      have hc : (swapPending t bid si).cnt = t.cnt := rfl
      rw [hc, hfe] at h
      simp only [Prod.mk.injEq] at h
      obtain ⟨rfl, rfl⟩ := h
      obtain ⟨he4, hek⟩ := firstEmpty_some hfe
      have hins := hR1.insertInto hP1 he4 hek hnh
      refine ⟨(swapPending_same _ _ _).trans (insertInto_same _ _ _),
        fun b hb => (hb.swap hP.1).insertInto hP1.1, ?_, (by intro c; cases c)⟩
      intro d hd
      cases hd
      refine ⟨hins.perm hperm, ?_⟩
      rw [fromDense_to _ hI, buf_insert, put_apply, if_neg]
      · exact hslot
      · rintro ⟨e1, e2⟩
        rw [← e1, ← e2, hslot] at hek
        exact hs0 hek
    | none =>
      have hc : (swapPending t bid si).cnt = t.cnt := rfl
      rw [hc, hfe] at h
      have hfn := firstEmpty_none hfe
      have hfb1 : Full (swapPending t bid si) bid := hfb.swap hP.1
      have hboth : ∀ b, Home t.cnt b (swapPending t bid si).pkey → Full (swapPending t bid si) b := by
        intro b hb
        rcases Home.next hH1 hb with e | e
        · rw [e]; exact hfb1
        · rw [e]; exact hfn
      have := ih { swapPending t bid si with rnd := (swapPending t bid si).rnd + 1 }
        (nextBucket t.cnt bid (swapPending t bid si).pkey) _ L1
        (hR1.congr rfl rfl rfl) hP1 hnh (by split <;> exact Nat.mod_lt _ (by decide))
        (hboth _ (Or.inl rfl)) (hboth _ (Or.inr rfl)) hSB hs0
        (Or.inr ⟨hslot, by
          rintro ⟨e1, e2⟩
          by_cases hc2 : (swapPending t bid si).rnd % bucketLen = startI
          · rw [if_pos ⟨e1, hc2⟩, hc2] at e2
            change (startI + 1) % 4 = startI at e2
            omega
          · rw [if_neg (fun c => hc2 c.2)] at e2
            exact hc2 e2⟩) t' r h
      obtain ⟨hs, hm, h1, h2⟩ := this
      refine ⟨(swapPending_same t bid si).trans ⟨hs.cnt, hs.empty, hs.emptySet, hs.size, hs.growth⟩,
        fun b hb => hm b (hb.swap hP.1), ?_, ?_⟩
      · intro d hd
        obtain ⟨k1, k2⟩ := h1 d hd
        exact ⟨k1.perm hperm, k2⟩
      · intro hn
        obtain ⟨⟨L2, a1, a2, a3⟩, a4, a5⟩ := h2 hn
        exact ⟨⟨L2, a1, a2, a3.trans hperm⟩, a4, a5⟩

theorem roll_ok {limit : Nat} {t : Table} {L : List Slot} (hR : Rep t L) (hP : Pend t L)
    {t' : Table} {r : Option Nat}
    (h : roll limit t (id0 t.cnt t.pkey) (id1 t.cnt t.pkey) = (t', r)) :
    Same t t' ∧ (∀ b, Full t b → Full t' b) ∧
      (∀ d, r = some d → Rep t' (cur t :: L) ∧ fromDense t' d = cur t) ∧
      (r = none → Stuck t L t') := by
  unfold roll at h
  cases h0 : firstEmpty t (id0 t.cnt t.pkey) with
  | some i =>
    simp only [h0, Prod.mk.injEq] at h
    obtain ⟨rfl, rfl⟩ := h
    obtain ⟨hi, hk⟩ := firstEmpty_some h0
    refine ⟨insertInto_same _ _ _, fun b hb => hb.insertInto hP.1, ?_, (by intro c; cases c)⟩
    intro d hd
    cases hd
    refine ⟨hR.insertInto hP hi hk (Or.inl rfl), ?_⟩
    rw [fromDense_to _ hi, buf_insert, put_same]
  | none =>
    cases h1 : firstEmpty t (id1 t.cnt t.pkey) with
    | some i =>
      simp only [h0, h1, Prod.mk.injEq] at h
      obtain ⟨rfl, rfl⟩ := h
      obtain ⟨hi, hk⟩ := firstEmpty_some h1
      refine ⟨insertInto_same _ _ _, fun b hb => hb.insertInto hP.1, ?_, (by intro c; cases c)⟩
      intro d hd
      cases hd
      refine ⟨hR.insertInto hP hi hk (Or.inr rfl), ?_⟩
      rw [fromDense_to _ hi, buf_insert, put_same]
    | none =>
      simp only [h0, h1] at h
      have hhome : Home t.cnt (if t.rnd % 2 = 1 then id1 t.cnt t.pkey else id0 t.cnt t.pkey) t.pkey := by
        split
        · exact Or.inr rfl
        · exact Or.inl rfl
      have := rollGo_ok _ _ (cur t) (Nat.mod_lt _ (by decide)) limit { t with rnd := t.rnd + 2 } _ _ L
        (hR.congr rfl rfl rfl) hP hhome (Nat.mod_lt _ (by decide)) (firstEmpty_none h0)
        (firstEmpty_none h1) (hhome.lt hR.cnt2) hP.1 (Or.inl ⟨rfl, rfl, rfl⟩) t' r h
      obtain ⟨hs, hm, k1, k2⟩ := this
      refine ⟨⟨hs.cnt, hs.empty, hs.emptySet, hs.size, hs.growth⟩, fun b hb => hm b hb, k1, fun hn => ?_⟩
      obtain ⟨a1, a2, a3⟩ := k2 hn
      exact ⟨a1, a2, a3⟩

/-- With no shifts allowed, an entry whose buckets are full is left pending and nothing moves. -/
theorem roll_zero {t : Table} {b0 b1 : Nat} (h0 : Full t b0) (h1 : Full t b1) :
    roll 0 t b0 b1 = ({ t with rnd := t.rnd + 2 }, none) := by
  unfold roll
  rw [firstEmpty_full h0, firstEmpty_full h1]
  rfl

theorem copyOne_ok {limit : Nat} {t : Table} {L : List Slot} {s : Slot} (hR : Rep t L)
    (hk : s.key ≠ t.empty) (hn : s.key ∉ L.map Slot.key) {t' : Table} {r : Option Nat}
    (h : copyOne t s limit = (t', r)) :
    Same t t' ∧ (∀ b, Full t b → Full t' b) ∧ (∀ d, r = some d → Rep t' (s :: L)) ∧
      (r = none → (∃ L', Rep t' L' ∧ Pend t' L' ∧ (cur t' :: L').Perm (s :: L)) ∧
        Full t' (id0 t'.cnt t'.pkey) ∧ Full t' (id1 t'.cnt t'.pkey)) := by
  have hsame := setPVal_same t s
  have hcur := cur_setPVal t s
  have hbuf := setPVal_buf t s.key s.val
  unfold copyOne at h
  generalize setPVal { t with pkey := s.key } s.val = t1 at *
  have hpk : t1.pkey = s.key := by
    have := congrArg Slot.key hcur
    exact this
  simp only at h
  rw [← hpk] at h
  have hR1 : Rep t1 L := hR.congr hbuf hsame.cnt hsame.empty
  obtain ⟨k1, km, k2, k3⟩ := roll_ok hR1 ⟨by rw [hpk, hsame.empty]; exact hk, by rw [hpk]; exact hn⟩ h
  rw [hcur] at k2
  refine ⟨hsame.trans k1, ?_, fun d hd => (k2 d hd).1, fun hd => ?_⟩
  · intro b hb
    refine km b (fun i hi => ?_)
    rw [hbuf, hsame.empty]
    exact hb i hi
  obtain ⟨a1, a2, a3⟩ := k3 hd
  rw [hcur] at a1
  exact ⟨a1, a2, a3⟩

/-- The entries of a list of slots. -/
def used (e : Nat) (ss : List Slot) : List Slot := ss.filter (fun s => s.key ≠ e)

theorem used_cons_empty {e : Nat} {s : Slot} {ss : List Slot} (h : s.key = e) :
    used e (s :: ss) = used e ss := by
  simp [used, h]

theorem used_cons {e : Nat} {s : Slot} {ss : List Slot} (h : s.key ≠ e) :
    used e (s :: ss) = s :: used e ss := by
  simp [used, h]

theorem copyAll_ok (limit : Nat) : ∀ (ss : List Slot) (t : Table) (L : List Slot), Rep t L →
    ((used t.empty ss ++ L).map Slot.key).Nodup → ∀ t' r, copyAll limit ss t = (t', r) →
      Same t t' ∧ (r = true → Rep t' (used t.empty ss ++ L)) := by
  intro ss
  induction ss with
  | nil =>
    intro t L hR hn t' r h
    simp only [copyAll, Prod.mk.injEq] at h
    obtain ⟨rfl, rfl⟩ := h
    exact ⟨Same.refl _, fun _ => hR⟩
  | cons s ss ih =>
    intro t L hR hn t' r h
    simp only [copyAll] at h
    by_cases he : s.key = t.empty
    · rw [if_pos he] at h
      rw [used_cons_empty he] at hn ⊢
      have := ih { t with pkey := s.key } L (hR.congr rfl rfl rfl) hn t' r h
      exact ⟨⟨this.1.cnt, this.1.empty, this.1.emptySet, this.1.size, this.1.growth⟩, this.2⟩
    · rw [if_neg he] at h
      rw [used_cons he] at hn ⊢
      have hnot : s.key ∉ L.map Slot.key := by
        simp only [List.cons_append, List.map_cons, List.nodup_cons, List.map_append, List.mem_append,
          not_or] at hn
        exact hn.1.2
      cases hc : copyOne t s limit with
      | mk t1 o =>
        rw [hc] at h
        obtain ⟨k1, _, k2, k3⟩ := copyOne_ok hR he hnot hc
        cases o with
        | none =>
          simp only [Prod.mk.injEq] at h
          obtain ⟨rfl, rfl⟩ := h
          exact ⟨k1, (by intro c; cases c)⟩
        | some d =>
          simp only at h
          have hp : (used t.empty ss ++ s :: L).Perm (s :: used t.empty ss ++ L) := List.perm_middle
          have := ih t1 (s :: L) (k2 d rfl) (by
            rw [k1.empty]
            exact (hp.map _).nodup_iff.2 hn) t' r h
          rw [k1.empty] at this
          exact ⟨k1.trans this.1, fun hr => (this.2 hr).perm hp⟩

/-- The array of a table lists its entries. -/
theorem slotsOf_used {t : Table} {L : List Slot} (h : Rep t L) :
    (used t.empty (slotsOf t.buf t.cnt)).Perm L := by
  have hpw : (slotsOf t.buf t.cnt).Pairwise (fun a b => a.key ≠ t.empty → a.key ≠ b.key) := by
    unfold slotsOf
    rw [List.pairwise_flatMap]
    refine ⟨?_, ?_⟩
    · intro b hb
      rw [List.pairwise_map]
      refine List.Pairwise.imp_of_mem ?_ (List.pairwise_lt_range (n := bucketLen))
      intro i i' hi hi' hlt hne heq
      have := h.uniq b i b i' (List.mem_range.1 hb) (List.mem_range.1 hi) (List.mem_range.1 hb)
        (List.mem_range.1 hi') hne heq
      omega
    · refine List.Pairwise.imp_of_mem ?_ (List.pairwise_lt_range (n := t.cnt))
      intro b b' hb hb' hlt x hx y hy hne heq
      obtain ⟨i, hi, rfl⟩ := List.mem_map.1 hx
      obtain ⟨i', hi', rfl⟩ := List.mem_map.1 hy
      have := h.uniq b i b' i' (List.mem_range.1 hb) (List.mem_range.1 hi) (List.mem_range.1 hb')
        (List.mem_range.1 hi') hne heq
      omega
  have hn1 : (used t.empty (slotsOf t.buf t.cnt)).Nodup := by
    unfold used
    refine List.Pairwise.imp_of_mem ?_ (hpw.filter _)
    intro a b ha hb hab heq
    have := (List.mem_filter.1 ha).2
    exact hab (by simpa using this) (by rw [heq])
  have hn2 : L.Nodup := by
    have := h.nodup
    unfold List.Nodup at this
    rw [List.pairwise_map] at this
    exact this.imp (fun hab e => hab (by rw [e]))
  refine (List.perm_ext_iff_of_nodup hn1 hn2).2 ?_
  intro s
  unfold used slotsOf
  simp only [List.mem_filter, List.mem_flatMap, List.mem_range, List.mem_map, decide_eq_true_eq]
  constructor
  · rintro ⟨⟨b, hb, i, hi, rfl⟩, hne⟩
    exact (h.sound b i hb hi hne).1
  · intro hs
    obtain ⟨h1, b, i, hb, hi, e⟩ := h.complete s hs
    exact ⟨⟨b, hb, i, hi, e⟩, h1⟩

theorem Rep.allocate {t : Table} {n : Nat} (hn : 2 ≤ n) : Rep (allocate t n) [] := by
  refine ⟨hn, ?_, ?_, ?_, ?_⟩
  · intro b i _ _ h
    exact absurd rfl h
  · intro s hs
    cases hs
  · intro b i b' i' _ _ _ _ h
    exact absurd rfl h
  · exact List.nodup_nil

/-- What growing keeps. -/
structure Grown (t t' : Table) : Prop where
  cnt : t.cnt < t'.cnt
  empty : t'.empty = t.empty
  emptySet : t'.emptySet = t.emptySet
  size : t'.size = t.size
  growth : t'.growth = t.growth

theorem growLoop_ok (old : List Slot) (low : Nat) : ∀ (f : Nat) (t : Table), 2 ≤ t.cnt →
    ((used t.empty old).map Slot.key).Nodup → ∀ t', growLoop old low f t = some t' →
      Grown t t' ∧ Rep t' (used t.empty old) := by
  intro f
  induction f with
  | zero =>
    intro t _ _ t' h
    cases h
  | succ f ih =>
    intro t hc hn t' h
    simp only [growLoop] at h
    cases hp : getPrime (max (t.growth t.cnt) low) with
    | none =>
      rw [hp] at h
      cases h
    | some n =>
      rw [hp] at h
      simp only at h
      by_cases hlt : t.cnt < n
      · rw [if_pos hlt] at h
        cases hca : copyAll (shiftsLimit n * 2) old (allocate t n) with
        | mk t1 ok =>
          rw [hca] at h
          obtain ⟨k1, k2⟩ := copyAll_ok _ old (allocate t n) [] (Rep.allocate (by omega)) (by
            rw [List.append_nil]
            exact hn) t1 ok hca
          rw [List.append_nil] at k2
          cases ok with
          | true =>
            simp only [Option.some.injEq] at h
            subst h
            have e1 := k1.cnt
            change t1.cnt = n at e1
            exact ⟨⟨by omega, k1.empty, k1.emptySet, k1.size, k1.growth⟩, k2 rfl⟩
          | false =>
            simp only at h
            have e1 := k1.cnt
            change t1.cnt = n at e1
            have e2 := k1.empty
            change t1.empty = t.empty at e2
            have := ih t1 (by omega) (by rw [e2]; exact hn) t' h
            obtain ⟨g, r⟩ := this
            rw [e2] at r
            exact ⟨⟨by have := g.cnt; omega, g.empty.trans k1.empty, g.emptySet.trans k1.emptySet,
              g.size.trans k1.size, g.growth.trans k1.growth⟩, r⟩
      · rw [if_neg hlt] at h
        cases h

theorem grow_ok {f low : Nat} {t t' : Table} {L : List Slot} (hR : Rep t L)
    (h : grow f t low = some t') : Grown t t' ∧ Rep t' L ∧ cur t' = cur t := by
  unfold grow at h
  have hp := slotsOf_used hR
  cases hg : growLoop (slotsOf t.buf t.cnt) low f t with
  | none =>
    rw [hg] at h
    cases h
  | some t1 =>
    rw [hg] at h
    simp only [Option.some.injEq] at h
    obtain ⟨g, r⟩ := growLoop_ok _ low f t hR.cnt2 ((hp.map _).nodup_iff.2 hR.nodup) t1 hg
    have hs := setPVal_same t1 (cur t)
    have hc := cur_setPVal t1 (cur t)
    have hb := setPVal_buf t1 t.pkey t.pval
    change Same t1 (setPVal { t1 with pkey := t.pkey } t.pval) at hs
    change cur (setPVal { t1 with pkey := t.pkey } t.pval) = cur t at hc
    rw [h] at hs hc hb
    exact ⟨⟨by rw [hs.cnt]; exact g.cnt, hs.empty.trans g.empty, hs.emptySet.trans g.emptySet,
      hs.size.trans g.size, hs.growth.trans g.growth⟩,
      (r.perm hp).congr hb hs.cnt hs.empty, hc⟩

/-- What inserting keeps. -/
structure Kept (t t' : Table) : Prop where
  empty : t'.empty = t.empty
  emptySet : t'.emptySet = t.emptySet
  size : t'.size = t.size
  growth : t'.growth = t.growth

theorem insertLoop_grew (gf : Nat) : ∀ (f : Nat) (t t' : Table) (d : Nat) (g : Bool),
    insertLoop gf f t true = some (t', d, g) → g = true := by
  intro f
  induction f with
  | zero =>
    intro t t' d g h
    cases h
  | succ f ih =>
    intro t t' d g h
    simp only [insertLoop] at h
    cases hr : roll (shiftsLimit t.cnt) t (id0 t.cnt t.pkey) (id1 t.cnt t.pkey) with
    | mk t1 o =>
      rw [hr] at h
      cases o with
      | some d1 =>
        simp only [Option.some.injEq, Prod.mk.injEq] at h
        exact h.2.2.symm
      | none =>
        simp only at h
        cases hg : grow gf t1 0 with
        | none =>
          rw [hg] at h
          cases h
        | some t2 =>
          rw [hg] at h
          exact ih t2 t' d g h

theorem insertLoop_ok (gf : Nat) : ∀ (f : Nat) (t : Table) (grew : Bool) (L : List Slot), Rep t L →
    Pend t L → ∀ t' d g, insertLoop gf f t grew = some (t', d, g) →
      Kept t t' ∧ Rep t' (cur t :: L) ∧ (g = false → fromDense t' d = cur t) := by
  intro f
  induction f with
  | zero =>
    intro t grew L _ _ t' d g h
    cases h
  | succ f ih =>
    intro t grew L hR hP t' d g h
    simp only [insertLoop] at h
    cases hr : roll (shiftsLimit t.cnt) t (id0 t.cnt t.pkey) (id1 t.cnt t.pkey) with
    | mk t1 o =>
      rw [hr] at h
      obtain ⟨k1, _, k2, k3⟩ := roll_ok hR hP hr
      cases o with
      | some d1 =>
        simp only [Option.some.injEq, Prod.mk.injEq] at h
        obtain ⟨rfl, rfl, rfl⟩ := h
        exact ⟨⟨k1.empty, k1.emptySet, k1.size, k1.growth⟩, (k2 _ rfl).1, fun _ => (k2 _ rfl).2⟩
      | none =>
        simp only at h
        obtain ⟨⟨L1, hR1, hP1, hperm⟩, _, _⟩ := k3 rfl
        cases hg : grow gf t1 0 with
        | none =>
          rw [hg] at h
          cases h
        | some t2 =>
          rw [hg] at h
          simp only at h
          obtain ⟨g1, g2, g3⟩ := grow_ok hR1 hg
          have hpk : t2.pkey = t1.pkey := congrArg Slot.key g3
          obtain ⟨a1, a2, a3⟩ := ih t2 true L1 g2 ⟨by rw [hpk, g1.empty]; exact hP1.1, by
            rw [hpk]; exact hP1.2⟩ t' d g h
          rw [g3] at a2
          refine ⟨⟨a1.empty.trans (g1.empty.trans k1.empty), a1.emptySet.trans (g1.emptySet.trans k1.emptySet),
            a1.size.trans (g1.size.trans k1.size), a1.growth.trans (g1.growth.trans k1.growth)⟩,
            a2.perm hperm, ?_⟩
          intro hgf
          exact absurd hgf (by rw [insertLoop_grew gf f t2 t' d g h]; decide)

/-- Inserting a key that is there changes nothing. -/
theorem insert_old {f : Nat} {t : Table} {L : List Slot} {s : Slot} (hR : Rep t L) (hs : s ∈ L) (v : Nat) :
    ∃ d, insert f t s.key v = some ((some d, false), t) ∧ fromDense t d = s := by
  obtain ⟨d, h1, h2⟩ := find_mem hR hs
  exact ⟨d, by unfold insert; rw [h1], h2⟩

/-- Inserting a key that is not there. -/
theorem insert_new {f : Nat} {t t' : Table} {L : List Slot} {k v : Nat} {r : Option Nat} {b : Bool}
    (hR : Rep t L) (hk : k ≠ t.empty) (hn : k ∉ L.map Slot.key)
    (h : insert f t k v = some ((r, b), t')) :
    b = true ∧ Rep t' (⟨k, v⟩ :: L) ∧ r.map (fromDense t') = some ⟨k, v⟩ ∧ t'.empty = t.empty ∧
      t'.emptySet = t.emptySet ∧ t'.size = t.size + 1 := by
  unfold insert at h
  rw [find_not_mem hR hk hn] at h
  simp only at h
  have hsame := setPVal_same t ⟨k, v⟩
  have hcur := cur_setPVal t ⟨k, v⟩
  have hbuf := setPVal_buf t k v
  simp only at hsame hcur
  generalize setPVal { t with pkey := k } v = t1 at *
  have hpk : t1.pkey = k := congrArg Slot.key hcur
  have hR1 : Rep t1 L := hR.congr hbuf hsame.cnt hsame.empty
  cases hl : insertLoop f f t1 false with
  | none =>
    rw [hl] at h
    cases h
  | some x =>
    obtain ⟨t2, d, g⟩ := x
    rw [hl] at h
    simp only [Option.some.injEq, Prod.mk.injEq] at h
    obtain ⟨⟨h1, h2⟩, h3⟩ := h
    obtain ⟨a1, a2, a3⟩ := insertLoop_ok f f t1 false L hR1
      ⟨by rw [hpk, hsame.empty]; exact hk, by rw [hpk]; exact hn⟩ t2 d g hl
    rw [hcur] at a2 a3
    have hR2 : Rep t' (⟨k, v⟩ :: L) := by
      rw [← h3]
      exact a2.congr rfl rfl rfl
    refine ⟨h2.symm, hR2, ?_, ?_, ?_, ?_⟩
    · cases g with
      | false =>
        rw [← h1, ← h3]
        exact congrArg some (a3 rfl)
      | true =>
        obtain ⟨d', e1, e2⟩ := find_mem hR2 (s := ⟨k, v⟩) List.mem_cons_self
        rw [← h1, ← h3]
        rw [← h3] at e1 e2
        simp only at e1
        simp only [if_true, e1, Option.map_some, e2]
    · rw [← h3]
      exact a1.empty.trans hsame.empty
    · rw [← h3]
      exact a1.emptySet.trans hsame.emptySet
    · rw [← h3]
      change t2.size + 1 = _
      rw [a1.size, hsame.size]

end Verif.Cuckoo
