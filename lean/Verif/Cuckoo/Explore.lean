import Verif.Cuckoo.Search
/-!
# Exploring a bucket
-/
namespace Verif.Cuckoo

/-- What Explore has done after looking at some of the entries of the bucket `v`: `mask` tells which
of their other buckets were marked. -/
structure Marked (t : Table) (v : Nat) (info0 info1 : Info) (mask : Nat → Bool) : Prop where
  expl : ∀ x, (info1 x).explored = (info0 x).explored
  kids : ∀ x, (info1 x).kids = (info0 x).kids
  vis : ∀ x, (info1 x).visited = true ↔ ((info0 x).visited = true ∨ ∃ k, mask k = true ∧ x = tgt t v k)
  full : ∀ x, (info1 x).full = true → Full t x
  new : ∀ k, mask k = true → k < 4 ∧ (info0 (tgt t v k)).visited = false ∧
    unshiftable (info0 (tgt t v k)) = false ∧ Full t (tgt t v k)
  inj : ∀ k k', mask k = true → mask k' = true → tgt t v k = tgt t v k' → k = k'

/-- The answers of Explore. -/
def ExploreSpec (t : Table) (v : Nat) (info0 : Info) : Explored → Prop
  | .no info' => ∃ info1 mask, Marked t v info0 info1 mask ∧
      info' = setInfo info1 v (setExplored (info1 v) mask)
  | .found t1 info' => ∃ info1 mask k e, Marked t v info0 info1 mask ∧ k < 4 ∧ mask k = false ∧
      firstEmpty t (tgt t v k) = some e ∧ t1 = insertInto (swapPending t v k) (tgt t v k) e ∧
      info' = if (List.range bucketLen).any mask then setInfo info1 v (setExplored (info1 v) mask)
        else info1

theorem Marked.add {t : Table} {v k : Nat} {info0 info1 : Info} {mask : Nat → Bool} {s : BState}
    (h : Marked t v info0 info1 mask) (hk : k < 4)
    (hv : (info1 (tgt t v k)).visited = false) (hu : unshiftable (info1 (tgt t v k)) = false)
    (hf : Full t (tgt t v k)) (hs : s.explored = (info1 (tgt t v k)).explored)
    (hs2 : s.kids = (info1 (tgt t v k)).kids) (hs3 : s.visited = true) :
    Marked t v info0 (setInfo info1 (tgt t v k) s) (fun j => if j = k then true else mask j) := by
  have hv0 : (info0 (tgt t v k)).visited = false := by
    cases hc : (info0 (tgt t v k)).visited with
    | false => rfl
    | true =>
      have := (h.vis (tgt t v k)).2 (Or.inl hc)
      rw [hv] at this
      cases this
  have hnew : ∀ j, mask j = true → tgt t v j ≠ tgt t v k := by
    intro j hj e
    have := (h.vis (tgt t v k)).2 (Or.inr ⟨j, hj, e.symm⟩)
    rw [hv] at this
    cases this
  have hu0 : unshiftable (info0 (tgt t v k)) = false := by
    have e1 := h.expl (tgt t v k)
    have e2 := h.kids (tgt t v k)
    unfold unshiftable numKids at hu ⊢
    rw [e1, e2, hv] at hu
    rw [hv0]
    exact hu
  refine ⟨?_, ?_, ?_, ?_, ?_, ?_⟩
  · intro x
    rw [setInfo_apply]
    split
    · rename_i e
      rw [hs, e]
      exact h.expl _
    · exact h.expl x
  · intro x
    rw [setInfo_apply]
    split
    · rename_i e
      rw [hs2, e]
      exact h.kids _
    · exact h.kids x
  · intro x
    rw [setInfo_apply]
    split
    · rename_i e
      constructor
      · intro _
        exact Or.inr ⟨k, by simp, e⟩
      · intro _
        exact hs3
    · rename_i e
      rw [h.vis]
      constructor
      · rintro (a | ⟨j, a, b⟩)
        · exact Or.inl a
        · exact Or.inr ⟨j, by split <;> trivial, b⟩
      · rintro (a | ⟨j, a, b⟩)
        · exact Or.inl a
        · by_cases hj : j = k
          · rw [hj] at b
            exact absurd b e
          · simp only [if_neg hj] at a
            exact Or.inr ⟨j, a, b⟩
  · intro x
    rw [setInfo_apply]
    split
    · rename_i e
      intro _
      rw [e]
      exact hf
    · exact h.full x
  · intro j hj
    by_cases hjk : j = k
    · rw [hjk]
      exact ⟨hk, hv0, hu0, hf⟩
    · simp only [if_neg hjk] at hj
      exact h.new j hj
  · intro j j' hj hj' e
    by_cases hjk : j = k
    · by_cases hjk' : j' = k
      · rw [hjk, hjk']
      · simp only [if_neg hjk'] at hj'
        rw [hjk] at e
        exact absurd e.symm (hnew j' hj')
    · simp only [if_neg hjk] at hj
      by_cases hjk' : j' = k
      · rw [hjk'] at e
        exact absurd e (hnew j hj)
      · simp only [if_neg hjk'] at hj'
        exact h.inj j j' hj hj' e

theorem exploreGo_ok (t : Table) (v : Nat) (info0 : Info) : ∀ (ks : List Nat) (info1 : Info)
    (mask : Nat → Bool), ks.Nodup → (∀ k ∈ ks, k < 4 ∧ mask k = false) → Marked t v info0 info1 mask →
      ExploreSpec t v info0 (exploreGo t v ks info1 mask) := by
  intro ks
  induction ks with
  | nil =>
    intro info1 mask _ _ h
    exact ⟨info1, mask, h, rfl⟩
  | cons k ks ih =>
    intro info1 mask hn hks h
    obtain ⟨hk4, hkm⟩ := hks k List.mem_cons_self
    rw [List.nodup_cons] at hn
    have hrest : ∀ j ∈ ks, j < 4 ∧ mask j = false := fun j hj => hks j (List.mem_cons_of_mem _ hj)
    have hrest2 : ∀ j ∈ ks, j < 4 ∧ (fun j => if j = k then true else mask j) j = false := by
      intro j hj
      have hne : j ≠ k := fun e => hn.1 (e ▸ hj)
      simp only [if_neg hne]
      exact hrest j hj
    unfold exploreGo
    change ExploreSpec t v info0 (if ((info1 (tgt t v k)).visited || unshiftable (info1 (tgt t v k))) = true
      then _ else if (info1 (tgt t v k)).full = true then _ else _)
    split
    · exact ih info1 mask hn.2 hrest h
    · rename_i hvu
      simp only [Bool.or_eq_true, not_or, Bool.not_eq_true] at hvu
      split
      · rename_i hf
        exact ih _ _ hn.2 hrest2 (h.add hk4 hvu.1 hvu.2 (h.full _ hf) rfl rfl rfl)
      · change ExploreSpec t v info0 (match firstEmpty t (tgt t v k) with | some e => _ | none => _)
        cases he : firstEmpty t (tgt t v k) with
        | some e => exact ⟨info1, mask, k, e, h, hk4, hkm, he, rfl, rfl⟩
        | none => exact ih _ _ hn.2 hrest2 (h.add hk4 hvu.1 hvu.2 (firstEmpty_none he) rfl rfl rfl)

theorem explore_ok {t : Table} {v : Nat} {info : Info}
    (hf : ∀ x, (info x).full = true → Full t x) : ExploreSpec t v info (explore t v info) := by
  refine exploreGo_ok t v info _ _ _ (by decide) ?_ ?_
  · intro k hk
    exact ⟨List.mem_range.1 hk, rfl⟩
  · refine ⟨fun _ => rfl, fun _ => rfl, ?_, hf, ?_, ?_⟩
    · intro x
      simp
    · intro k hk
      cases hk
    · intro k k' hk
      cases hk

/-- After exploring the top of the stack without success. -/
theorem Fresh.explored {bid p0 : Nat} {total : List Slot} {t : Table} {info info1 : Info} {v : Nat}
    {rest : List Nat} {mask : Nat → Bool} (h : Fresh bid p0 total t info v rest)
    (he : (info v).explored = false) (hm : Marked t v info info1 mask) :
    Fresh bid p0 total t (setInfo info1 v (setExplored (info1 v) mask)) v rest := by
  obtain ⟨core, arr, work, start⟩ := h
  have hnod := List.nodup_cons.1 core.nodup
  have hnv : ∀ k, tgt t v k ≠ v := fun k => nextBucket_ne work.cnt2
  have hkv := core.unexp v he
  have hmk : ∀ k, mask k = true → (info (tgt t v k)).explored = false ∧ tgt t v k ∉ v :: rest := by
    intro k hk
    obtain ⟨k1, k2, k3, k4⟩ := hm.new k hk
    refine ⟨?_, ?_⟩
    · cases hx : (info (tgt t v k)).explored with
      | false => rfl
      | true =>
        rcases core.expl _ hx with e | ⟨e1, e2⟩
        · have := core.visStack _ e
          rw [k2] at this
          cases this
        · rw [unshiftable_iff.2 ⟨hx, e1, e2⟩] at k3
          cases k3
    · intro e
      have := core.visStack _ e
      rw [k2] at this
      cases this
  generalize hi : setInfo info1 v (setExplored (info1 v) mask) = info2
  have hv2 : ∀ x, (info2 x).visited = (info1 x).visited := by
    intro x
    rw [← hi, setInfo_apply]
    split
    · rename_i e; rw [e]; rfl
    · rfl
  have hf2 : ∀ x, (info2 x).full = (info1 x).full := by
    intro x
    rw [← hi, setInfo_apply]
    split
    · rename_i e; rw [e]; rfl
    · rfl
  have he2 : ∀ x, x ≠ v → (info2 x).explored = (info x).explored := by
    intro x hx
    rw [← hi, setInfo_ne _ _ hx]
    exact hm.expl x
  have hk2 : ∀ x, x ≠ v → (info2 x).kids = (info x).kids := by
    intro x hx
    rw [← hi, setInfo_ne _ _ hx]
    exact hm.kids x
  have hkv2 : ∀ k, k < 4 → (info2 v).kids k = mask k := by
    intro k hk
    rw [← hi, setInfo_same]
    unfold setExplored
    simp only [hm.kids v, hkv k hk, Bool.false_or]
  have hev2 : (info2 v).explored = true := by
    rw [← hi, setInfo_same]
    rfl
  have hfk2 : ∀ x, x ≠ v → firstKid (info2 x) = firstKid (info x) := by
    intro x hx
    unfold firstKid
    rw [hk2 x hx]
  have hlive : ∀ x k, Live info2 (v :: rest) rest x k ↔
      (Live info (v :: rest) rest x k ∧ x ≠ v) ∨ (x = v ∧ k < 4 ∧ mask k = true) := by
    intro x k
    unfold Live
    by_cases hxv : x = v
    · subst hxv
      constructor
      · rintro ⟨a1, a2, a3, a4⟩
        rw [hkv2 k a2] at a3
        exact Or.inr ⟨rfl, a2, a3⟩
      · rintro (⟨_, a⟩ | ⟨_, a, b⟩)
        · exact absurd rfl a
        · exact ⟨List.mem_cons_self, a, by rw [hkv2 k a]; exact b, fun c => hnod.1 c.1⟩
    · rw [hk2 x hxv, hfk2 x hxv]
      constructor
      · intro a
        exact Or.inl ⟨a, hxv⟩
      · rintro (⟨a, _⟩ | ⟨a, _⟩)
        · exact a
        · exact absurd a hxv
  have hlv : ∀ k, ¬ Live info (v :: rest) rest v k := by
    rintro k ⟨_, a2, a3, _⟩
    rw [hkv k a2] at a3
    cases a3
  refine ⟨⟨core.nodup, core.stackLt, ?_, ?_, ?_, ?_, ?_, ?_, ?_⟩, ?_, work, start⟩
  · intro x hx
    rw [hv2]
    exact (hm.vis x).2 (Or.inl (core.visStack x hx))
  · intro x hx
    rw [hv2] at hx
    rcases (hm.vis x).1 hx with a | ⟨k, a, b⟩
    · rcases core.visOnly x a with e | ⟨y, k, hl, e⟩
      · exact Or.inl e
      · refine Or.inr ⟨y, k, (hlive y k).2 (Or.inl ⟨hl, ?_⟩), e⟩
        rintro rfl
        exact hlv k hl
    · exact Or.inr ⟨v, k, (hlive v k).2 (Or.inr ⟨rfl, (hm.new k a).1, a⟩), b⟩
  · intro x hx
    by_cases hxv : x = v
    · exact Or.inl (by rw [hxv]; exact List.mem_cons_self)
    · rw [he2 x hxv] at hx
      rcases core.expl x hx with e | ⟨e1, e2⟩
      · exact Or.inl e
      · right
        rw [hv2, hk2 x hxv]
        refine ⟨?_, e2⟩
        cases hc : (info1 x).visited with
        | false => rfl
        | true =>
          rcases (hm.vis x).1 hc with a | ⟨k, a, b⟩
          · rw [e1] at a
            cases a
          · have := (hmk k a).1
            rw [← b, hx] at this
            cases this
  · intro x hx
    by_cases hxv : x = v
    · rw [hxv, hev2] at hx
      cases hx
    · rw [he2 x hxv] at hx
      rw [hk2 x hxv]
      exact core.unexp x hx
  · intro x k hl
    rw [hv2]
    rcases (hlive x k).1 hl with ⟨a, hx⟩ | ⟨rfl, a1, a2⟩
    · obtain ⟨m1, m2, m3⟩ := core.kid x k a
      have hne : tgt t x k ≠ v := fun e => m3 (by rw [e]; exact List.mem_cons_self)
      rw [he2 _ hne]
      exact ⟨(hm.vis _).2 (Or.inl m1), m2, m3⟩
    · rw [he2 _ (hnv k)]
      exact ⟨(hm.vis _).2 (Or.inr ⟨k, a2, rfl⟩), hmk k a2⟩
  · intro x k x' k' hl hl' e
    rcases (hlive x k).1 hl with ⟨a, hx⟩ | ⟨rfl, a1, a2⟩
    · rcases (hlive x' k').1 hl' with ⟨b, hx'⟩ | ⟨rfl, b1, b2⟩
      · exact core.kidInj x k x' k' a b e
      · have h1 := (core.kid x k a).1
        have h2 := (hm.new k' b2).2.1
        rw [← e, h1] at h2
        cases h2
    · rcases (hlive x' k').1 hl' with ⟨b, hx'⟩ | ⟨rfl, b1, b2⟩
      · have h1 := (core.kid x' k' b).1
        have h2 := (hm.new k a2).2.1
        rw [e, h1] at h2
        cases h2
      · exact ⟨rfl, hm.inj k k' a2 b2 e⟩
  · intro x hx
    rw [hv2, hf2] at hx
    have hvv := core.visStack v List.mem_cons_self
    rcases hx with a | a | a
    · by_cases hxv : x = v
      · rw [hxv]
        exact core.flag v (Or.inr (Or.inl hvv))
      · rw [he2 x hxv] at a
        exact core.flag x (Or.inl a)
    · rcases (hm.vis x).1 a with b | ⟨k, b1, b2⟩
      · exact core.flag x (Or.inr (Or.inl b))
      · rw [b2]
        exact (hm.new k b1).2.2.2
    · exact hm.full x a
  · refine Arr.congr (t := t) (t' := t) (info := info) rfl rest v _ arr ?_
    intro x hx
    have hxv : x ≠ v := fun e => hnod.1 (e ▸ hx)
    exact ⟨hfk2 x hxv, fun _ => rfl⟩

end Verif.Cuckoo
