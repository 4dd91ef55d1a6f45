import Verif.SegmentPool.Spec
namespace Verif.SegmentPool

/-- Entry `a` lies entirely before entry `b`. -/
def Before (a b : Nat × Nat) : Prop := a.1 + a.2 ≤ b.1 ∧ a.1 < b.1

structure Inv (s : Sys) : Prop where
  sorted : s.pool.taken.Pairwise Before
  bound : ∀ e ∈ s.pool.taken, e.1 + e.2 ≤ s.pool.size
  nodup : s.live.Nodup
  live : ∀ e, e ∈ s.live ↔ e ∈ s.pool.taken ∧ e.2 ≠ 0
  front : ∀ e, s.pool.taken.head? = some e → e.2 ≠ 0
  back : ∀ e, s.pool.taken.getLast? = some e → e.2 ≠ 0

theorem popFront_sublist (l : List (Nat × Nat)) : (popFront l).Sublist l := by
  induction l with
  | nil => exact List.Sublist.refl _
  | cons e l ih =>
    unfold popFront
    split
    · exact ih.cons e
    · exact List.Sublist.refl _

theorem mem_popFront {l : List (Nat × Nat)} {e : Nat × Nat} (he : e.2 ≠ 0) :
    e ∈ popFront l ↔ e ∈ l := by
  induction l with
  | nil => exact Iff.rfl
  | cons a l ih =>
    unfold popFront
    split
    · rename_i h
      rw [ih, List.mem_cons]
      constructor
      · exact Or.inr
      · rintro (rfl | h2)
        · exact absurd h he
        · exact h2
    · exact Iff.rfl

theorem popFront_head {l : List (Nat × Nat)} {e : Nat × Nat} (h : (popFront l).head? = some e) :
    e.2 ≠ 0 := by
  induction l with
  | nil => simp [popFront] at h
  | cons a l ih =>
    unfold popFront at h
    split at h
    · exact ih h
    · rename_i hne
      simp only [List.head?_cons, Option.some.injEq] at h
      exact h ▸ hne

theorem popBack_sublist (l : List (Nat × Nat)) : (popBack l).Sublist l := by
  have := (popFront_sublist l.reverse).reverse
  rwa [List.reverse_reverse] at this

theorem mem_popBack {l : List (Nat × Nat)} {e : Nat × Nat} (he : e.2 ≠ 0) :
    e ∈ popBack l ↔ e ∈ l := by
  unfold popBack
  rw [List.mem_reverse, mem_popFront he, List.mem_reverse]

theorem popBack_last {l : List (Nat × Nat)} {e : Nat × Nat} (h : (popBack l).getLast? = some e) :
    e.2 ≠ 0 := by
  unfold popBack at h
  rw [List.getLast?_reverse] at h
  exact popFront_head h

/-- `popBack` keeps the first element unless everything has length 0. -/
theorem popBack_head {a : Nat × Nat} {l : List (Nat × Nat)} (ha : a.2 ≠ 0) :
    (popBack (a :: l)).head? = some a := by
  unfold popBack
  rw [List.head?_reverse, List.reverse_cons]
  generalize l.reverse = r
  induction r with
  | nil => simp [popFront, ha]
  | cons b r ih =>
    simp only [List.cons_append]
    unfold popFront
    split
    · exact ih
    · simp [List.getLast?_cons, List.getLast?_append]

/-- Distinct entries of a sorted deque have distinct offsets. -/
theorem eq_of_fst {l : List (Nat × Nat)} (h : l.Pairwise Before) {i j : Nat} (hi : i < l.length)
    (hj : j < l.length) (e : l[i].1 = l[j].1) : i = j := by
  rcases Nat.lt_trichotomy i j with hlt | heq | hgt
  · have := (List.pairwise_iff_getElem.mp h) i j hi hj hlt
    have := this.2; omega
  · exact heq
  · have := (List.pairwise_iff_getElem.mp h) j i hj hi hgt
    have := this.2; omega

/-- `lower_bound` finds the entry with the given offset. -/
theorem lowerBound_eq {l : List (Nat × Nat)} (h : l.Pairwise Before) {i : Nat} (hi : i < l.length) :
    lowerBound l l[i].1 = i := by
  unfold lowerBound
  rw [List.findIdx_eq hi]
  refine ⟨by simp, ?_⟩
  intro j hj
  have := (List.pairwise_iff_getElem.mp h) j i (by omega) hi hj
  have := this.2
  simp; omega

theorem pairwise_clear {l : List (Nat × Nat)} (h : l.Pairwise Before) {i : Nat} (hi : i < l.length) :
    (l.set i (l[i].1, 0)).Pairwise Before := by
  rw [List.pairwise_iff_getElem] at h ⊢
  intro a b ha hb hab
  simp only [List.length_set] at ha hb
  have hh := h a b ha hb hab
  simp only [List.getElem_set]
  unfold Before at *
  split
  · rename_i e; subst e
    split
    · omega
    · simp only; omega
  · split
    · rename_i e; subst e; simpa using hh
    · exact hh

/-- After clearing entry `i`, the entries of non-zero length are the others. -/
theorem mem_clear {l : List (Nat × Nat)} (h : l.Pairwise Before) {i : Nat} (hi : i < l.length)
    {e : Nat × Nat} (he : e.2 ≠ 0) :
    e ∈ l.set i (l[i].1, 0) ↔ e ∈ l ∧ e ≠ l[i] := by
  constructor
  · intro hm
    obtain ⟨j, hj, hje⟩ := List.getElem_of_mem hm
    simp only [List.length_set] at hj
    simp only [List.getElem_set] at hje
    split at hje
    · rw [← hje] at he; simp at he
    · rename_i hne
      refine ⟨hje ▸ List.getElem_mem hj, ?_⟩
      intro c
      exact hne (eq_of_fst h hi hj (by rw [hje, c]))
  · rintro ⟨hm, hne⟩
    obtain ⟨j, hj, hje⟩ := List.getElem_of_mem hm
    have hij : i ≠ j := by
      intro c; subst c; exact hne hje.symm
    have : (l.set i (l[i].1, 0))[j]'(by simpa using hj) = e := by
      rw [List.getElem_set_ne hij, hje]
    exact this ▸ List.getElem_mem _

theorem inv_request {s : Sys} (h : Inv s) {len : Nat} (hl : 0 < len) {o : Option Nat} {s' : Sys}
    (hs : s.step (.request len) = some (o, s')) : Inv s' := by
  obtain ⟨⟨size, taken⟩, live⟩ := s
  have hsort := h.sorted; have hb := h.bound; have hlive := h.live
  simp only at hsort hb hlive
  cases taken with
  | nil =>
    have hln : live = [] := by
      cases live with
      | nil => rfl
      | cons e t => exact absurd ((hlive e).mp (List.mem_cons_self)).1 (by simp)
    subst hln
    by_cases hgt : len > size
    · simp only [Sys.step, Pool.request, hgt, if_true, Option.some.injEq, Prod.mk.injEq] at hs
      exact hs.2 ▸ h
    · simp only [Sys.step, Pool.request, hgt, if_false, Option.some.injEq, Prod.mk.injEq] at hs
      obtain ⟨_, rfl⟩ := hs
      refine ⟨by simp, ?_, by simp, ?_, ?_, ?_⟩
      · simp; omega
      · intro e
        simp only [List.mem_singleton]
        constructor
        · rintro rfl; exact ⟨rfl, by simp only; omega⟩
        · exact fun h => h.1
      · simp; omega
      · simp; omega
  | cons f rest =>
    by_cases hle : len ≤ f.1
    · simp only [Sys.step, Pool.request, hle, if_true, Option.some.injEq, Prod.mk.injEq] at hs
      obtain ⟨_, rfl⟩ := hs
      have hmin : ∀ e ∈ f :: rest, f.1 ≤ e.1 := by
        intro e he
        rcases List.mem_cons.mp he with rfl | he
        · omega
        · have := (List.pairwise_cons.mp hsort).1 e he
          unfold Before at this; omega
      refine ⟨?_, ?_, ?_, ?_, ?_, ?_⟩
      · refine List.pairwise_cons.mpr ⟨?_, hsort⟩
        intro e he
        have := hmin e he
        unfold Before; simp only; omega
      · intro e he
        rcases List.mem_cons.mp he with rfl | he
        · have := hb f (List.mem_cons_self); simp only; omega
        · exact hb e he
      · refine List.nodup_cons.mpr ⟨?_, h.nodup⟩
        intro hm
        have := hmin _ ((hlive _).mp hm).1
        simp only at this; omega
      · intro e
        simp only [List.mem_cons]
        rw [hlive e]
        constructor
        · rintro (rfl | ⟨h1, h2⟩)
          · exact ⟨Or.inl rfl, by simp only; omega⟩
          · exact ⟨Or.inr (List.mem_cons.mp h1), h2⟩
        · rintro ⟨rfl | h1, h2⟩
          · exact Or.inl rfl
          · exact Or.inr ⟨List.mem_cons.mpr h1, h2⟩
      · simp; omega
      · intro e he
        apply h.back
        simpa [List.getLast?_cons_cons] using he
    · by_cases hfit : ((f :: rest).getLast (by simp)).1 + ((f :: rest).getLast (by simp)).2 + len ≤ size
      · simp only [Sys.step, Pool.request, hle, if_false, hfit, if_true, Option.some.injEq,
          Prod.mk.injEq] at hs
        obtain ⟨_, rfl⟩ := hs
        generalize hbk : (f :: rest).getLast (by simp) = bk at hfit ⊢
        have hbm : bk ∈ f :: rest := hbk ▸ List.getLast_mem _
        have hbnz : bk.2 ≠ 0 := h.back bk (by
          rw [← hbk]; exact List.getLast?_eq_some_getLast _)
        have hmax : ∀ e ∈ f :: rest, e.1 + e.2 ≤ bk.1 + bk.2 ∧ e.1 < bk.1 + bk.2 := by
          intro e he
          obtain ⟨i, hi, hie⟩ := List.getElem_of_mem he
          have hbi : (f :: rest)[(f :: rest).length - 1]'(by simp) = bk := by
            rw [← hbk]; exact (List.getLast_eq_getElem _).symm
          rcases Nat.lt_or_ge i ((f :: rest).length - 1) with hlt | hge
          · have hp := (List.pairwise_iff_getElem.mp hsort) i _ hi (by simp) hlt
            rw [hie, hbi] at hp
            unfold Before at hp; omega
          · have : i = (f :: rest).length - 1 := by omega
            subst this
            rw [hbi] at hie; subst hie; omega
        refine ⟨?_, ?_, ?_, ?_, ?_, ?_⟩
        · rw [List.pairwise_append]
          refine ⟨hsort, by simp, ?_⟩
          intro a ha b hb
          simp only [List.mem_singleton] at hb
          subst hb
          have := hmax a ha
          exact this
        · intro e he
          rcases List.mem_append.mp he with he | he
          · exact hb e he
          · simp only [List.mem_singleton] at he
            subst he; simpa using hfit
        · refine List.nodup_cons.mpr ⟨?_, h.nodup⟩
          intro hm
          have := (hmax _ ((hlive _).mp hm).1).2
          simp only at this; omega
        · intro e
          rw [List.mem_cons, hlive e, List.mem_append, List.mem_singleton]
          constructor
          · rintro (rfl | ⟨h1, h2⟩)
            · exact ⟨Or.inr rfl, by simp only; omega⟩
            · exact ⟨Or.inl h1, h2⟩
          · rintro ⟨h1 | rfl, h2⟩
            · exact Or.inr ⟨h1, h2⟩
            · exact Or.inl rfl
        · intro e he
          apply h.front
          simpa using he
        · intro e he
          simp only [List.getLast?_append, List.getLast?_singleton, Option.some_or,
            Option.some.injEq] at he
          subst he; simp only; omega
      · simp only [Sys.step, Pool.request, hle, if_false, hfit, Option.some.injEq,
          Prod.mk.injEq] at hs
        exact hs.2 ▸ h

theorem inv_ret {s : Sys} (h : Inv s) {seg : Nat × Nat} (hl : seg ∈ s.live) :
    ∃ s', s.step (.ret seg) = some (none, s') ∧ Inv s' := by
  obtain ⟨⟨size, taken⟩, live⟩ := s
  have hsort := h.sorted; have hb := h.bound; have hlive := h.live
  simp only at hsort hb hlive hl
  obtain ⟨hmem, hnz⟩ := (hlive seg).mp hl
  obtain ⟨i, hi, hie⟩ := List.getElem_of_mem hmem
  -- the iterator is the index of the segment
  have hit : ∀ f rest, taken = f :: rest →
      (if f.1 = seg.1 then 0 else lowerBound taken seg.1) = i := by
    intro f rest ht
    split
    · rename_i hf
      exact eq_of_fst hsort (by simp [ht]) hi (by rw [hie]; simp [ht, hf])
    · rw [← hie]; exact lowerBound_eq hsort hi
  cases htk : taken with
  | nil => rw [htk] at hmem; simp at hmem
  | cons f rest =>
    have hit' := hit f rest htk
    have hget : taken[i]? = some seg := by rw [List.getElem?_eq_getElem hi, hie]
    refine ⟨{ pool := { size := size, taken := popBack (popFront (taken.set i (seg.1, 0))) },
              live := live.erase seg }, ?_, ?_⟩
    · simp only [Sys.step, Pool.ret]
      rw [← htk, hit', hget]
      rfl
    · have hclr : taken.set i (seg.1, 0) = taken.set i (taken[i].1, 0) := by rw [hie]
      have hsub : (popBack (popFront (taken.set i (seg.1, 0)))).Sublist (taken.set i (seg.1, 0)) :=
        (popBack_sublist _).trans (popFront_sublist _)
      refine ⟨?_, ?_, ?_, ?_, ?_, ?_⟩
      · refine List.Pairwise.sublist hsub ?_
        rw [hclr]; exact pairwise_clear hsort hi
      · intro e he
        have he' := hsub.subset he
        obtain ⟨j, hj, hje⟩ := List.getElem_of_mem he'
        simp only [List.length_set] at hj
        simp only [List.getElem_set] at hje
        split at hje
        · have := hb seg hmem
          subst hje; simp only; omega
        · exact hb e (hje ▸ List.getElem_mem hj)
      · exact h.nodup.erase seg
      · intro e
        rw [List.Nodup.mem_erase_iff h.nodup, hlive e]
        constructor
        · rintro ⟨h1, h2, h3⟩
          refine ⟨?_, h3⟩
          rw [mem_popBack h3, mem_popFront h3, hclr, mem_clear hsort hi h3, hie]
          exact ⟨h2, h1⟩
        · rintro ⟨h1, h3⟩
          rw [mem_popBack h3, mem_popFront h3, hclr, mem_clear hsort hi h3, hie] at h1
          exact ⟨h1.2, h1.1, h3⟩
      · intro e he
        simp only at he
        cases hpf : popFront (taken.set i (seg.1, 0)) with
        | nil => rw [hpf] at he; simp [popBack, popFront] at he
        | cons a l =>
          have ha : a.2 ≠ 0 := popFront_head (by rw [hpf]; rfl)
          rw [hpf, popBack_head ha] at he
          simp only [Option.some.injEq] at he
          exact he ▸ ha
      · intro e he
        exact popBack_last he

theorem inv_step {s : Sys} (h : Inv s) (op : Op) (hp : pre s op) :
    ∃ o s', s.step op = some (o, s') ∧ Inv s' := by
  cases op with
  | request len =>
    cases hs : s.step (.request len) with
    | none =>
      simp only [Sys.step] at hs
      split at hs <;> cases hs
    | some p => exact ⟨p.1, p.2, rfl, inv_request h hp hs⟩
  | ret seg =>
    obtain ⟨s', hs, hi⟩ := inv_ret h hp
    exact ⟨none, s', hs, hi⟩
  | grow n =>
    refine ⟨none, _, rfl, ⟨h.sorted, ?_, h.nodup, h.live, h.front, h.back⟩⟩
    intro e he
    have := h.bound e he
    simp only [pre] at hp
    simp only [Pool.grow]
    rw [Nat.mod_eq_of_lt hp]; omega

theorem inv_run (ops : List Op) : ∀ s, Inv s → Valid s ops →
    ∃ os s', Common.run Sys.step s ops = some (os, s') ∧ Inv s' := by
  induction ops with
  | nil => intro s h _; exact ⟨_, s, rfl, h⟩
  | cons op ops ih =>
    intro s h hv
    obtain ⟨o, s1, hs, h1⟩ := inv_step h op hv.1
    obtain ⟨os, s2, hr, h2⟩ := ih s1 h1 (hv.2 _ _ hs)
    exact ⟨o :: os, s2, by simp [Common.run, hs, hr], h2⟩

theorem inv_init (n : Nat) : Inv { pool := create n, live := [] } :=
  ⟨by simp [create], by simp [create], by simp, by simp [create], by simp [create], by simp [create]⟩

end Verif.SegmentPool
