import Verif.Periodic.Inv
/-! The invariants are kept by every step. -/
namespace Verif.Periodic
open Verif.Common

theorem none_of_not_some {α : Type} {x : Option α} (h : ¬ x.isSome = true) : x = none := by
  cases x
  · rfl
  · exact absurd rfl h

theorem perm_push {sq : List Sqe} {x : List (Nat × Cb)} {e : Sqe} :
    ((e.ud, e.cb) :: (sq.map (fun e => (e.ud, e.cb)) ++ x)).Perm ((sq ++ [e]).map (fun e => (e.ud, e.cb)) ++ x) := by
  rw [List.map_append, List.append_assoc, List.map_singleton, List.singleton_append]
  exact List.perm_middle.symm

theorem tbl_push {s s1 : S} (t : Tbl s.slots (flight s)) {e : Sqe} (hu : s.slots e.ud = none)
    (h1 : s1.slots = upd s.slots e.ud (some e.cb)) (h2 : s1.sq = s.sq ++ [e]) (h3 : s1.kt = s.kt) (h4 : s1.ko = s.ko) (h5 : s1.cq = s.cq) :
    Tbl s1.slots (flight s1) := by
  rw [h1]
  refine (t.push hu).perm ?_
  unfold flight
  rw [h2, h3, h4, h5]
  exact perm_push

theorem uniq_push {slots : Nat → Option Cb} {u : Nat} {cb : Cb}
    (r : ∀ u v f, slots u = some (.remove f) → slots v = some (.remove f) → u = v)
    (h : ∀ f, cb = .remove f → ∀ v, slots v ≠ some (.remove f)) :
    ∀ a b f, upd slots u (some cb) a = some (.remove f) → upd slots u (some cb) b = some (.remove f) → a = b := by
  intro a b f ha hb
  by_cases h1 : a = u
  · by_cases h2 : b = u
    · rw [h1, h2]
    · rw [h1, upd_same] at ha
      rw [upd_ne _ _ h2] at hb
      cases ha
      exact absurd hb (h f rfl b)
  · rw [upd_ne _ _ h1] at ha
    by_cases h2 : b = u
    · rw [h2, upd_same] at hb
      cases hb
      exact absurd ha (h f rfl a)
    · rw [upd_ne _ _ h2] at hb
      exact r a b f ha hb

theorem uniq_pop {slots : Nat → Option Cb} {u : Nat}
    (r : ∀ u v f, slots u = some (.remove f) → slots v = some (.remove f) → u = v) :
    ∀ a b f, upd slots u none a = some (.remove f) → upd slots u none b = some (.remove f) → a = b := by
  intro a b f ha hb
  by_cases h1 : a = u
  · rw [h1, upd_same] at ha; cases ha
  · by_cases h2 : b = u
    · rw [h2, upd_same] at hb; cases hb
    · rw [upd_ne _ _ h1] at ha
      rw [upd_ne _ _ h2] at hb
      exact r a b f ha hb

/-- A timer is submitted for an item that is new or waits in the list. -/
theorem inv_arm {s : S} (v : Inv s) {i u : Nat} (hu : s.slots u = none) (hi : s.items[i]? = none ∨ i ∈ s.plist)
    {its : List Item} {pl : List Nat} (l : List Ev) (h1 : its[i]? = some ⟨2, u, true, false⟩) (h2 : ∀ j, j ≠ i → its[j]? = s.items[j]?)
    (h3 : i ∉ pl) (h4 : ∀ j, j ≠ i → (j ∈ pl ↔ j ∈ s.plist)) (h5 : pl.Nodup) (h6 : s.mode = .fibers → pl = []) :
    Inv { s with items := its, plist := pl, slots := upd s.slots u (some (.timer i)), sq := s.sq ++ [⟨u, .timer i, 0⟩], log := l } := by
  obtain ⟨t, o, q, ok⟩ := v
  have hcan : ∀ (f : Nat) (c : Cancel), s.cans[f]? = some c → c.i ≠ i := by
    intro f c hc he
    obtain ⟨x, hx, hm⟩ := o.g f c hc
    rw [he] at hx
    rcases hi with hi | hi
    · rw [hi] at hx; cases hx
    · obtain ⟨y, hy, hm'⟩ := o.d i hi
      rw [hx] at hy; cases hy
      rw [hm] at hm'; cases hm'
  have hslot : ∀ v, s.slots v ≠ some (.timer i) := by
    intro v hv
    obtain ⟨x, hx, _, _, hp⟩ := o.b v i hv
    rcases hi with hi | hi
    · rw [hi] at hx; cases hx
    · exact hp hi
  have hout : ∀ j, j ≠ i → s.out j → ∀ x : Item, its[j]? = some x → x.inMap = false := by
    intro j hj ho x hx
    rw [h2 j hj] at hx
    exact ho x hx
  have kne : ∀ k ∈ s.kt, k.i ≠ i := by
    intro k hk he
    exact hslot k.ud (by rw [← he]; exact (t.iff _ _).2 (mem_kt hk))
  have sne : ∀ e ∈ s.sq, e.cb ≠ .timer i := by
    intro e he hc
    exact hslot e.ud (by rw [← hc]; exact (t.iff _ _).2 (mem_sq he))
  refine ⟨tbl_push (e := ⟨u, .timer i, 0⟩) t hu rfl rfl rfl rfl rfl, ?_, ?_, ok⟩
  · refine ⟨?_, ?_, ?_, ?_, h5, h6, ?_, uniq_push o.r (fun f h => by cases h), ?_, ?_⟩
    · intro j x hx hf
      by_cases hj : j = i
      · subst hj
        have : some x = some _ := hx.symm.trans h1
        cases this
        right
        exact upd_same ..
      · have hx' := hx
        simp only [h2 j hj] at hx'
        rcases o.a j x hx' hf with h | h
        · left; exact (h4 j hj).2 h
        · right
          show upd s.slots u _ x.ud = _
          rw [upd_ne _ _ (by intro he; rw [he, hu] at h; cases h)]
          exact h
    · intro v j hv
      simp only at hv
      by_cases hvu : v = u
      · subst hvu
        rw [upd_same] at hv
        cases hv
        exact ⟨_, h1, rfl, rfl, h3⟩
      · rw [upd_ne _ _ hvu] at hv
        have hj : j ≠ i := by intro he; subst he; exact hslot v hv
        obtain ⟨x, hx, hf, hux, hp⟩ := o.b v j hv
        exact ⟨x, by rw [← hx]; exact h2 j hj, hf, hux, fun h => hp ((h4 j hj).1 h)⟩
    · intro j x hx
      by_cases hj : j = i
      · subst hj
        have : some x = some _ := hx.symm.trans h1
        cases this
        exact ⟨fun _ => ⟨rfl, rfl⟩, fun h => by cases h⟩
      · have hx' := hx
        simp only [h2 j hj] at hx'
        exact o.c j x hx'
    · intro j hj
      have hne : j ≠ i := by intro he; subst he; exact h3 hj
      obtain ⟨x, hx, hm⟩ := o.d j ((h4 j hne).1 hj)
      exact ⟨x, (h2 j hne).trans hx, hm⟩
    · intro v f hv
      simp only at hv
      by_cases hvu : v = u
      · subst hvu; rw [upd_same] at hv; cases hv
      · rw [upd_ne _ _ hvu] at hv; exact o.e v f hv
    · intro f c hc hd
      obtain ⟨v, hv⟩ := o.f f c hc hd
      refine ⟨v, ?_⟩
      show upd s.slots u _ v = _
      rw [upd_ne _ _ (by intro he; rw [he, hu] at hv; cases hv)]
      exact hv
    · intro f c hc
      obtain ⟨x, hx, hm⟩ := o.g f c hc
      exact ⟨x, (h2 _ (hcan f c hc)).trans hx, hm⟩
  · refine ⟨?_, ?_, ?_, ?_, ?_, ?_, ?_⟩
    · intro e he f hf k hk hku
      rcases List.mem_append.1 he with he | he
      · exact hout k.i (kne k hk) (q.a1 e he f hf k hk hku)
      · rw [List.mem_singleton] at he; subst he; cases hf
    · refine List.pairwise_append.2 ⟨?_, List.pairwise_singleton .., ?_⟩
      · refine q.a3.imp_of_mem ?_
        intro e e' he he' h f j hf hj hud
        have : j ≠ i := by intro h'; subst h'; exact sne e he hj
        exact hout j this (h f j hf hj hud)
      · intro e he e' he' f j hf
        rw [List.mem_singleton] at he'; subst he'; cases hf
    · intro k hk hd
      exact hout k.i (kne k hk) (q.b1 k hk hd)
    · intro c hc j hj hr
      have : j ≠ i := by
        intro h'; subst h'
        exact hslot c.ud (by rw [← hj]; exact (t.iff _ _).2 (mem_cq hc))
      exact hout j this (q.b2 c hc j hj hr)
    · refine List.pairwise_append.2 ⟨q.c1, List.pairwise_singleton .., ?_⟩
      intro e he e' he' f c hf hc
      rw [List.mem_singleton] at he'; subst he'
      intro h
      cases h
      exact hcan f c hc rfl
    · intro e he f c hf hc x hx hfr
      rcases List.mem_append.1 he with he | he
      · have hx' := hx
        simp only [h2 _ (hcan f c hc)] at hx'
        exact q.c2 e he f c hf hc x hx' hfr
      · rw [List.mem_singleton] at he; subst he; cases hf
    · intro f c hc hno
      obtain ⟨d1, d2⟩ := q.d f c hc (fun e he => hno e (List.mem_append_left _ he))
      refine ⟨fun e he => ?_, d2⟩
      rcases List.mem_append.1 he with he | he
      · exact d1 e he
      · rw [List.mem_singleton] at he; subst he
        intro h; cases h; exact hcan f c hc rfl

theorem inv_add {s s1 : S} (v : Inv s) {u : Nat} (h : s.add u = some s1) : Inv s1 := by
  unfold S.add at h
  split at h
  · cases h
  rename_i hg
  have hu := none_of_not_some fun h => hg (Or.inr h)
  simp only [S.schedule, List.getElem?_append_right (Nat.le_refl _), Nat.sub_self, List.getElem?_cons_zero, Bool.false_eq_true, if_false,
    S.setI, S.push] at h
  have hnp : s.items.length ∉ s.plist := by
    intro hp
    obtain ⟨x, hx, _⟩ := v.o.d _ hp
    exact absurd (lt_of_get hx) (Nat.lt_irrefl _)
  have hget : ∀ j, ((s.items ++ [Item.mk 1 0 true false]).set s.items.length ⟨2, u, true, false⟩)[j]? =
      if j = s.items.length then some ⟨2, u, true, false⟩ else s.items[j]? := by
    intro j
    rw [List.getElem?_set]
    by_cases hj : j = s.items.length
    · subst hj; simp
    · rw [if_neg (fun h => hj h.symm), if_neg hj]
      by_cases hlt : j < s.items.length
      · rw [List.getElem?_append_left hlt]
      · rw [List.getElem?_eq_none (by simp; omega), List.getElem?_eq_none (by omega)]
  have := inv_arm v hu (i := s.items.length) (Or.inl (List.getElem?_eq_none (Nat.le_refl _)))
    (its := (s.items ++ [Item.mk 1 0 true false]).set s.items.length ⟨2, u, true, false⟩) (pl := s.plist)
    (s.log ++ [.added s.items.length]) (by rw [hget, if_pos rfl]) (fun j hj => by rw [hget, if_neg hj]) hnp (fun _ _ => Iff.rfl) v.o.nd v.o.m
  cases h
  exact this

theorem inv_resch {s s1 : S} (v : Inv s) {u : Nat} (h : s.resch u = some s1) : Inv s1 := by
  unfold S.resch at h
  split at h
  · cases h
  rename_i hg
  have hu := none_of_not_some fun h => hg (Or.inr h)
  have hm : s.mode = .resched := Classical.byContradiction fun h => hg (Or.inl h)
  split at h
  · cases h
  rename_i i rest hp
  have hi : i ∈ s.plist := by rw [hp]; exact List.mem_cons_self ..
  have hnd := v.o.nd
  rw [hp, List.nodup_cons] at hnd
  obtain ⟨x, hx, hin⟩ := v.o.d i hi
  have hfr := ((v.o.c i x hx).1 hin).2
  simp only [S.schedule, hx, hfr, Bool.false_eq_true, if_false, S.setI, S.push, hin] at h
  have := inv_arm v hu (i := i) (Or.inr hi) (its := s.items.set i ⟨2, u, true, false⟩) (pl := rest) s.log
    (by rw [List.getElem?_set_self (lt_of_get hx)]) (fun j hj => by rw [List.getElem?_set_ne (fun h => hj h.symm)]) hnd.1
    (fun j hj => by rw [hp, List.mem_cons]; simp [hj]) hnd.2 (fun h => by rw [hm] at h; cases h)
  cases h
  exact this

theorem inv_other {s s1 : S} (v : Inv s) {u : Nat} (h : s.other u = some s1) : Inv s1 := by
  unfold S.other at h
  split at h
  · cases h
  rename_i hg
  have hu := none_of_not_some fun h => hg (Or.inr h)
  simp only [S.push] at h
  cases h
  obtain ⟨t, o, q, ok⟩ := v
  refine ⟨tbl_push (e := ⟨u, .other, 0⟩) t hu rfl rfl rfl rfl rfl, ?_, ?_, ok⟩
  · refine ⟨?_, ?_, o.c, o.d, o.nd, o.m, ?_, uniq_push o.r (fun f h => by cases h), ?_, o.g⟩
    · intro j x hx hf
      rcases o.a j x hx hf with h | h
      · exact Or.inl h
      · right
        show upd s.slots u _ x.ud = _
        rw [upd_ne _ _ (by intro he; rw [he, hu] at h; cases h)]
        exact h
    · intro v j hv
      simp only at hv
      by_cases hvu : v = u
      · subst hvu; rw [upd_same] at hv; cases hv
      · rw [upd_ne _ _ hvu] at hv; exact o.b v j hv
    · intro v f hv
      simp only at hv
      by_cases hvu : v = u
      · subst hvu; rw [upd_same] at hv; cases hv
      · rw [upd_ne _ _ hvu] at hv; exact o.e v f hv
    · intro f c hc hd
      obtain ⟨v, hv⟩ := o.f f c hc hd
      refine ⟨v, ?_⟩
      show upd s.slots u _ v = _
      rw [upd_ne _ _ (by intro he; rw [he, hu] at hv; cases hv)]
      exact hv
  · refine ⟨?_, ?_, q.b1, q.b2, ?_, ?_, ?_⟩
    · intro e he f hf
      rcases List.mem_append.1 he with he | he
      · exact q.a1 e he f hf
      · rw [List.mem_singleton] at he; subst he; cases hf
    · refine List.pairwise_append.2 ⟨q.a3, List.pairwise_singleton .., ?_⟩
      intro e he e' he' f j hf
      rw [List.mem_singleton] at he'; subst he'; cases hf
    · refine List.pairwise_append.2 ⟨q.c1, List.pairwise_singleton .., ?_⟩
      intro e he e' he' f c hf hc
      rw [List.mem_singleton] at he'; subst he'
      intro h
      cases h
    · intro e he f c hf
      rcases List.mem_append.1 he with he | he
      · exact q.c2 e he f c hf
      · rw [List.mem_singleton] at he; subst he; cases hf
    · intro f c hc hno
      obtain ⟨d1, d2⟩ := q.d f c hc (fun e he => hno e (List.mem_append_left _ he))
      refine ⟨fun e he => ?_, d2⟩
      rcases List.mem_append.1 he with he | he
      · exact d1 e he
      · rw [List.mem_singleton] at he; subst he
        intro h; cases h

theorem get_append {α : Type} {l : List α} {a x : α} {f : Nat} (h : (l ++ [a])[f]? = some x) :
    l[f]? = some x ∨ (f = l.length ∧ x = a) := by
  by_cases hf : f < l.length
  · rw [List.getElem?_append_left hf] at h; exact Or.inl h
  · have := lt_of_get h
    simp at this
    have hf' : f = l.length := by omega
    subst hf'
    simp at h
    exact Or.inr ⟨rfl, h.symm⟩

theorem inv_cancel {s s1 : S} (v : Inv s) {i u : Nat} (h : s.cancel i u = some s1) : Inv s1 := by
  unfold S.cancel at h
  split at h
  · cases h
  rename_i x hx
  split at h
  · cases h
  rename_i hg
  have hu := none_of_not_some fun h => hg (Or.inr (Or.inl h))
  have hm : s.mode = .fibers := Classical.byContradiction fun h => hg (Or.inl h)
  have hin : x.inMap = true := Classical.byContradiction fun h => hg (Or.inr (Or.inr h))
  obtain ⟨t, o, q, ok⟩ := v
  have hpl := o.m hm
  obtain ⟨href, hfr⟩ := (o.c i x hx).1 hin
  have hsl : s.slots x.ud = some (.timer i) := by
    rcases o.a i x hx hfr with h | h
    · rw [hpl] at h; cases h
    · exact h
  simp only [S.setI, S.push, href, Nat.reduceSub] at h
  have hget : ∀ j, (s.items.set i { x with ref := 1, inMap := false })[j]? =
      if j = i then some { x with ref := 1, inMap := false } else s.items[j]? := by
    intro j
    by_cases hj : j = i
    · subst hj; rw [List.getElem?_set_self (lt_of_get hx), if_pos rfl]
    · rw [List.getElem?_set_ne (fun h => hj h.symm), if_neg hj]
  have fresh : ∀ v f, s.slots v = some (.remove f) → f ≠ s.cans.length := by
    intro v f hv he
    obtain ⟨c, hc, _⟩ := o.e v f hv
    have := lt_of_get hc
    omega
  have ci : ∀ (f : Nat) (c : Cancel), s.cans[f]? = some c → c.i ≠ i := by
    intro f c hc he
    obtain ⟨y, hy, hm'⟩ := o.g f c hc
    rw [he, hx] at hy; cases hy
    rw [hin] at hm'; cases hm'
  have hout : ∀ j, s.out j ∨ j = i → ∀ y : Item, (s.items.set i { x with ref := 1, inMap := false })[j]? = some y → y.inMap = false := by
    intro j hj y hy
    rw [hget] at hy
    split at hy
    · cases hy; rfl
    · rename_i hne
      rcases hj with hj | hj
      · exact hj y hy
      · exact absurd hj hne
  cases h
  refine ⟨tbl_push (e := ⟨u, .remove s.cans.length, x.ud⟩) t hu rfl rfl rfl rfl rfl, ?_, ?_, ok⟩
  · refine ⟨?_, ?_, ?_, ?_, o.nd, o.m, ?_, uniq_push o.r (fun f h v hv => fresh v f hv (by cases h; rfl)), ?_, ?_⟩
    · intro j y hy hf
      simp only [hget] at hy
      right
      show upd s.slots u _ y.ud = _
      split at hy
      · cases hy
        rename_i hj
        subst hj
        rw [upd_ne _ _ (by intro he; simp only at he; rw [he, hu] at hsl; cases hsl)]
        exact hsl
      · rcases o.a j y hy hf with h | h
        · rw [hpl] at h; cases h
        · rw [upd_ne _ _ (by intro he; rw [he, hu] at h; cases h)]
          exact h
    · intro v j hv
      simp only at hv
      by_cases hvu : v = u
      · subst hvu; rw [upd_same] at hv; cases hv
      · rw [upd_ne _ _ hvu] at hv
        obtain ⟨y, hy, h1, h2, h3⟩ := o.b v j hv
        by_cases hj : j = i
        · subst hj
          rw [hx] at hy; cases hy
          exact ⟨_, (hget _).trans (if_pos rfl), hfr, h2, h3⟩
        · exact ⟨y, by simp only [hget]; rw [if_neg hj]; exact hy, h1, h2, h3⟩
    · intro j y hy
      simp only [hget] at hy
      split at hy
      · cases hy
        exact ⟨fun h => (by cases h), fun _ _ => rfl⟩
      · exact o.c j y hy
    · intro j hj
      have hj' : j ∈ s.plist := hj
      rw [hpl] at hj'; cases hj'
    · intro v f hv
      simp only at hv
      by_cases hvu : v = u
      · subst hvu
        rw [upd_same] at hv; cases hv
        exact ⟨⟨i, false⟩, by simp, rfl⟩
      · rw [upd_ne _ _ hvu] at hv
        obtain ⟨c, hc, hd⟩ := o.e v f hv
        exact ⟨c, by simp only; rw [List.getElem?_append_left (lt_of_get hc)]; exact hc, hd⟩
    · intro f c hc hd
      rcases get_append hc with hc | ⟨rfl, rfl⟩
      · obtain ⟨v, hv⟩ := o.f f c hc hd
        refine ⟨v, ?_⟩
        show upd s.slots u _ v = _
        rw [upd_ne _ _ (by intro he; rw [he, hu] at hv; cases hv)]
        exact hv
      · exact ⟨u, upd_same ..⟩
    · intro f c hc
      rcases get_append hc with hc | ⟨rfl, rfl⟩
      · obtain ⟨y, hy, h1⟩ := o.g f c hc
        exact ⟨y, by simp only [hget]; rw [if_neg (ci f c hc)]; exact hy, h1⟩
      · exact ⟨_, (hget _).trans (if_pos rfl), rfl⟩
  · have kt_i : ∀ k ∈ s.kt, k.ud = x.ud → k.i = i := by
      intro k hk hku
      have := (t.iff _ _).2 (mem_kt hk)
      rw [hku, hsl] at this
      cases this
      rfl
    refine ⟨?_, ?_, ?_, ?_, ?_, ?_, ?_⟩
    · intro e he f hf k hk hku
      rcases List.mem_append.1 he with he | he
      · exact hout _ (Or.inl (q.a1 e he f hf k hk hku))
      · rw [List.mem_singleton] at he; subst he
        exact hout _ (Or.inr (kt_i k hk hku))
    · refine List.pairwise_append.2 ⟨?_, List.pairwise_singleton .., ?_⟩
      · refine q.a3.imp ?_
        intro e e' h f j hf hj hud
        exact hout j (Or.inl (h f j hf hj hud))
      · intro e he e' he' f j hf hj hud
        rw [List.mem_singleton] at he'; subst he'
        have := (t.iff _ _).2 (mem_sq he)
        simp only at hud
        rw [hud, hsl, hj] at this
        cases this
        exact hout _ (Or.inr rfl)
    · intro k hk hd
      exact hout _ (Or.inl (q.b1 k hk hd))
    · intro c hc j hj hr
      exact hout _ (Or.inl (q.b2 c hc j hj hr))
    · refine List.pairwise_append.2 ⟨?_, List.pairwise_singleton .., ?_⟩
      · refine q.c1.imp_of_mem ?_
        intro e e' he he' h f c hf hc
        rcases get_append hc with hc | ⟨rfl, rfl⟩
        · exact h f c hf hc
        · exact absurd rfl (fresh e.ud s.cans.length (by rw [← hf]; exact (t.iff _ _).2 (mem_sq he)))
      · intro e he e' he' f c hf hc
        rw [List.mem_singleton] at he'; subst he'
        intro h; cases h
    · intro e he f c hf hc y hy hyf
      simp only [hget] at hy
      rcases List.mem_append.1 he with he | he
      · rcases get_append hc with hc | ⟨rfl, rfl⟩
        · rw [if_neg (ci f c hc)] at hy
          exact q.c2 e he f c hf hc y hy hyf
        · exact absurd rfl (fresh e.ud s.cans.length (by rw [← hf]; exact (t.iff _ _).2 (mem_sq he)))
      · rw [List.mem_singleton] at he; subst he
        cases hf
        rcases get_append hc with hc | ⟨_, rfl⟩
        · exact absurd (lt_of_get hc) (Nat.lt_irrefl _)
        · rw [if_pos rfl] at hy
          cases hy
          rfl
    · intro f c hc hno
      rcases get_append hc with hc | ⟨rfl, rfl⟩
      · obtain ⟨d1, d2⟩ := q.d f c hc (fun e he => hno e (List.mem_append_left _ he))
        refine ⟨fun e he => ?_, d2⟩
        rcases List.mem_append.1 he with he | he
        · exact d1 e he
        · rw [List.mem_singleton] at he; subst he
          intro h; cases h
      · exact absurd rfl (hno ⟨u, .remove s.cans.length, x.ud⟩ (List.mem_append_right _ (List.mem_singleton.2 rfl)))

end Verif.Periodic
