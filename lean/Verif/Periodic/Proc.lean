import Verif.Periodic.Step
/-! One completion is processed. -/
namespace Verif.Periodic
open Verif.Common

theorem Fifo.pop {s s1 : S} (h : Fifo s) (h1 : s1.items = s.items) (h2 : s1.sq = s.sq) (h3 : s1.kt = s.kt)
    (h4 : s1.cans = s.cans) (h5 : ∀ c ∈ s1.cq, c ∈ s.cq) : Fifo s1 := by
  obtain ⟨a1, a3, b1, b2, c1, c2, d⟩ := h
  unfold S.out at *
  exact ⟨by unfold S.out; rw [h1, h2, h3]; exact a1, by unfold S.out; rw [h1, h2]; exact a3, by unfold S.out; rw [h1, h3]; exact b1,
    by unfold S.out; rw [h1]; exact fun c hc => b2 c (h5 c hc), by rw [h2, h4]; exact c1, by rw [h1, h2, h4]; exact c2, by rw [h2, h3, h4]; exact d⟩

theorem flight_pop {s : S} {c : Cqe} {cq : List Cqe} (h : s.cq = c :: cq) (s1 : S) (h1 : s1.sq = s.sq) (h2 : s1.kt = s.kt) (h3 : s1.ko = s.ko)
    (h4 : s1.cq = cq) : (flight s).Perm ((c.ud, c.cb) :: flight s1) := by
  unfold flight
  rw [h, h1, h2, h3, h4, List.map_cons, ← List.append_assoc, ← List.append_assoc, ← List.append_assoc, ← List.append_assoc]
  exact List.perm_middle

theorem tbl_pop {s s1 : S} (t : Tbl s.slots (flight s)) {c : Cqe} {cq : List Cqe} (h : s.cq = c :: cq)
    (h0 : s1.slots = upd s.slots c.ud none) (h1 : s1.sq = s.sq) (h2 : s1.kt = s.kt) (h3 : s1.ko = s.ko) (h4 : s1.cq = cq) :
    Tbl s1.slots (flight s1) := by
  rw [h0]
  exact (t.perm (flight_pop h s1 h1 h2 h3 h4)).pop

/-- What processing a completion does. -/
theorem proc_shape {s s1 : S} (v : Inv s) (h : s.proc = some s1) :
    s.mode = .reaping ∧ ∃ c cq, s.cq = c :: cq ∧ s.slots c.ud = some c.cb ∧
    ((∃ (i : Nat) (x : Item), c.cb = .timer i ∧ s.items[i]? = some x ∧ x.inMap = false ∧ x.freed = false ∧ x.ud = c.ud ∧ i ∉ s.plist ∧
        s1 = { s with cq := cq, slots := upd s.slots c.ud none, items := s.items.set i { x with freed := true }, log := s.log ++ [.freed i] }) ∨
     (∃ (i : Nat) (x : Item), c.cb = .timer i ∧ s.items[i]? = some x ∧ x.inMap = true ∧ x.freed = false ∧ x.ud = c.ud ∧ i ∉ s.plist ∧ c.res = .etime ∧
        s1 = { s with cq := cq, slots := upd s.slots c.ud none, plist := s.plist ++ [i], log := s.log ++ [.called i] }) ∨
     (∃ (f : Nat) (k : Cancel), c.cb = .remove f ∧ s.cans[f]? = some k ∧ k.done = false ∧
        s1 = { s with cq := cq, slots := upd s.slots c.ud none, cans := s.cans.set f { k with done := true }, log := s.log ++ [.cancelDone k.i] }) ∨
     (c.cb = .other ∧ s1 = { s with cq := cq, slots := upd s.slots c.ud none })) := by
  unfold S.proc at h
  split at h
  · cases h
  rename_i hm
  refine ⟨Classical.byContradiction hm, ?_⟩
  split at h
  · cases h
  rename_i c cq hcq
  have hc : c ∈ s.cq := by rw [hcq]; exact List.mem_cons_self ..
  have hs := (v.t.iff _ _).2 (mem_cq hc)
  refine ⟨c, cq, hcq, hs, ?_⟩
  split at h
  · rename_i h0; rw [h0] at hs; cases hs
  · rename_i i h0
    rw [h0] at hs
    have hci : c.cb = .timer i := (Option.some.inj hs).symm
    obtain ⟨x, hx, hf, hud, hp⟩ := v.o.b _ _ h0
    simp only [S.periodicCb, hx, hf, Bool.false_eq_true, if_false] at h
    cases hin : x.inMap with
    | false =>
      have := (v.o.c i x hx).2 hin hf
      rw [if_pos (show x.ref ≤ 1 by omega)] at h
      left
      refine ⟨i, x, hci, hx, hin, hf, hud, hp, ?_⟩
      cases h
      rfl
    | true =>
      have := ((v.o.c i x hx).1 hin).1
      rw [if_neg (show ¬ x.ref ≤ 1 by omega)] at h
      have hr : c.res = .etime := Classical.byContradiction fun hr => by
        have := v.q.b2 c hc i hci hr x hx
        rw [hin] at this; cases this
      rw [if_neg (fun h => h hr)] at h
      right; left
      refine ⟨i, x, hci, hx, hin, hf, hud, hp, hr, ?_⟩
      cases h
      rfl
  · rename_i f h0
    rw [h0] at hs
    have hci : c.cb = .remove f := (Option.some.inj hs).symm
    obtain ⟨k, hk, hd⟩ := v.o.e _ _ h0
    simp only [S.cancelCb, hk] at h
    right; right; left
    refine ⟨f, k, hci, hk, hd, ?_⟩
    cases h
    rfl
  · rename_i h0
    rw [h0] at hs
    right; right; right
    cases h
    exact ⟨(Option.some.inj hs).symm, rfl⟩

theorem inv_proc {s s1 : S} (v : Inv s) (h : s.proc = some s1) : Inv s1 := by
  obtain ⟨hm, c, cq, hcq, hs, h⟩ := proc_shape v h
  have hsub : ∀ d ∈ cq, d ∈ s.cq := fun d hd => by rw [hcq]; exact List.mem_cons_of_mem _ hd
  obtain ⟨t, o, q, ok⟩ := v
  have oth : ∀ v cb, v ≠ c.ud → (upd s.slots c.ud none) v = some cb → s.slots v = some cb := by
    intro v cb hv h; rw [upd_ne _ _ hv] at h; exact h
  have vne : ∀ v cb, (upd s.slots c.ud none) v = some cb → v ≠ c.ud := by
    intro v cb h he; rw [he, upd_same] at h; cases h
  rcases h with ⟨i, x, hci, hx, hin, hf, hud, hp, rfl⟩ | ⟨i, x, hci, hx, hin, hf, hud, hp, hr, rfl⟩ | ⟨f, k, hci, hk, hd, rfl⟩ | ⟨hci, rfl⟩
  · have hget : ∀ j, (s.items.set i { x with freed := true })[j]? = if j = i then some { x with freed := true } else s.items[j]? := by
      intro j
      by_cases hj : j = i
      · subst hj; rw [List.getElem?_set_self (lt_of_get hx), if_pos rfl]
      · rw [List.getElem?_set_ne (fun h => hj h.symm), if_neg hj]
    have hout : ∀ j, s.out j → ∀ y : Item, (s.items.set i { x with freed := true })[j]? = some y → y.inMap = false := by
      intro j hj y hy
      rw [hget] at hy
      split at hy
      · cases hy; exact hin
      · exact hj y hy
    refine ⟨tbl_pop t hcq rfl rfl rfl rfl rfl, ?_, ?_, ok⟩
    · refine ⟨?_, ?_, ?_, ?_, o.nd, o.m, ?_, uniq_pop o.r, ?_, ?_⟩
      · intro j y hy hfy
        simp only [hget] at hy
        split at hy
        · cases hy; cases hfy
        · rename_i hne
          rcases o.a j y hy hfy with h | h
          · exact Or.inl h
          · right
            show upd s.slots c.ud none y.ud = _
            rw [upd_ne _ _ (by intro he; rw [he, hs, hci] at h; cases h; exact hne rfl)]
            exact h
      · intro v j hv
        have hv1 := vne v _ hv
        have hv2 := oth v _ hv1 hv
        obtain ⟨y, hy, h1, h2, h3⟩ := o.b v j hv2
        have hj : j ≠ i := by
          intro he; subst he
          rw [hx] at hy; cases hy
          exact hv1 (h2.symm.trans hud)
        exact ⟨y, (hget j).trans ((if_neg hj).trans hy), h1, h2, h3⟩
      · intro j y hy
        simp only [hget] at hy
        split at hy
        · cases hy
          exact ⟨fun h => (by rw [hin] at h; cases h), fun _ h => (by cases h)⟩
        · exact o.c j y hy
      · intro j hj
        obtain ⟨y, hy, hm⟩ := o.d j hj
        have hji : j ≠ i := by intro he; subst he; exact hp hj
        exact ⟨y, (hget j).trans ((if_neg hji).trans hy), hm⟩
      · intro v f hv
        exact o.e v f (oth v _ (vne v _ hv) hv)
      · intro f k hk hd
        obtain ⟨v, hv⟩ := o.f f k hk hd
        refine ⟨v, ?_⟩
        show upd s.slots c.ud none v = _
        rw [upd_ne _ _ (by intro he; rw [he, hs, hci] at hv; cases hv)]
        exact hv
      · intro f k hk
        obtain ⟨y, hy, h1⟩ := o.g f k hk
        by_cases hj : k.i = i
        · rw [hj]
          exact ⟨_, (hget i).trans (if_pos rfl), hin⟩
        · exact ⟨y, (hget _).trans ((if_neg hj).trans hy), h1⟩
    · refine ⟨fun e he f hf k hk hku => hout _ (q.a1 e he f hf k hk hku), ?_, fun k hk hd => hout _ (q.b1 k hk hd),
        fun d hd j hj hr => hout _ (q.b2 d (hsub d hd) j hj hr), q.c1, ?_, q.d⟩
      · refine q.a3.imp ?_
        intro e e' h f j hf hj hud
        exact hout j (h f j hf hj hud)
      · intro e he f k hf hk y hy hyf
        simp only [hget] at hy
        split at hy
        · cases hy; cases hyf
        · exact q.c2 e he f k hf hk y hy hyf
  · refine ⟨tbl_pop t hcq rfl rfl rfl rfl rfl, ?_, q.pop rfl rfl rfl rfl hsub, ok⟩
    refine ⟨?_, ?_, o.c, ?_, ?_, ?_, ?_, uniq_pop o.r, ?_, o.g⟩
    · intro j y hy hfy
      by_cases hji : j = i
      · left; subst hji; exact List.mem_append_right _ (List.mem_singleton.2 rfl)
      · rcases o.a j y hy hfy with h | h
        · exact Or.inl (List.mem_append_left _ h)
        · right
          show upd s.slots c.ud none y.ud = _
          rw [upd_ne _ _ (by intro he; rw [he, hs, hci] at h; cases h; exact hji rfl)]
          exact h
    · intro v j hv
      have hv1 := vne v _ hv
      have hv2 := oth v _ hv1 hv
      obtain ⟨y, hy, h1, h2, h3⟩ := o.b v j hv2
      have hj : j ≠ i := by
        intro he; subst he
        rw [hx] at hy; cases hy
        exact hv1 (h2.symm.trans hud)
      exact ⟨y, hy, h1, h2, by simp [h3, hj]⟩
    · intro j hj
      rcases List.mem_append.1 hj with hj | hj
      · exact o.d j hj
      · rw [List.mem_singleton] at hj; subst hj; exact ⟨x, hx, hin⟩
    · rw [List.nodup_append]
      refine ⟨o.nd, by simp, ?_⟩
      intro a ha b hb he
      rw [List.mem_singleton] at hb
      subst hb; subst he
      exact hp ha
    · intro h; exact absurd (hm.symm.trans h) (by decide)
    · intro v f hv
      exact o.e v f (oth v _ (vne v _ hv) hv)
    · intro f k hk hd
      obtain ⟨v, hv⟩ := o.f f k hk hd
      refine ⟨v, ?_⟩
      show upd s.slots c.ud none v = _
      rw [upd_ne _ _ (by intro he; rw [he, hs, hci] at hv; cases hv)]
      exact hv
  · have hget : ∀ (g : Nat) (k' : Cancel), (s.cans.set f { k with done := true })[g]? = some k' →
        ∃ k0 : Cancel, s.cans[g]? = some k0 ∧ k0.i = k'.i ∧ (k'.done = false → k0.done = false ∧ g ≠ f) := by
      intro g k' hg
      by_cases hgf : g = f
      · subst hgf
        rw [List.getElem?_set_self (lt_of_get hk)] at hg
        cases hg
        exact ⟨k, hk, rfl, fun h => by cases h⟩
      · rw [List.getElem?_set_ne (fun h => hgf h.symm)] at hg
        exact ⟨k', hg, rfl, fun h => ⟨h, hgf⟩⟩
    refine ⟨tbl_pop t hcq rfl rfl rfl rfl rfl, ?_, ?_, ok⟩
    · refine ⟨?_, ?_, o.c, o.d, o.nd, o.m, ?_, uniq_pop o.r, ?_, ?_⟩
      · intro j y hy hfy
        rcases o.a j y hy hfy with h | h
        · exact Or.inl h
        · right
          show upd s.slots c.ud none y.ud = _
          rw [upd_ne _ _ (by intro he; rw [he, hs, hci] at h; cases h)]
          exact h
      · intro v j hv
        exact o.b v j (oth v _ (vne v _ hv) hv)
      · intro v g hv
        have hv1 := vne v _ hv
        have hv2 := oth v _ hv1 hv
        obtain ⟨k', hk', hd'⟩ := o.e v g hv2
        have hgf : g ≠ f := by
          intro he; subst he
          exact hv1 (o.r v c.ud g hv2 (by rw [hs, hci]))
        refine ⟨k', ?_, hd'⟩
        show (s.cans.set f _)[g]? = _
        rw [List.getElem?_set_ne (fun h => hgf h.symm)]
        exact hk'
      · intro g k' hg hd'
        obtain ⟨k0, h0, h1, h2⟩ := hget g k' hg
        obtain ⟨h3, h4⟩ := h2 hd'
        obtain ⟨v, hv⟩ := o.f g k0 h0 h3
        refine ⟨v, ?_⟩
        show upd s.slots c.ud none v = _
        rw [upd_ne _ _ (by intro he; rw [he, hs, hci] at hv; cases hv; exact h4 rfl)]
        exact hv
      · intro g k' hg
        obtain ⟨k0, h0, h1, h2⟩ := hget g k' hg
        rw [← h1]
        exact o.g g k0 h0
    · refine ⟨q.a1, q.a3, q.b1, fun d hd => q.b2 d (hsub d hd), ?_, ?_, ?_⟩
      · refine q.c1.imp ?_
        intro e e' h g k' hg hk'
        obtain ⟨k0, h0, h1, _⟩ := hget g k' hk'
        rw [← h1]
        exact h g k0 hg h0
      · intro e he g k' hg hk'
        obtain ⟨k0, h0, h1, _⟩ := hget g k' hk'
        rw [← h1]
        exact q.c2 e he g k0 hg h0
      · intro g k' hk'
        obtain ⟨k0, h0, h1, _⟩ := hget g k' hk'
        rw [← h1]
        exact q.d g k0 h0
  · refine ⟨tbl_pop t hcq rfl rfl rfl rfl rfl, ?_, q.pop rfl rfl rfl rfl hsub, ok⟩
    refine ⟨?_, ?_, o.c, o.d, o.nd, o.m, ?_, uniq_pop o.r, ?_, o.g⟩
    · intro j y hy hfy
      rcases o.a j y hy hfy with h | h
      · exact Or.inl h
      · right
        show upd s.slots c.ud none y.ud = _
        rw [upd_ne _ _ (by intro he; rw [he, hs, hci] at h; cases h)]
        exact h
    · intro v j hv
      exact o.b v j (oth v _ (vne v _ hv) hv)
    · intro v f hv
      exact o.e v f (oth v _ (vne v _ hv) hv)
    · intro f k hk hd
      obtain ⟨v, hv⟩ := o.f f k hk hd
      refine ⟨v, ?_⟩
      show upd s.slots c.ud none v = _
      rw [upd_ne _ _ (by intro he; rw [he, hs, hci] at hv; cases hv)]
      exact hv

theorem inv_step {s s1 : S} {a : Act} (v : Inv s) (h : step s a = some s1) : Inv s1 := by
  unfold step at h
  rw [v.ok] at h
  simp only [Option.isSome_none, Bool.false_eq_true, if_false] at h
  cases a with
  | add u => exact inv_add v h
  | cancel i u => exact inv_cancel v h
  | other u => exact inv_other v h
  | submit => exact inv_submit v h
  | fire k => exact inv_fire v h
  | post k => exact inv_post v h
  | comp k => exact inv_comp v h
  | proc => exact inv_proc v h
  | resch u => exact inv_resch v h
  | begin =>
    simp only [stepA] at h
    split at h
    · rename_i hm
      cases h
      exact ⟨v.t, v.o.same rfl rfl rfl rfl (fun h => by cases h), v.q.same rfl rfl rfl rfl rfl, v.ok⟩
    · cases h
  | drained =>
    simp only [stepA] at h
    split at h
    · cases h
      exact ⟨v.t, v.o.same rfl rfl rfl rfl (fun h => by cases h), v.q.same rfl rfl rfl rfl rfl, v.ok⟩
    · cases h
  | finish =>
    simp only [stepA] at h
    split at h
    · rename_i hm
      cases h
      exact ⟨v.t, v.o.same rfl rfl rfl rfl (fun _ => hm.2), v.q.same rfl rfl rfl rfl rfl, v.ok⟩
    · cases h

theorem inv_reach {s : S} (h : Reachable Init step s) : Inv s :=
  Reachable.invariant Inv (fun s h => by rw [h]; exact inv_init) (fun _ _ _ i h => inv_step i h) h

end Verif.Periodic
