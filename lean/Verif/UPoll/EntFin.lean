import Verif.UPoll.EntStep
/-! The polls of entries report, end, and are armed again. -/
namespace Verif.UPoll
open Verif.Common

/-- Nothing that concerns entries changes. -/
theorem EInv.quiet {s t : S} (h : EInv s) (hR : RInv s) (e1 : t.reqs = s.reqs) (e2 : t.es = s.es) (e3 : t.cq = s.cq)
    (e4 : t.retry = s.retry) (e5 : t.badE = s.badE) (hl : Quiet s.log t.log) : EInv t := by
  obtain ⟨evs, log, calm, nds⟩ := quiet_calm hl
  refine h.push hR (u := (0, 0)) (kind := .other) (evs := evs) (fun r q hq => by rw [e1]; exact hq)
    (fun r q hq => .inl (by rw [← e1]; exact hq)) (by rw [e1]; exact Nat.le_refl _) e3 (fun hb => .inl (by rw [← e5]; exact hb))
    log calm (fun e he => absurd he (nds e)) ?_ (fun e x hx => .inl ⟨x, by rw [← e2]; exact hx⟩) (by simp) (by simp)
    (fun y hy => by rw [← e4]; exact hy)
  intro e x hx
  exact ⟨x, by rw [e2]; exact hx, rfl, rfl, rfl, id, fun h => .inl h⟩

/-- The poll of an entry that is not freed reports an event and goes on. -/
theorem EInv.event {s : S} (h : EInv s) {e m r : Nat} {x : E} {q : R} (hx : s.es[e]? = some x) (hf : x.freed = false)
    (hq : s.reqs[r]? = some q) (hk : q.kind = .ent e) (hkev : Ev.kev r m ∈ s.log)
    (hlive : Ev.delEnd e ∈ s.log → Lost s.log e) : EInv (s.emit (.event e m)) := by
  have fwd : ∀ {ev}, ev ∈ s.log → ev ∈ s.log ++ [Ev.event e m] := fun h => List.mem_append_left _ h
  have back : ∀ {ev}, ev ≠ Ev.event e m → ev ∈ s.log ++ [Ev.event e m] → ev ∈ s.log := by
    intro ev hne hm
    rcases List.mem_append.1 hm with hm | hm
    · exact hm
    · exact absurd (List.mem_singleton.1 hm) hne
  have rm : ∀ {p e' u}, RmOk s p e' u → RmOk (s.emit (.event e m)) p e' u := by
    intro p e' u hr
    exact hr.later (fun x hx => ⟨x, hx, rfl, .inl rfl⟩) (Later.rfl' rfl) (fun _ h => fwd h) (fun h => h.mono _) (Nat.le_refl _)
  refine ⟨h.e1, h.e2, h.e3, fun e' x hx hf => (h.e4 e' x hx hf).imp id fwd, fun e' hm => h.e5 e' (back (by simp) hm),
    fun e' x hx hd => (h.e5' e' x hx hd).imp id fwd, fun p q e' t ep hk => rm (h.e6 p q e' t ep hk), fun y hy => rm (h.e6' y hy),
    fun l1 c l2 hc q e' t eq hk hr => (h.e7 l1 c l2 hc q e' t eq hk hr).imp (fun h => h.mono _) id, ?_, ?_, ?_, ?_, ?_, ?_⟩
  · intro e' hm
    obtain ⟨h0, h1⟩ := h.e8 e' (back (by simp) hm)
    exact ⟨fwd h0, h1.imp (fun h => h.mono _) id⟩
  · intro e' hl
    have hl' : ¬ Lost s.log e' := fun h => hl (h.mono _)
    show (s.log ++ [Ev.event e m]).Pairwise _
    rw [List.pairwise_append]
    refine ⟨h.e9 e' hl', by simp, ?_⟩
    intro a ha b hb hae m' hbe
    rw [List.mem_singleton] at hb; subst hb
    cases hbe
    subst hae
    exact hl' (hlive ha)
  · intro hb
    obtain ⟨e', h1⟩ := h.e10 hb; exact ⟨e', fwd h1⟩
  · intro e' m' hm
    rcases List.mem_append.1 hm with hm | hm
    · obtain ⟨r', q', hq', hk', h2⟩ := h.e11 e' m' hm
      exact ⟨r', q', hq', hk', fwd h2⟩
    · have := List.mem_singleton.1 hm
      cases this
      exact ⟨r, q, hq, hk, fwd hkev⟩
  · show (s.log ++ [Ev.event e m]).Pairwise _
    rw [List.pairwise_append]
    refine ⟨h.e12, by simp, ?_⟩
    intro a ha b hb
    rw [List.mem_singleton] at hb; subst hb
    refine ⟨fun e' m' he hae => ?_, fun e' he => by cases he⟩
    cases he; subst hae
    obtain ⟨y, hy, hfy⟩ := h.e13 e ha
    rw [hx] at hy; cases hy
    rw [hf] at hfy; cases hfy
  · intro e' hm
    exact h.e13 e' (back (by simp) hm)

/-- The poll of entry `e` has ended: it is armed again, or the entry is deleted. -/
theorem EInv.final {s t : S} (h : EInv s) (hR : RInv s) {c : Cqe} {rest : List Cqe} (hc : s.cq = c :: rest) (hmore : c.more = false) {q : R}
    (hq : s.reqs[c.rid]? = some q) {e : Nat} (hk : q.kind = .ent e) {x x' : E} (hx : s.es[e]? = some x) (hf : x.freed = false)
    (hxr : x.rid = c.rid) {evs : List Ev}
    (get : ∀ (r : Nat) (qr : R), s.reqs[r]? = some qr → r ≠ c.rid → t.reqs[r]? = some qr)
    (getc : t.reqs[c.rid]? = some { q with stage := .gone })
    (getn : ∀ (r : Nat) (q' : R), t.reqs[r]? = some q' → r ≠ c.rid →
      s.reqs[r]? = some q' ∨ r = s.reqs.length ∧ q' = ⟨x'.ud, .ent e, .queued⟩ ∧ x'.rid = r)
    (len : s.reqs.length ≤ t.reqs.length)
    (cq : t.cq = rest) (retry : t.retry = s.retry) (badE : t.badE = s.badE) (log : t.log = s.log ++ evs)
    (hes : ∀ e', t.es[e']? = if e' = e then some x' else s.es[e']?) (hdel : x'.del = x.del)
    (he1 : ∃ q', t.reqs[x'.rid]? = some q' ∧ q'.kind = .ent e ∧ q'.ud = x'.ud ∧ (x'.freed = true ↔ q'.stage = .gone))
    (he4 : x'.freed = true → x.del = true ∨ Ev.kfail e ∈ evs)
    (hE : (Ev.delStart e ∈ s.log → Lost t.log e) ∨ x'.rid = c.rid ∧ x'.ud = x.ud ∧ ∀ m, Ev.event e m ∉ evs)
    (hevs : ∀ ev ∈ evs, (∃ m, ev = .event e m ∧ Ev.kev c.rid m ∈ s.log) ∨ ev = .rearm e ∨ ev = .kfail e ∨ ev = .freedE e)
    (hpw : evs.Pairwise RelE) (h13 : Ev.freedE e ∈ evs → x'.freed = true) : EInv t := by
  have hcm : c ∈ s.cq := by rw [hc]; exact List.mem_cons_self
  have hsub : ∀ a ∈ rest, a ∈ s.cq := by
    intro a ha; rw [hc]; exact List.mem_cons_of_mem _ ha
  have hnoc : ∀ a ∈ rest, a.rid ≠ c.rid := by
    intro a ha he
    have := hR.c2
    rw [hc] at this
    have := List.rel_of_pairwise_cons this ha he.symm
    rw [hmore] at this; cases this
  have fwd : ∀ {ev}, ev ∈ s.log → ev ∈ t.log := fun h => by rw [log]; exact List.mem_append_left _ h
  have lost : ∀ {e'}, Lost s.log e' → Lost t.log e' := fun h => by rw [log]; exact h.mono _
  have esn : ∀ {e' : Nat}, e' ≠ e → t.es[e']? = s.es[e']? := fun h => by rw [hes, if_neg h]
  have ese : t.es[e]? = some x' := by rw [hes, if_pos rfl]
  have bk : ∀ {ev}, (∀ m, ev ≠ Ev.event e m) → ev ≠ .rearm e → ev ≠ .kfail e → ev ≠ .freedE e → ev ∈ t.log → ev ∈ s.log := by
    intro ev h1 h2 h3 h4 hm
    rw [log] at hm
    rcases List.mem_append.1 hm with hm | hm
    · exact hm
    · rcases hevs ev hm with ⟨m, h, _⟩ | h | h | h
      · exact absurd h (h1 m)
      · exact absurd h h2
      · exact absurd h h3
      · exact absurd h h4
  -- other entries have other polls
  have other : ∀ {e' : Nat} {y : E}, e' ≠ e → s.es[e']? = some y → y.rid ≠ c.rid := by
    intro e' y hne hy he
    obtain ⟨q1, hq1, hk1, _⟩ := h.e1 e' y hy
    rw [he, hq] at hq1; cases hq1
    rw [hk] at hk1; cases hk1; exact hne rfl
  have later : Later s t := by
    refine ⟨fun r qr er => ?_, fun r q' er => ?_⟩
    · by_cases hr : r = c.rid
      · subst hr; rw [hq] at er; cases er
        exact ⟨_, getc, rfl, rfl, fun _ => rfl⟩
      · exact ⟨qr, get r qr er hr, rfl, rfl, id⟩
    · by_cases hr : r = c.rid
      · subst hr; exact .inl ⟨q, hq⟩
      · rcases getn r q' er hr with h1 | ⟨h1, _⟩
        · exact .inl ⟨q', h1⟩
        · exact .inr (by omega)
  have dead : ∀ {r}, r ≠ c.rid → Dead s r → Dead t r := by
    intro r hr ⟨qr, hqr, hd⟩
    refine ⟨qr, get r qr hqr hr, ?_⟩
    rcases hd with h1 | h1 | ⟨h1, a, ha, har, h2⟩
    · exact .inl h1
    · exact .inr (.inl h1)
    · refine .inr (.inr ⟨h1, a, ?_, har, h2⟩)
      rw [cq]; rw [hc] at ha
      rcases List.mem_cons.1 ha with h3 | h3
      · subst h3; exact absurd har.symm hr
      · exact h3
  have rm : ∀ {p p' e' u}, p ≤ p' → RmOk s p e' u → RmOk t p' e' u := by
    intro p p' e' u hp hr
    have hds : Ev.delStart e' ∈ s.log := hr.choose_spec.2.2.1
    refine hr.later ?_ later (fun _ h => fwd h) lost hp
    intro y hy
    by_cases hne : e' = e
    · subst hne
      rw [hx] at hy; cases hy
      refine ⟨x', ese, hdel, ?_⟩
      rcases hE with h1 | ⟨_, h1, _⟩
      · exact .inr (h1 hds)
      · exact .inl h1
    · exact ⟨y, by rw [esn hne]; exact hy, rfl, .inl rfl⟩
  have xdead : x'.rid = c.rid → Dead t x'.rid := fun h1 => ⟨_, by rw [h1]; exact getc, .inr (.inl rfl)⟩
  refine ⟨?_, ?_, ?_, ?_, ?_, ?_, ?_, ?_, ?_, ?_, ?_, ?_, ?_, ?_, ?_⟩
  · intro e' y hy
    by_cases hne : e' = e
    · subst hne; rw [ese] at hy; cases hy; exact he1
    · rw [esn hne] at hy
      obtain ⟨q1, hq1, h2⟩ := h.e1 e' y hy
      exact ⟨q1, get _ _ hq1 (other hne hy), h2⟩
  · intro r q' e' er hk'
    by_cases hr : r = c.rid
    · subst hr; rw [getc] at er; cases er
      have : e' = e := by
        have : q.kind = .ent e' := hk'
        rw [hk] at this; cases this; rfl
      subst this
      exact ⟨x', ese, .inr rfl⟩
    · rcases getn r q' er hr with h1 | ⟨_, h1, h2⟩
      · obtain ⟨y, hy, h2⟩ := h.e2 r q' e' h1 hk'
        by_cases hne : e' = e
        · subst hne
          rw [hx] at hy; cases hy
          rcases h2 with h2 | h2
          · exact absurd (by rw [← h2, hxr]) hr
          · exact ⟨x', ese, .inr h2⟩
        · exact ⟨y, by rw [esn hne]; exact hy, h2⟩
      · rw [h1] at hk'; cases hk'
        exact ⟨x', ese, .inl h2⟩
  · intro r q' e' er hk' hd
    have key : (∃ y : E, s.es[e']? = some y ∧ y.del = true) → ∃ y : E, t.es[e']? = some y ∧ y.del = true := by
      rintro ⟨y, hy, hyd⟩
      by_cases hne : e' = e
      · subst hne; rw [hx] at hy; cases hy; exact ⟨x', ese, by rw [hdel, hyd]⟩
      · exact ⟨y, by rw [esn hne]; exact hy, hyd⟩
    by_cases hr : r = c.rid
    · subst hr; rw [getc] at er; cases er
      rcases hd with hd | ⟨a, ha, har, _⟩
      · cases hd
      · rw [cq] at ha; exact absurd har (hnoc a ha)
    · rcases getn r q' er hr with h1 | ⟨h0, h1, h2⟩
      · refine key (h.e3 r q' e' h1 hk' (hd.imp id ?_))
        rintro ⟨a, ha, h3⟩
        rw [cq] at ha; exact ⟨a, hsub a ha, h3⟩
      · rcases hd with hd | ⟨a, ha, har, _⟩
        · rw [h1] at hd; cases hd
        · rw [cq] at ha
          obtain ⟨q0, e0, _⟩ := hR.c1 a (hsub a ha)
          have := lt_of_get e0; omega
  · intro e' y hy hfy
    by_cases hne : e' = e
    · subst hne; rw [ese] at hy; cases hy
      rw [hdel, log]
      exact (he4 hfy).imp id (fun h => List.mem_append_right _ h)
    · rw [esn hne] at hy
      exact (h.e4 e' y hy hfy).imp id fwd
  · intro e' hm
    obtain ⟨y, hy, hyd⟩ := h.e5 e' (bk (by simp) (by simp) (by simp) (by simp) hm)
    by_cases hne : e' = e
    · subst hne; rw [hx] at hy; cases hy; exact ⟨x', ese, by rw [hdel, hyd]⟩
    · exact ⟨y, by rw [esn hne]; exact hy, hyd⟩
  · intro e' y hy hd
    by_cases hne : e' = e
    · subst hne; rw [ese] at hy; cases hy
      rw [hdel] at hd
      rcases h.e5' e' x hx hd with h1 | h1
      · rw [hf] at h1; cases h1
      · exact .inr (fwd h1)
    · rw [esn hne] at hy
      exact (h.e5' e' y hy hd).imp id fwd
  · intro p q' e' u ep hk'
    by_cases hr : p = c.rid
    · subst hr; rw [getc] at ep; cases ep
      have : q.kind = .rmEnt e' u := hk'
      rw [hk] at this; cases this
    · rcases getn p q' ep hr with h1 | ⟨_, h1, _⟩
      · exact rm (Nat.le_refl _) (h.e6 p q' e' u h1 hk')
      · rw [h1] at hk'; cases hk'
  · intro y hy
    rw [retry] at hy
    exact rm len (h.e6' y hy)
  · intro l1 a l2 ha q' e' u eq hk' hr
    rw [cq] at ha
    have ham : a ∈ rest := by rw [ha]; simp
    have eq' : s.reqs[a.rid]? = some q' := by
      rcases getn _ q' eq (hnoc a ham) with h1 | ⟨_, h1, _⟩
      · exact h1
      · rw [h1] at hk'; cases hk'
    have hds : Ev.delStart e' ∈ s.log := (h.e6 _ q' e' u eq' hk').choose_spec.2.2.1
    by_cases hne : e' = e
    · subst hne
      rcases hE with h1 | ⟨h1, _⟩
      · exact .inl (h1 hds)
      · refine .inr ⟨x', ese, .inl ⟨xdead h1, ?_⟩⟩
        intro b hb hbr
        exact absurd (by rw [hbr, h1]) (hnoc b (by rw [ha]; simp [hb]))
    · rcases h.e7 (c :: l1) a l2 (by rw [hc, ha]; rfl) q' e' u eq' hk' hr with h1 | ⟨y, hy, h1⟩
      · exact .inl (lost h1)
      · refine .inr ⟨y, by rw [esn hne]; exact hy, ?_⟩
        rcases h1 with ⟨h1, h2⟩ | ⟨b, hb, hbr, h2⟩
        · exact .inl ⟨dead (other hne hy) h1, h2⟩
        · refine .inr ⟨b, ?_, hbr, h2⟩
          rcases List.mem_cons.1 hb with h3 | h3
          · subst h3; exact absurd hbr.symm (other hne hy)
          · exact h3
  · intro e' hm
    obtain ⟨h0, h1⟩ := h.e8 e' (bk (by simp) (by simp) (by simp) (by simp) hm)
    refine ⟨fwd h0, ?_⟩
    by_cases hne : e' = e
    · subst hne
      rcases hE with h2 | ⟨h2, _⟩
      · exact .inl (h2 h0)
      · refine .inr ⟨x', ese, xdead h2, ?_⟩
        intro b hb hbr
        rw [cq] at hb
        exact absurd (by rw [hbr, h2]) (hnoc b hb)
    · rcases h1 with h1 | ⟨y, hy, h1, h2⟩
      · exact .inl (lost h1)
      · refine .inr ⟨y, by rw [esn hne]; exact hy, dead (other hne hy) h1, ?_⟩
        rw [cq]; exact fun b hb => h2 b (hsub b hb)
  · intro e' hl
    have hl' : ¬ Lost s.log e' := fun h => hl (lost h)
    rw [log, List.pairwise_append]
    refine ⟨h.e9 e' hl', ?_, ?_⟩
    · refine List.pairwise_of_forall_mem_list ?_
      intro a ha b _ hae
      rcases hevs a ha with ⟨m, h1, _⟩ | h1 | h1 | h1 <;> rw [hae] at h1 <;> cases h1
    · intro a ha b hb hae m' hbe
      subst hae hbe
      rcases hevs _ hb with ⟨m, h1, _⟩ | h1 | h1 | h1
      · cases h1
        rcases hE with h2 | ⟨_, _, h2⟩
        · exact hl (h2 (h.e8 e ha).1)
        · exact h2 _ hb
      all_goals cases h1
  · intro hb
    rw [badE] at hb
    obtain ⟨e', h1⟩ := h.e10 hb; exact ⟨e', fwd h1⟩
  · intro e' m' hm
    rw [log] at hm
    rcases List.mem_append.1 hm with hm | hm
    · obtain ⟨r, qr, er, hkr, h2⟩ := h.e11 e' m' hm
      obtain ⟨q', eq', _, hk', _⟩ := later.old r qr er
      exact ⟨r, q', eq', by rw [hk', hkr], fwd h2⟩
    · rcases hevs _ hm with ⟨m, h1, h2⟩ | h1 | h1 | h1
      · cases h1
        exact ⟨c.rid, _, getc, hk, fwd h2⟩
      all_goals cases h1
  · rw [log, List.pairwise_append]
    refine ⟨h.e12, hpw, ?_⟩
    have nf : Ev.freedE e ∉ s.log := by
      intro hm
      obtain ⟨y, hy, hfy⟩ := h.e13 e hm
      rw [hx] at hy; cases hy
      rw [hf] at hfy; cases hfy
    intro a ha b hb
    refine ⟨fun e' m' he hae => ?_, fun e' he hae => ?_⟩
    · subst hae he
      rcases hevs _ hb with ⟨m, h1, _⟩ | h1 | h1 | h1 <;> cases h1
      exact nf ha
    · subst hae he
      rcases hevs _ hb with ⟨m, h1, _⟩ | h1 | h1 | h1 <;> cases h1
      exact nf ha
  · intro e' hm
    rw [log] at hm
    rcases List.mem_append.1 hm with hm | hm
    · obtain ⟨y, hy, hfy⟩ := h.e13 e' hm
      by_cases hne : e' = e
      · subst hne; rw [hx] at hy; cases hy; rw [hf] at hfy; cases hfy
      · exact ⟨y, by rw [esn hne]; exact hy, hfy⟩
    · have : e' = e := by
        rcases hevs _ hm with ⟨m, h1, _⟩ | h1 | h1 | h1 <;> cases h1
        rfl
      subst this
      exact ⟨x', ese, h13 hm⟩

/-- `EpollDel` returns. -/
theorem EInv.delEnd {s : S} (h : EInv s) {e : Nat} (h0 : Ev.delStart e ∈ s.log)
    (h1 : Lost s.log e ∨ ∃ x : E, s.es[e]? = some x ∧ Dead s x.rid ∧ NoEv s.cq x.rid) : EInv (s.emit (.delEnd e)) := by
  have fwd : ∀ {ev}, ev ∈ s.log → ev ∈ s.log ++ [Ev.delEnd e] := fun h => List.mem_append_left _ h
  have back : ∀ {ev}, ev ≠ Ev.delEnd e → ev ∈ s.log ++ [Ev.delEnd e] → ev ∈ s.log := by
    intro ev hne hm
    rcases List.mem_append.1 hm with hm | hm
    · exact hm
    · exact absurd (List.mem_singleton.1 hm) hne
  have rm : ∀ {p e' u}, RmOk s p e' u → RmOk (s.emit (.delEnd e)) p e' u := by
    intro p e' u hr
    exact hr.later (fun x hx => ⟨x, hx, rfl, .inl rfl⟩) (Later.rfl' rfl) (fun _ h => fwd h) (fun h => h.mono _) (Nat.le_refl _)
  refine ⟨h.e1, h.e2, h.e3, fun e' x hx hf => (h.e4 e' x hx hf).imp id fwd, fun e' hm => h.e5 e' (back (by simp) hm),
    fun e' x hx hd => (h.e5' e' x hx hd).imp id fwd, fun p q e' t ep hk => rm (h.e6 p q e' t ep hk), fun y hy => rm (h.e6' y hy),
    fun l1 c l2 hc q e' t eq hk hr => (h.e7 l1 c l2 hc q e' t eq hk hr).imp (fun h => h.mono _) id, ?_, ?_, ?_, ?_, ?_, ?_⟩
  · intro e' hm
    rcases List.mem_append.1 hm with hm | hm
    · obtain ⟨h0, h1⟩ := h.e8 e' hm
      exact ⟨fwd h0, h1.imp (fun h => h.mono _) id⟩
    · have := List.mem_singleton.1 hm
      cases this
      exact ⟨fwd h0, h1.imp (fun h => h.mono _) id⟩
  · intro e' hl
    show (s.log ++ [Ev.delEnd e]).Pairwise _
    rw [List.pairwise_append]
    refine ⟨h.e9 e' fun h => hl (h.mono _), by simp, ?_⟩
    intro a _ b hb _ m' hbe
    rw [List.mem_singleton] at hb; subst hb; cases hbe
  · intro hb
    obtain ⟨e', h1⟩ := h.e10 hb; exact ⟨e', fwd h1⟩
  · intro e' m' hm
    obtain ⟨r', q', hq', hk', h2⟩ := h.e11 e' m' (back (by simp) hm)
    exact ⟨r', q', hq', hk', fwd h2⟩
  · show (s.log ++ [Ev.delEnd e]).Pairwise _
    rw [List.pairwise_append]
    refine ⟨h.e12, by simp, ?_⟩
    intro a _ b hb
    rw [List.mem_singleton] at hb; subst hb
    exact ⟨fun e' m' he => (by cases he), fun e' he => (by cases he)⟩
  · intro e' hm
    exact h.e13 e' (back (by simp) hm)

end Verif.UPoll
