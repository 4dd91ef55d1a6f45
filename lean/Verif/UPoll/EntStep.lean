import Verif.UPoll.Ent
/-! Every step keeps the invariant of the epoll entries. -/
namespace Verif.UPoll
open Verif.Common

/-- A poll that a removal of entry `e` could find is a poll of `e`. -/
theorem EInv.target {s : S} (hT : TInv s) {p e : Nat} {u : Ud} (h : RmOk s p e u) {r : Nat} {q : R} (hr : s.reqs[r]? = some q)
    (hu : q.ud = u) : q.kind = .ent e ∧ r < p := by
  obtain ⟨x, hx, _, _, ⟨r0, q0, e0, k0, u0, h0⟩, _⟩ := h
  have t1 := hT.t1 r0 q0 e e0 k0
  cases hk : q.kind with
  | ent e' =>
    have := hT.t3 r r0 q q0 e' e hr e0 hk k0 (by rw [hu, u0])
    subst this
    rw [hr] at e0; cases e0
    rw [← hk]; exact ⟨k0, h0⟩
  | _ =>
    exfalso
    have t2 := hT.t2 r q hr (by rw [hk]; simp)
    rw [hu, ← u0] at t2
    omega

/-- A removal never waits in the kernel. -/
def NInv (s : S) : Prop := ∀ (r : Nat) (q : R) (e : Nat) (u : Ud), s.reqs[r]? = some q → q.kind = .rmEnt e u →
  q.stage ≠ .kern ∧ q.stage ≠ .dying

theorem NInv.kern {s t : S} {r : Nat} {q : R} {st : Stage} {post : List Cqe} (h : NInv s) (k : Kern s t r q st post)
    (hst : (st ≠ .kern ∧ st ≠ .dying) ∨ ∀ e u, q.kind ≠ .rmEnt e u) : NInv t := by
  intro i q' e u ei hk
  rw [k.get] at ei
  split at ei
  · cases ei
    exact hst.resolve_right fun h => h e u hk
  · exact h i q' e u ei hk

theorem NInv.kstep {s t : S} (h : NInv s) (k : KStep s t) : NInv t := by
  cases k with
  | take p q k hs hk => exact h.kern k (.inr hk)
  | hit p r q q' s1 c k1 k2 hpr hsq hs hs' hk hc =>
    refine (h.kern k1 (.inr fun e u hu => ?_)).kern k2 (.inl (by simp))
    exact (h r q' e u k1.hr hu).1 hs'
  | busy p q c k hs hk hc => exact h.kern k (.inl (by simp))
  | miss p q c k hs u hsq hk hc hm => exact h.kern k (.inl (by simp))
  | event r q c m st k hs hst hc => exact h.kern k (.inr fun e u hu => (h r q e u k.hr hu).1 hs)
  | die r q c k hs hc => exact h.kern k (.inl (by simp))
  | fail r q c k hs hc => exact h.kern k (.inl (by simp))

theorem NInv.popped {s : S} (h : NInv s) {c : Cqe} {rest : List Cqe} : NInv (s.popped c rest) := by
  intro i q e u ei hk
  rw [popped_get] at ei
  split at ei
  · rw [Option.map_eq_some_iff] at ei
    obtain ⟨q0, _, rfl⟩ := ei
    simp
  · exact h i q e u ei hk

theorem NInv.push {s t : S} (h : NInv s)
    (getn : ∀ (r : Nat) (q : R), t.reqs[r]? = some q → s.reqs[r]? = some q ∨ q.stage = .queued) : NInv t := by
  intro i q e u ei hk
  rcases getn i q ei with h1 | h1
  · exact h i q e u h1 hk
  · rw [h1]; simp

theorem NInv.congr {s t : S} (h : NInv s) (e : t.reqs = s.reqs) : NInv t :=
  h.push (fun r q hq => .inl (by rw [e] at hq; exact hq))

theorem NInv.append {s t : S} (h : NInv s) {u : Ud} {kind : Kind} (e : t.reqs = s.reqs ++ [⟨u, kind, .queued⟩]) : NInv t := by
  refine h.push (fun r q hq => ?_)
  rw [e] at hq
  rcases push_get hq with ⟨h, _⟩ | ⟨_, rfl⟩
  · exact .inl h
  · exact .inr rfl

theorem EInv.kstep {s t : S} (h : EInv s) (hR : RInv s) (hW : WInv s) (hT : TInv s) (hN : NInv s) (k : KStep s t) : EInv t := by
  cases k with
  | take p q k hs hk =>
    exact h.kern k (by rw [hs]; simp) (by simp) (by rw [hs]; simp) (by rw [hs]; simp) (by simp) (.inl rfl)
  | hit p r q q' s1 c k1 k2 hpr hsq hs hs' hk hc =>
    have hq : s.reqs[p]? = some q := by
      have := k2.hr
      rw [k1.get, if_neg hpr] at this; exact this
    have h1 : EInv s1 := by
      refine h.kern k1 (by rw [hs']; simp) (by simp) (by rw [hs']; simp) (by rw [hs']; simp) ?_ (.inl rfl)
      intro _ e he
      rcases hk with ⟨e0, hk⟩ | ⟨w, hk⟩
      · have h6 := h.e6 p q e0 _ hq hk
        have := (EInv.target hT h6 k1.hr rfl).1
        rw [he] at this; cases this
        obtain ⟨x, hx, hd, _⟩ := h6
        exact ⟨x, hx, hd⟩
      · obtain ⟨x, hx, h0, _⟩ := hW.w5 p q w _ hq hk
        have := hT.t1 r q' e k1.hr he
        omega
    refine h1.kern k2 (by rw [hs]; simp) (by simp) (by rw [hs]; simp) (by rw [hs]; simp) (by simp) (.inr ⟨c, rfl, hc.1, ?_, ?_, ?_⟩)
    · rw [hc.2.1]; simp
    · rw [hc.2.1]; simp
    · intro e u hu _
      have h6 := h.e6 p q e u hq hu
      have huq : q'.ud = u := by
        rcases hk with ⟨e0, hk⟩ | ⟨w, hk⟩ <;> rw [hk] at hu <;> cases hu
        rfl
      have hke := (EInv.target hT h6 k1.hr huq).1
      obtain ⟨x, hx, h2⟩ := h.e2 r q' e k1.hr hke
      have h2 := h2.resolve_right (by rw [hs']; simp)
      refine .inr ⟨x, by rw [k1.es]; exact hx, .inl ?_⟩
      rw [h2]
      exact ⟨_, by rw [k1.get, if_pos rfl], .inl rfl⟩
  | busy p q c k hs hk hc =>
    refine h.kern k (by rw [hs]; simp) (by simp) (by rw [hs]; simp) (by rw [hs]; simp) (by simp) (.inr ⟨c, rfl, hc.1, ?_, ?_, ?_⟩)
    · rw [hc.2.1]; simp
    · rw [hc.2.1]; simp
    · intro e u _ h1; exact absurd hc.2.1 h1
  | miss p q c k hs u hsq hk hc hm =>
    refine h.kern k (by rw [hs]; simp) (by simp) (by rw [hs]; simp) (by rw [hs]; simp) (by simp) (.inr ⟨c, rfl, hc.1, ?_, ?_, ?_⟩)
    · rw [hc.2.1]; simp
    · rw [hc.2.1]; simp
    · intro e u' hu _
      have huu : u' = u := by
        rcases hk with ⟨e0, hk⟩ | ⟨w, hk⟩ <;> rw [hk] at hu <;> cases hu
        rfl
      subst huu
      have h6 := h.e6 p q e u' k.hr hu
      obtain ⟨x, hx, hd, _, _, h7⟩ := h6
      rcases h7 with h7 | h7
      · refine .inr ⟨x, hx, ?_⟩
        obtain ⟨q1, hq1, hk1, hu1, _⟩ := h.e1 e x hx
        have hlt := (EInv.target hT (h.e6 p q e u' k.hr hu) hq1 (by rw [hu1, h7])).2
        cases hst : q1.stage with
        | queued =>
          obtain ⟨rest, hsq⟩ := hsq
          have hmem := (hR.q1 x.rid).2 ⟨q1, hq1, hst⟩
          have hsorted := hR.q2
          rw [hsq] at hmem hsorted
          rcases List.mem_cons.1 hmem with h8 | h8
          · omega
          · have := List.rel_of_pairwise_cons hsorted h8
            omega
        | kern => exact absurd (by rw [hu1, h7]) (hm _ q1 hq1 hst)
        | dying => exact .inl ⟨q1, hq1, .inl hst⟩
        | gone => exact .inl ⟨q1, hq1, .inr (.inl hst)⟩
        | done =>
          obtain ⟨a, ha, har, ham⟩ := hR.c3 _ q1 hq1 hst
          by_cases hac : a.res = .cancelled
          · exact .inl ⟨q1, hq1, .inr (.inr ⟨hst, a, ha, har, ham, hac⟩)⟩
          · exact .inr ⟨a, ha, har, ham, hac⟩
      · exact .inl h7
  | event r q c m st k hs hst hc =>
    refine h.kern k (by rw [hs]; simp) (by rw [hst]; split <;> simp) (by rw [hs]; simp) (by rw [hs]; simp)
      (by rw [hst]; split <;> simp) (.inr ⟨c, rfl, hc.1, fun _ _ => hs, by rw [hc.2.1]; simp, ?_⟩)
    intro e u hu _
    exact absurd hs (hN r q e u k.hr hu).1
  | die r q c k hs hc =>
    refine h.kern k (by rw [hs]; simp) (by simp) (by rw [hs]; simp) (fun _ => ⟨rfl, c, by simp, hc.1, hc.2.2, hc.2.1⟩) (by simp)
      (.inr ⟨c, rfl, hc.1, by rw [hc.2.1]; simp, fun _ => hs, ?_⟩)
    intro e u hu _
    exact absurd hs (hN r q e u k.hr hu).2
  | fail r q c k hs hc =>
    refine h.kern k (by rw [hs]; simp) (by simp) (by rw [hs]; simp) (by rw [hs]; simp) (by simp)
      (.inr ⟨c, rfl, hc.1, by rw [hc.2.1]; simp, by rw [hc.2.1]; simp, ?_⟩)
    intro e u hu _
    exact absurd hs (hN r q e u k.hr hu).1

/-- A completion is taken that does not end a poll of an entry. -/
theorem Dead.popped {s : S} {c : Cqe} {rest : List Cqe} (hc : s.cq = c :: rest) {r : Nat} (h : Dead s r)
    (hne : c.rid = r → c.more = true) : Dead (s.popped c rest) r := by
  obtain ⟨q, hq, hd⟩ := h
  obtain ⟨_, _, _, _, f5, _⟩ := popped_rest (s := s) (c := c) (rest := rest)
  refine ⟨q, ?_, ?_⟩
  · rw [popped_get, if_neg]
    · exact hq
    · rintro ⟨h1, h2⟩
      rw [hne h2.symm] at h1; cases h1
  · rcases hd with h1 | h1 | ⟨h1, a, ha, har, ham, hac⟩
    · exact .inl h1
    · exact .inr (.inl h1)
    · refine .inr (.inr ⟨h1, a, ?_, har, ham, hac⟩)
      rw [hc] at ha
      rw [f5]
      rcases List.mem_cons.1 ha with h2 | h2
      · subst h2
        rw [hne har] at ham; cases ham
      · exact h2

/-- The log grows. -/
theorem RmOk.later {s t : S} {p p' e : Nat} {u : Ud} (h : RmOk s p e u) (hes : ∀ x : E, s.es[e]? = some x → ∃ x' : E, t.es[e]? = some x' ∧ x'.del = x.del ∧ (x'.ud = x.ud ∨ Lost t.log e))
    (hr : Later s t) (hl : ∀ ev ∈ s.log, ev ∈ t.log) (hlost : Lost s.log e → Lost t.log e) (hp : p ≤ p') : RmOk t p' e u := by
  obtain ⟨x, hx, hd, hs, ⟨r, q, hq, h1, h2, h3⟩, h4⟩ := h
  obtain ⟨x', hx', hd', hu⟩ := hes x hx
  obtain ⟨q', hq', hu', hk', _⟩ := hr.old r q hq
  refine ⟨x', hx', by rw [hd', hd], hl _ hs, ⟨r, q', hq', by rw [hk', h1], by rw [hu', h2], by omega⟩, ?_⟩
  rcases h4 with h4 | h4
  · rcases hu with hu | hu
    · exact .inl (by rw [hu, h4])
    · exact .inr hu
  · exact .inr (hlost h4)

theorem EInv.popped {s : S} (h : EInv s) {c : Cqe} {rest : List Cqe} (hc : s.cq = c :: rest) {q : R}
    (hq : s.reqs[c.rid]? = some q) (hk : ∀ e, q.kind = .ent e → c.more = true) : EInv (s.popped c rest) := by
  obtain ⟨_, f2, _, f4, f5, _, _, f8, _, f10, f11, _⟩ := popped_rest (s := s) (c := c) (rest := rest)
  have hsub : ∀ a ∈ rest, a ∈ s.cq := by
    intro a ha; rw [hc]; exact List.mem_cons_of_mem _ ha
  have notc : ∀ (r : Nat) (qr : R) (e : Nat), s.reqs[r]? = some qr → qr.kind = .ent e → c.rid = r → c.more = true := by
    intro r qr e er hkr hcr
    subst hcr
    rw [hq] at er; cases er
    exact hk e hkr
  have get : ∀ (r : Nat) (qr : R) (e : Nat), s.reqs[r]? = some qr → qr.kind = .ent e → (s.popped c rest).reqs[r]? = some qr := by
    intro r qr e er hkr
    rw [popped_get, if_neg]
    · exact er
    · rintro ⟨h1, h2⟩
      rw [notc r qr e er hkr h2.symm] at h1; cases h1
  have getn : ∀ (r : Nat) (q' : R), (s.popped c rest).reqs[r]? = some q' → ∃ qr, s.reqs[r]? = some qr ∧ q'.kind = qr.kind ∧
      ∀ e, q'.kind = .ent e → q' = qr := by
    intro r q' er
    rw [popped_get] at er
    split at er
    · rename_i hr
      rw [Option.map_eq_some_iff] at er
      obtain ⟨q0, h0, rfl⟩ := er
      refine ⟨q0, h0, rfl, fun e he => ?_⟩
      have := notc r q0 e h0 he hr.2.symm
      rw [hr.1] at this; cases this
    · exact ⟨q', er, rfl, fun _ _ => rfl⟩
  have deadx : ∀ {e : Nat} {x : E}, s.es[e]? = some x → Dead s x.rid → Dead (s.popped c rest) x.rid := by
    intro e x hx hd
    obtain ⟨q1, hq1, hk1, _⟩ := h.e1 e x hx
    exact hd.popped hc (notc _ q1 e hq1 hk1)
  have rm : ∀ {p e u}, RmOk s p e u → RmOk (s.popped c rest) p e u := by
    intro p e u hr
    refine hr.later ?_ Later.popped (by rw [f4]; exact fun _ h => h) (by rw [f4]; exact id) (Nat.le_refl _)
    intro x hx
    exact ⟨x, by rw [f2]; exact hx, rfl, .inl rfl⟩
  refine ⟨?_, ?_, ?_, ?_, ?_, ?_, ?_, ?_, ?_, ?_, ?_, ?_, ?_, ?_, ?_⟩
  · intro e x hx
    rw [f2] at hx
    obtain ⟨q1, hq1, hk1, h2⟩ := h.e1 e x hx
    exact ⟨q1, get _ q1 e hq1 hk1, hk1, h2⟩
  · intro r q' e er hk'
    obtain ⟨qr, hqr, hkr, heq⟩ := getn r q' er
    have := heq e hk'; subst this
    rw [f2]; exact h.e2 r q' e hqr hk'
  · intro r q' e er hk' hd
    obtain ⟨qr, hqr, hkr, heq⟩ := getn r q' er
    have := heq e hk'; subst this
    rw [f2]
    refine h.e3 r q' e hqr hk' (hd.imp id ?_)
    rintro ⟨a, ha, h1⟩
    rw [f5] at ha
    exact ⟨a, hsub a ha, h1⟩
  · rw [f2, f4]; exact h.e4
  · rw [f2, f4]; exact h.e5
  · rw [f2, f4]; exact h.e5'
  · intro p q' e u ep hk'
    obtain ⟨qr, hqr, hkr, _⟩ := getn p q' ep
    exact rm (h.e6 p qr e u hqr (by rw [← hkr, hk']))
  · rw [f10, f11]
    intro y hy; exact rm (h.e6' y hy)
  · intro l1 a l2 ha q' e u eq hk' hr
    rw [f5] at ha
    rw [f2, f4]
    obtain ⟨qr, hqr, hkr, _⟩ := getn _ q' eq
    rcases h.e7 (c :: l1) a l2 (by rw [hc, ha]; rfl) qr e u hqr (by rw [← hkr, hk']) hr with h1 | ⟨x, hx, h1⟩
    · exact .inl h1
    · refine .inr ⟨x, hx, ?_⟩
      rcases h1 with ⟨h1, h2⟩ | ⟨b, hb, hbr, hbm, hbc⟩
      · exact .inl ⟨deadx hx h1, h2⟩
      · refine .inr ⟨b, ?_, hbr, hbm, hbc⟩
        rcases List.mem_cons.1 hb with h3 | h3
        · subst h3
          obtain ⟨q1, hq1, hk1, _⟩ := h.e1 e x hx
          rw [notc _ q1 e hq1 hk1 hbr] at hbm; cases hbm
        · exact h3
  · rw [f2, f4, f5]
    intro e hm
    obtain ⟨h0, h1⟩ := h.e8 e hm
    refine ⟨h0, h1.imp id ?_⟩
    rintro ⟨x, hx, h1, h2⟩
    exact ⟨x, hx, deadx hx h1, fun a ha => h2 a (hsub a ha)⟩
  · rw [f4]; exact h.e9
  · rw [f4, f8]; exact h.e10
  · rw [f4]
    intro e m hm
    obtain ⟨r, q1, hq1, hk1, h2⟩ := h.e11 e m hm
    exact ⟨r, q1, get _ q1 e hq1 hk1, hk1, h2⟩
  · rw [f4]; exact h.e12
  · rw [f2, f4]; exact h.e13

end Verif.UPoll
