import Verif.UPoll.Err
/-! Every step keeps the invariant of the error callbacks. -/
namespace Verif.UPoll
open Verif.Common

theorem submitReq_new {s : S} {k tag : Nat} {kind : Kind} {r : Nat} {q : R} (hr : s.reqs.length ≤ r)
    (e : (s.submitReq k tag kind).reqs[r]? = some q) : r = s.reqs.length ∧ q = ⟨(k, tag), kind, .queued⟩ := by
  simp only [S.submitReq] at e
  have := lt_of_get e
  simp at this
  have hr : r = s.reqs.length := by omega
  subst hr
  simp at e
  exact ⟨rfl, e.symm⟩

theorem submitReq_old {s : S} {k tag : Nat} {kind : Kind} {r : Nat} (hr : r < s.reqs.length) :
    (s.submitReq k tag kind).reqs[r]? = s.reqs[r]? := by
  simp only [S.submitReq]
  exact List.getElem?_append_left hr

theorem submitReq_same {s : S} {k tag : Nat} {kind : Kind} {r : Nat} {q q' : R} (e : s.reqs[r]? = some q)
    (e' : (s.submitReq k tag kind).reqs[r]? = some q') : q' = q := by
  rw [submitReq_old (lt_of_get e), e] at e'; cases e'; rfl

/-- A request that is not about error callbacks. -/
theorem WInv.submitReq {s : S} (h : WInv s) {k tag : Nat} {kind : Kind} (hk : (∀ w, kind ≠ .err w) ∧ ∀ w u, kind ≠ .rmErr w u) :
    WInv (s.submitReq k tag kind) := by
  refine h.frame rfl rfl (Later.submitReq _ _ _ _) ?_ ?_ ⟨[], by simp [S.submitReq], by simp⟩ h.l5 rfl rfl
  · intro r q q' e e' w _ hg
    rw [submitReq_same e e'] at hg; exact hg
  · intro r q' hr e w
    obtain ⟨_, rfl⟩ := submitReq_new hr e
    exact ⟨hk.1 w, hk.2 w⟩

/-- Only a part of the state that does not concern wrappers changes. -/
theorem WInv.congr {s t : S} (h : WInv s) (e1 : t.ws = s.ws) (e2 : t.socks = s.socks) (e3 : t.reqs = s.reqs)
    (e4 : ∃ evs, t.log = s.log ++ evs ∧ ∀ ev ∈ evs, Tame ev = true) (e5 : t.cq = s.cq) (b1 : t.badW = s.badW)
    (b2 : t.badSlot = s.badSlot) : WInv t := by
  refine h.frame e1 e2 (Later.rfl' e3) ?_ ?_ e4 ?_ b1 b2
  · intro r q q' e e' w _ hg
    rw [e3, e] at e'; cases e'; exact hg
  · intro r q' hr e
    rw [e3] at e
    have := lt_of_get e; omega
  · obtain ⟨evs, el, _⟩ := e4
    intro c hc m hm
    rw [e5] at hc; rw [el]
    exact List.mem_append_left _ (h.l5 c hc m hm)

/-- A stage that is not the last is set. -/
theorem WInv.setStage {s : S} (h : WInv s) {p : Nat} {q : R} (hp : s.reqs[p]? = some q) (ng : q.stage ≠ .gone) {st : Stage}
    (hst : st = .gone → ∀ w, q.kind ≠ .err w) : WInv (s.setStage p st) := by
  refine h.frame rfl rfl (Later.setStage hp fun e => absurd e ng) ?_ ?_ ⟨[], by simp [S.setStage], by simp⟩ h.l5 rfl rfl
  · intro r q1 q' e e' w hw hg
    rw [setStage_get] at e'
    by_cases hr : r = p
    · subst hr
      rw [hp] at e; cases e
      simp only [if_true, hp, Option.map_some, Option.some.injEq] at e'
      subst e'
      exact absurd hw (hst hg w)
    · rw [if_neg hr, e] at e'; cases e'; exact hg
  · intro r q' hr e
    rw [setStage_get] at e
    have : r < s.reqs.length := by
      split at e
      · rename_i hr'; subst hr'; exact lt_of_get hp
      · exact lt_of_get e
    omega

theorem WInv.post {s : S} (h : WInv s) (c : Cqe) (hc : ∀ m, c.res = .ev m → Ev.kev c.rid m ∈ s.log) : WInv (s.post c) := by
  refine ⟨h.w1, h.w2, h.w3, h.w4, h.w5, h.l1, h.l2, h.l3, h.l4, fun x hx m hm => ?_, h.bw, h.bs⟩
  rcases List.mem_append.1 hx with hx | hx
  · exact h.l5 x hx m hm
  · rw [List.mem_singleton.1 hx] at hm ⊢; exact hc m hm

theorem WInv.emit {s : S} (h : WInv s) {e : Ev} (he : Tame e = true) : WInv (s.emit e) :=
  h.congr rfl rfl rfl ⟨[e], rfl, by simpa using he⟩ rfl rfl rfl

theorem WInv.reg {s : S} (h : WInv s) (hR : RInv s) {sock k : Nat} (hs : s.socks sock = none) (hk : s.slots k = none) {s2 : S}
    (e : s.reg sock k = some s2) : WInv s2 := by
  unfold S.reg at e
  rw [if_pos ⟨hs, hk⟩] at e
  simp only [Option.some.injEq] at e
  subst e
  let w := s.ws.length
  let x : W := ⟨s.reqs.length, sock, true, some k, 2, true⟩
  have gw : ∀ v y, (s.ws ++ [x])[v]? = some y → (s.ws[v]? = some y ∧ v < w) ∨ (v = w ∧ y = x) := by
    intro v y hy
    by_cases hv : v < s.ws.length
    · rw [List.getElem?_append_left hv] at hy; exact .inl ⟨hy, hv⟩
    · have := lt_of_get hy
      simp at this
      have hv : v = s.ws.length := by omega
      subst hv; simp at hy; exact .inr ⟨rfl, hy.symm⟩
  have gold : ∀ (v : Nat) (y : W), s.ws[v]? = some y → (s.ws ++ [x])[v]? = some y := by
    intro v y hy; rw [List.getElem?_append_left (lt_of_get hy)]; exact hy
  have gnew : (s.ws ++ [x])[w]? = some x := by simp [w]
  have rq : ∀ (r : Nat) (q : R), (s.reqs ++ [⟨(k, 0), .err w, .queued⟩])[r]? = some q →
      (s.reqs[r]? = some q ∧ r < s.reqs.length) ∨ (r = s.reqs.length ∧ q = ⟨(k, 0), .err w, .queued⟩) := by
    intro r q hy
    by_cases hv : r < s.reqs.length
    · rw [List.getElem?_append_left hv] at hy; exact .inl ⟨hy, hv⟩
    · have := lt_of_get hy
      simp at this
      have hv : r = s.reqs.length := by omega
      subst hv; simp at hy; exact .inr ⟨rfl, hy.symm⟩
  have rold : ∀ (r : Nat) (q : R), s.reqs[r]? = some q → (s.reqs ++ [⟨(k, 0), .err w, .queued⟩])[r]? = some q := by
    intro r q hy; rw [List.getElem?_append_left (lt_of_get hy)]; exact hy
  have rnew : (s.reqs ++ [(⟨(k, 0), .err w, .queued⟩ : R)])[s.reqs.length]? = some ⟨(k, 0), .err w, .queued⟩ := by simp
  have back : ∀ {e}, Tame e = false → e ∈ s.log ++ [Ev.reg w sock] → e ∈ s.log := by
    intro e hf hm
    rcases List.mem_append.1 hm with hm | hm
    · exact hm
    · rw [List.mem_singleton.1 hm] at hf; cases hf
  refine ⟨?_, ?_, ?_, ?_, ?_, ?_, ?_, ?_, ?_, ?_, h.bw, h.bs⟩
  · intro v y hy
    rcases gw v y hy with ⟨hy, _⟩ | ⟨rfl, rfl⟩
    · obtain ⟨q, eq, h1⟩ := h.w1 v y hy
      exact ⟨q, rold _ _ eq, h1⟩
    · exact ⟨_, rnew, rfl, rfl, rfl, rfl, rfl⟩
  · intro v y hy hh
    show upd s.socks sock (some w) y.sock = some v
    rcases gw v y hy with ⟨hy, _⟩ | ⟨rfl, rfl⟩
    · have := h.w2 v y hy hh
      rw [upd_ne]
      · exact this
      · intro e; rw [e, hs] at this; cases this
    · exact upd_same _ _ _
  · intro j v hj
    have hj : upd s.socks sock (some w) j = some v := hj
    by_cases hjs : j = sock
    · subst hjs
      rw [upd_same] at hj; cases hj
      exact ⟨x, gnew, rfl, rfl⟩
    · rw [upd_ne _ _ hjs] at hj
      obtain ⟨y, hy, h1⟩ := h.w3 j v hj
      exact ⟨y, gold _ _ hy, h1⟩
  · intro r q v e hv
    rcases rq r q e with ⟨e, _⟩ | ⟨rfl, rfl⟩
    · obtain ⟨y, hy, h1⟩ := h.w4 r q v e hv
      exact ⟨y, gold _ _ hy, h1⟩
    · cases hv
      exact ⟨x, gnew, rfl⟩
  · intro p q v u e hv
    rcases rq p q e with ⟨e, hp⟩ | ⟨rfl, rfl⟩
    · obtain ⟨y, hy, h1, h2, h3⟩ := h.w5 p q v u e hv
      refine ⟨y, gold _ _ hy, h1, fun qx ex => ?_, fun r' q' hlt e' hu => ?_⟩
      · rcases rq _ _ ex with ⟨ex, _⟩ | ⟨ex, _⟩
        · exact h2 _ ex
        · obtain ⟨q0, e0, _⟩ := h.w1 v y hy
          have := lt_of_get e0; omega
      · rcases rq _ _ e' with ⟨e', _⟩ | ⟨e', _⟩
        · exact h3 r' q' hlt e' hu
        · omega
    · cases hv
  · intro v m hm
    obtain ⟨y, q, hy, eq, hg, hk'⟩ := h.l1 v m (back rfl hm)
    exact ⟨y, q, gold _ _ hy, rold _ _ eq, hg, List.mem_append_left _ hk'⟩
  · intro v hm
    obtain ⟨y, hy, h1⟩ := h.l2 v (hm.imp (back rfl) (back rfl))
    exact ⟨y, gold _ _ hy, h1⟩
  · intro v hm
    obtain ⟨y, hy, h1⟩ := h.l3 v (back rfl hm)
    exact ⟨y, gold _ _ hy, h1⟩
  · exact pairwise_append_tame h.l4 (by simp [Tame])
  · intro c hc m hm
    exact List.mem_append_left _ (h.l5 c hc m hm)

theorem WInv.cancel {s : S} (h : WInv s) (hR : RInv s) {sock k : Nat} {s2 : S} (e : s.cancel sock k = some s2) : WInv s2 := by
  unfold S.cancel at e
  cases hs : s.socks sock with
  | none => simp only [hs, Option.some.injEq] at e; subst e; exact h
  | some w =>
    obtain ⟨x, hx, hsock, hheld⟩ := h.w3 _ _ hs
    obtain ⟨q, eq, hkq, huq, h1, h2, h3⟩ := h.w1 w x hx
    have hr : x.ref ≠ 0 := by rw [h2, hheld]; simp
    simp only [hs, hx, if_neg hr] at e
    cases hid : x.id with
    | none =>
      simp only [hid, Option.some.injEq] at e
      rw [release_eq (s := s.emit (.cancelStart w)) hx hr] at e
      subst e
      refine h.release hs hx (.inl rfl) (Later.rfl' rfl) ?_ ?_ rfl rfl ?_ rfl rfl rfl
      · intro r q1 q' e1 e2 hg
        have e2 : s.reqs[r]? = some q' := e2
        rw [e1] at e2; cases e2; exact hg
      · intro r q' hr' e'
        have e' : s.reqs[r]? = some q' := e'
        have := lt_of_get e'; omega
      · simp [S.emit]
    | some i =>
      simp only [hid] at e
      split at e
      · rename_i hk
        simp only [Option.some.injEq] at e
        have ng : q.stage ≠ .gone := by
          intro hg; rw [hid, if_pos hg] at h1; cases h1
        have hi : i = q.ud.1 := by rw [hid, if_neg ng] at h1; injection h1
        rw [release_eq (s := (s.emit (.cancelStart w)).submitReq k 0 (.rmErr w (i, 0))) hx hr] at e
        subst e
        have hreq : ∀ r : Nat, ((s.emit (.cancelStart w)).submitReq k 0 (.rmErr w (i, 0))).reqs[r]? =
            (s.submitReq k 0 (.rmErr w (i, 0))).reqs[r]? := fun _ => rfl
        refine h.release hs hx (.inl rfl) ((Later.submitReq s k 0 (.rmErr w (i, 0))).trans (Later.rfl' rfl)) ?_ ?_
          rfl rfl ?_ rfl rfl rfl
        · intro r q1 q' e1 e2 hg
          have e2 : (s.submitReq k 0 (.rmErr w (i, 0))).reqs[r]? = some q' := e2
          rw [submitReq_same e1 e2] at hg; exact hg
        · intro r q' hr' e'
          have e' : (s.submitReq k 0 (.rmErr w (i, 0))).reqs[r]? = some q' := e'
          obtain ⟨rfl, rfl⟩ := submitReq_new hr' e'
          refine ⟨by simp, fun v u hv => ?_⟩
          cases hv
          refine ⟨rfl, rfl, fun qx ex => ?_, fun r' q2 hlt e2 hu => ?_⟩
          · have ex : (s.submitReq k 0 (.rmErr w (i, 0))).reqs[x.rid]? = some qx := ex
            rw [submitReq_same eq ex, hi]
            exact Prod.ext rfl huq
          · have e2 : (s.submitReq k 0 (.rmErr w (i, 0))).reqs[r']? = some q2 := e2
            rw [submitReq_old hlt] at e2
            by_cases hg : q2.stage = .gone
            · exact .inr hg
            · refine .inl ?_
              have a := hR.s1 r' q2 e2 hg
              have b := hR.s1 x.rid q eq ng
              rw [hu] at a
              rw [← hi] at b
              rw [a] at b; injection b
        · simp [S.emit, S.submitReq]
      · cases e

theorem WInv.close {s : S} (h : WInv s) {sock : Nat} : WInv (s.close sock) := by
  unfold S.close
  cases hs : s.socks sock with
  | none => exact h
  | some w =>
    obtain ⟨x, hx, hsock, hheld⟩ := h.w3 _ _ hs
    obtain ⟨q, eq, hkq, huq, h1, h2, h3⟩ := h.w1 w x hx
    have hr : x.ref ≠ 0 := by rw [h2, hheld]; simp
    simp only
    rw [release_eq (s := s.emit (.closed w)) hx hr]
    refine h.release hs hx (.inr rfl) (Later.rfl' rfl) ?_ ?_ rfl rfl ?_ rfl rfl rfl
    · intro r q1 q' e1 e2 hg
      have e2 : s.reqs[r]? = some q' := e2
      rw [e1] at e2; cases e2; exact hg
    · intro r q' hr' e'
      have e' : s.reqs[r]? = some q' := e'
      have := lt_of_get e'; omega
    · simp [S.emit]

theorem popped_get {s : S} {c : Cqe} {rest : List Cqe} (r : Nat) : (s.popped c rest).reqs[r]? =
    if c.more = false ∧ r = c.rid then (s.reqs[r]?).map (fun q => { q with stage := .gone }) else s.reqs[r]? := by
  unfold S.popped
  cases hm : c.more with
  | true => simp
  | false =>
    simp only [Bool.false_eq_true, if_false, true_and]
    exact setStage_get { s with cq := rest } c.rid .gone r

theorem popped_rest {s : S} {c : Cqe} {rest : List Cqe} : (s.popped c rest).ws = s.ws ∧ (s.popped c rest).es = s.es ∧
    (s.popped c rest).socks = s.socks ∧ (s.popped c rest).log = s.log ∧ (s.popped c rest).cq = rest ∧
    (s.popped c rest).badW = s.badW ∧ (s.popped c rest).badSlot = s.badSlot ∧ (s.popped c rest).badE = s.badE ∧
    (s.popped c rest).tag = s.tag ∧ (s.popped c rest).retry = s.retry ∧ (s.popped c rest).reqs.length = s.reqs.length ∧
    (s.popped c rest).sq = s.sq := by
  unfold S.popped
  cases c.more with
  | true => simp
  | false =>
    refine ⟨rfl, rfl, rfl, rfl, rfl, rfl, rfl, rfl, rfl, rfl, ?_, rfl⟩
    simp only [S.setStage]
    cases h : s.reqs[c.rid]? <;> simp

theorem Later.popped {s : S} {c : Cqe} {rest : List Cqe} : Later s (s.popped c rest) := by
  constructor
  · intro r q e
    rw [popped_get]
    split
    · exact ⟨{ q with stage := .gone }, by rw [e]; rfl, rfl, rfl, fun _ => rfl⟩
    · exact ⟨q, e, rfl, rfl, id⟩
  · intro r q e
    have : r < s.reqs.length := by
      have := lt_of_get e; rw [(popped_rest (s := s) (c := c) (rest := rest)).2.2.2.2.2.2.2.2.2.2.1] at this; exact this
    exact .inl ⟨_, List.getElem?_eq_getElem this⟩

theorem WInv.popped {s : S} (h : WInv s) {c : Cqe} {rest : List Cqe} (hc : s.cq = c :: rest) {q : R}
    (hq : s.reqs[c.rid]? = some q) (hk : ∀ w, q.kind ≠ .err w) : WInv (s.popped c rest) := by
  obtain ⟨f1, _, f3, f4, f5, f6, f7, _, _, _, f11, _⟩ := popped_rest (s := s) (c := c) (rest := rest)
  refine h.frame f1 f3 Later.popped ?_ ?_ ⟨[], by simp [f4], by simp⟩ ?_ f6 f7
  · intro r q1 q' e e' w hw hg
    rw [popped_get] at e'
    split at e'
    · rename_i hr
      rw [hr.2, hq] at e; cases e
      exact absurd hw (hk w)
    · rw [e] at e'; cases e'; exact hg
  · intro r q' hr e
    have := lt_of_get e
    rw [f11] at this; omega
  · intro x hx m hm
    rw [f5] at hx; rw [f4]
    exact h.l5 x (by rw [hc]; exact List.mem_cons_of_mem _ hx) m hm

theorem WInv.complete {s : S} (h : WInv s) (hR : RInv s) {k : Nat} {s2 : S} (e : s.complete k = some s2)
    (hone : ∀ c ∈ s.cq, ∀ q w, s.reqs[c.rid]? = some q → q.kind = .err w → c.more = false) : WInv s2 := by
  obtain ⟨c, rest, q, hc, hslot, hq, hu, ng, nq, hd, e⟩ := complete_eq hR e
  obtain ⟨f1, _, f3, f4, f5, f6, f7, _, _, _, f11, _⟩ := popped_rest (s := s) (c := c) (rest := rest)
  have hcm : c ∈ s.cq := by rw [hc]; exact List.mem_cons_self
  unfold S.run at e
  split at e
  · rename_i w hk
    simp only [Option.some.injEq] at e
    obtain ⟨x, hx, hxr⟩ := h.w4 _ _ _ hq hk
    have hmore := hone c hcm q w hq hk
    obtain ⟨q0, e0, _, _, _, h2, _⟩ := h.w1 w x hx
    rw [hxr, hq] at e0; cases e0
    have hr : x.ref ≠ 0 := by rw [h2, if_neg ng]; omega
    rw [runErr_eq (s := s.popped c rest) (by rw [f1]; exact hx) hr] at e
    subst e
    refine h.finish hx (by rw [hxr]; exact hq) ng (res := c.res) ?_ ((Later.popped (c := c) (rest := rest)).trans (Later.rfl' rfl)) ?_ ?_
      (by rw [← f1]) f3 (by rw [← f4]) (fun x hx => by rw [hc]; exact List.mem_cons_of_mem _ (by rw [← f5]; exact hx)) f6 f7
    · intro m hm; rw [hxr]; exact h.l5 c hcm m hm
    · intro r q1 q' e1 e2
      have e2 : (s.popped c rest).reqs[r]? = some q' := e2
      rw [popped_get, hxr] at *
      by_cases hr : r = c.rid
      · rw [if_pos ⟨hmore, hr⟩, e1] at e2
        simp only [Option.map_some, Option.some.injEq] at e2
        subst e2; simp [hr]
      · rw [if_neg (fun h => hr h.2), e1] at e2
        cases e2; simp [hr]
    · intro r q' hr' e2
      have e2 : (s.popped c rest).reqs[r]? = some q' := e2
      have := lt_of_get e2
      rw [f11] at this; omega
  · rename_i en hk
    have hp := h.popped hc hq (by rw [hk]; simp)
    rcases runEnt_cases e with ⟨e, _⟩ | ⟨x, _, _, ⟨m, _, _, e⟩ | ⟨m, _, _, hk, e⟩ | ⟨_, e⟩⟩
    · subst e; exact hp.congr rfl rfl rfl ⟨[], by simp, by simp⟩ rfl rfl rfl
    · subst e; exact hp.emit rfl
    · subst e
      refine WInv.emit (WInv.submitReq ?_ (by simp)) rfl
      exact (hp.emit (e := .event en m) rfl).congr rfl rfl rfl ⟨[], by simp, by simp⟩ rfl rfl rfl
    · subst e
      refine WInv.emit ?_ rfl
      split
      · exact hp.congr rfl rfl rfl ⟨[], by simp, by simp⟩ rfl rfl rfl
      · exact (hp.emit (e := .kfail en) rfl).congr rfl rfl rfl ⟨[], by simp, by simp⟩ rfl rfl rfl
  · rename_i w t hk
    have hp := h.popped hc hq (by rw [hk]; simp)
    simp only [Option.some.injEq] at e; subst e
    exact hp.emit rfl
  · rename_i en t hk
    have hp := h.popped hc hq (by rw [hk]; simp)
    split at e <;> simp only [Option.some.injEq] at e <;> subst e
    · exact hp.congr rfl rfl rfl ⟨[], by simp, by simp⟩ rfl rfl rfl
    · exact hp.emit rfl
  · rename_i hk
    have hp := h.popped hc hq (by rw [hk]; simp)
    simp only [Option.some.injEq] at e; subst e
    exact hp

/-- Completions of one-shot polls are final. -/
def OneShot (s : S) : Prop := ∀ c ∈ s.cq, ∀ q w, s.reqs[c.rid]? = some q → q.kind = .err w → c.more = false

theorem WInv.step {s s2 : S} (h : WInv s) (hR : RInv s) (h1 : OneShot s) {a : Act} (e : s.step a = some s2) : WInv s2 := by
  cases a with
  | reg sock k =>
    have e : s.reg sock k = some s2 := e
    by_cases hc : s.socks sock = none ∧ s.slots k = none
    · exact h.reg hR hc.1 hc.2 e
    · unfold S.reg at e; rw [if_neg hc] at e; cases e
  | cancel sock k => exact h.cancel hR e
  | close sock =>
    simp only [S.step, Option.some.injEq] at e; subst e; exact h.close
  | add k =>
    simp only [S.step, S.add] at e
    split at e
    · simp only [Option.some.injEq] at e; subst e
      refine WInv.emit (WInv.submitReq ?_ (by simp)) rfl
      exact h.congr rfl rfl rfl ⟨[], by simp, by simp⟩ rfl rfl rfl
    · cases e
  | del x k =>
    simp only [S.step, S.del] at e
    split at e
    · cases e
    · split at e
      · cases e
      · split at e
        · simp only [Option.some.injEq] at e; subst e
          exact h.congr rfl rfl rfl ⟨[], by simp, by simp⟩ rfl rfl rfl
        · split at e
          · simp only [Option.some.injEq] at e; subst e
            refine WInv.emit (WInv.submitReq ?_ (by simp)) rfl
            exact h.congr rfl rfl rfl ⟨[], by simp, by simp⟩ rfl rfl rfl
          · cases e
  | retry i k =>
    simp only [S.step] at e
    split at e
    · cases e
    · split at e
      · simp only [Option.some.injEq] at e; subst e
        refine WInv.submitReq ?_ (by simp)
        exact h.congr rfl rfl rfl ⟨[], by simp, by simp⟩ rfl rfl rfl
      · cases e
  | other k =>
    simp only [S.step] at e
    split at e
    · simp only [Option.some.injEq] at e; subst e
      exact h.submitReq (by simp)
    · cases e
  | submit =>
    simp only [S.step] at e
    cases hs : s.sq with
    | nil => simp [hs] at e
    | cons p rest =>
      simp only [hs] at e
      cases hq : s.reqs[p]? with
      | none => simp [hq] at e
      | some q =>
        simp only [hq] at e
        have hst := (hR.take hs hq).1
        have h' : WInv { s with sq := rest } := h.congr rfl rfl rfl ⟨[], by simp, by simp⟩ rfl rfl rfl
        split at e
        · cases e
        · cases e
        · simp only [Option.some.injEq] at e; subst e
          exact h'.setStage hq (by rw [hst]; simp) (by simp)
  | removeHit r =>
    simp only [S.step] at e
    split at e
    · cases e
    · rename_i p q t s1 ht
      obtain ⟨rest, hs, hq, _, h3⟩ := takeRemove_some ht
      split at e
      · rename_i hw
        simp only [Option.some.injEq] at e; subst e
        obtain ⟨q', h4, h5, _⟩ := waitingB_iff.1 hw
        have hst := (hR.take hs hq).1
        have h' : WInv { s with sq := rest } := h.congr rfl rfl rfl ⟨[], by simp, by simp⟩ rfl rfl rfl
        have a := h'.setStage (st := .done) hq (by rw [hst]; simp) (by simp)
        have hpr : r ≠ p := by
          intro e; subst e; rw [hq] at h4; cases h4; rw [hst] at h5; cases h5
        have h4' : ({ s with sq := rest }.setStage p .done).reqs[r]? = some q' := by
          rw [setStage_get, if_neg hpr]; exact h4
        rw [h3]
        exact (a.setStage (st := .dying) h4' (by rw [h5]; simp) (by simp)).post _ (by simp)
      · cases e
  | removeBusy r =>
    simp only [S.step] at e
    split at e
    · cases e
    · rename_i p q t s1 ht
      obtain ⟨rest, hs, hq, _, h3⟩ := takeRemove_some ht
      split at e
      · simp only [Option.some.injEq] at e; subst e
        have hst := (hR.take hs hq).1
        have h' : WInv { s with sq := rest } := h.congr rfl rfl rfl ⟨[], by simp, by simp⟩ rfl rfl rfl
        rw [h3]
        exact (h'.setStage (st := .done) hq (by rw [hst]; simp) (by simp)).post _ (by simp)
      · cases e
  | removeMiss =>
    simp only [S.step] at e
    split at e
    · cases e
    · rename_i p q t s1 ht
      obtain ⟨rest, hs, hq, _, h3⟩ := takeRemove_some ht
      split at e
      · simp only [Option.some.injEq] at e; subst e
        have hst := (hR.take hs hq).1
        have h' : WInv { s with sq := rest } := h.congr rfl rfl rfl ⟨[], by simp, by simp⟩ rfl rfl rfl
        rw [h3]
        exact (h'.setStage (st := .done) hq (by rw [hst]; simp) (by simp)).post _ (by simp)
      · cases e
  | event r mask more =>
    simp only [S.step] at e
    split at e
    · cases e
    · rename_i q hr
      split at e
      · rename_i hq
        simp only [Option.some.injEq] at e; subst e
        have a : WInv ((s.emit (.kev r mask)).post ⟨r, q.ud, .ev mask, more⟩) :=
          (h.emit (e := .kev r mask) rfl).post _ (by
            intro m hm; cases hm; exact List.mem_append_right _ (by simp))
        split
        · exact a
        · exact a.setStage hr (by rw [hq.1]; simp) (by simp)
      · cases e
  | die r =>
    simp only [S.step] at e
    split at e
    · cases e
    · rename_i q hr
      split at e
      · rename_i hq
        simp only [Option.some.injEq] at e; subst e
        exact (h.post _ (by simp)).setStage hr (by rw [hq]; simp) (by simp)
      · cases e
  | fail r =>
    simp only [S.step] at e
    split at e
    · cases e
    · rename_i q hr
      split at e
      · rename_i hq
        simp only [Option.some.injEq] at e; subst e
        exact (h.post _ (by simp)).setStage hr (by rw [hq]; simp) (by simp)
      · cases e
  | complete k => exact h.complete hR e h1

end Verif.UPoll
