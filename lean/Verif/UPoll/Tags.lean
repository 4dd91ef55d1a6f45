import Verif.UPoll.ErrStep
/-! Tags: the polls of epoll entries have tags of their own. -/
namespace Verif.UPoll
open Verif.Common

structure TInv (s : S) : Prop where
  t0 : OneShot s
  t1 : ∀ (r : Nat) (q : R) (e : Nat), s.reqs[r]? = some q → q.kind = .ent e → 1 ≤ q.ud.2 ∧ q.ud.2 < s.tag
  t2 : ∀ (r : Nat) (q : R), s.reqs[r]? = some q → (∀ e, q.kind ≠ .ent e) → q.ud.2 = 0
  t3 : ∀ (r r' : Nat) (q q' : R) (e e' : Nat), s.reqs[r]? = some q → s.reqs[r']? = some q' → q.kind = .ent e →
    q'.kind = .ent e' → q.ud.2 = q'.ud.2 → r = r'
  t4 : 1 ≤ s.tag

theorem TInv.init : TInv S.init := by
  constructor <;> simp [S.init, OneShot]

theorem TInv.frame {s t : S} (h : TInv s) (hr : Later s t) (hn : ∀ (r : Nat) (q' : R), s.reqs.length ≤ r → t.reqs[r]? ≠ some q')
    (ht : t.tag = s.tag) (hc : ∀ c ∈ t.cq, c ∈ s.cq ∨ c.more = false ∨ ∃ q, s.reqs[c.rid]? = some q ∧ ∀ w, q.kind ≠ .err w) :
    TInv t := by
  have old : ∀ (r : Nat) (q' : R), t.reqs[r]? = some q' → ∃ q, s.reqs[r]? = some q ∧ q'.ud = q.ud ∧ q'.kind = q.kind := by
    intro r q' e
    rcases hr.new r q' e with ⟨q, e0⟩ | hr'
    · obtain ⟨q2, e2, hu, hk, _⟩ := hr.old r q e0
      rw [e] at e2; cases e2
      exact ⟨q, e0, hu, hk⟩
    · exact absurd e (hn r q' hr')
  refine ⟨?_, ?_, ?_, ?_, by rw [ht]; exact h.t4⟩
  · intro c hcm q' w e hk
    obtain ⟨q, e0, _, hk0⟩ := old _ _ e
    rcases hc c hcm with h1 | h1 | ⟨q2, e2, h1⟩
    · exact h.t0 c h1 q w e0 (by rw [← hk0, hk])
    · exact h1
    · rw [e0] at e2; cases e2
      exact absurd (by rw [← hk0, hk]) (h1 w)
  · intro r q' e er hk
    obtain ⟨q, e0, hu, hk0⟩ := old _ _ er
    rw [hu, ht]; exact h.t1 r q e e0 (by rw [← hk0, hk])
  · intro r q' er hk
    obtain ⟨q, e0, hu, hk0⟩ := old _ _ er
    rw [hu]; exact h.t2 r q e0 (fun e he => hk e (by rw [hk0, he]))
  · intro r r' q q' e e' er er' hk hk' hu
    obtain ⟨q0, e0, hu0, hk0⟩ := old _ _ er
    obtain ⟨q1, e1, hu1, hk1⟩ := old _ _ er'
    exact h.t3 r r' q0 q1 e e' e0 e1 (by rw [← hk0, hk]) (by rw [← hk1, hk']) (by rw [← hu0, ← hu1, hu])

theorem TInv.congr {s t : S} (h : TInv s) (e1 : t.reqs = s.reqs) (e2 : t.tag = s.tag) (e3 : t.cq = s.cq) : TInv t :=
  h.frame (Later.rfl' e1) (by
    intro r q' hr e; rw [e1] at e
    have := lt_of_get e; omega) e2 (by intro c hc; rw [e3] at hc; exact .inl hc)

theorem push_get {l : List R} {q0 : R} {r : Nat} {q : R} (h : (l ++ [q0])[r]? = some q) :
    (l[r]? = some q ∧ r < l.length) ∨ (r = l.length ∧ q = q0) := by
  by_cases hv : r < l.length
  · rw [List.getElem?_append_left hv] at h; exact .inl ⟨h, hv⟩
  · have := lt_of_get h
    simp at this
    have hv : r = l.length := by omega
    subst hv; simp at h; exact .inr ⟨rfl, h.symm⟩

theorem TInv.push {s t : S} (h : TInv s) (hR : RInv s) {u : Ud} {kind : Kind} (e1 : t.reqs = s.reqs ++ [⟨u, kind, .queued⟩])
    (e3 : t.cq = s.cq)
    (hk : ((∀ e, kind ≠ .ent e) ∧ u.2 = 0 ∧ t.tag = s.tag) ∨ (u.2 = s.tag ∧ t.tag = s.tag + 1 ∧ ∃ e, kind = .ent e)) :
    TInv t := by
  have hle : s.tag ≤ t.tag := by rcases hk with ⟨_, _, h⟩ | ⟨_, h, _⟩ <;> omega
  refine ⟨?_, ?_, ?_, ?_, by have := h.t4; omega⟩
  · intro c hc q w e hw
    rw [e3] at hc
    obtain ⟨q0, e0, _⟩ := hR.c1 c hc
    rw [e1] at e
    rcases push_get e with ⟨e, _⟩ | ⟨e, _⟩
    · exact h.t0 c hc q w e hw
    · have := lt_of_get e0; omega
  · intro r q e er hq
    rw [e1] at er
    rcases push_get er with ⟨er, _⟩ | ⟨_, rfl⟩
    · have := h.t1 r q e er hq; omega
    · rcases hk with ⟨h1, _⟩ | ⟨h1, h2, _⟩
      · exact absurd hq (h1 e)
      · have := h.t4
        simp only; omega
  · intro r q er hq
    rw [e1] at er
    rcases push_get er with ⟨er, _⟩ | ⟨_, rfl⟩
    · exact h.t2 r q er hq
    · rcases hk with ⟨_, h1, _⟩ | ⟨_, _, e, h1⟩
      · exact h1
      · exact absurd h1 (hq e)
  · intro r r' q q' e e' er er' hq hq' hu
    rw [e1] at er er'
    rcases push_get er with ⟨er, _⟩ | ⟨rfl, rfl⟩ <;> rcases push_get er' with ⟨er', _⟩ | ⟨rfl, rfl⟩
    · exact h.t3 r r' q q' e e' er er' hq hq' hu
    · have := h.t1 r q e er hq
      rcases hk with ⟨h1, _⟩ | ⟨h1, _⟩
      · exact absurd hq' (h1 e')
      · simp only at hu; omega
    · have := h.t1 r' q' e' er' hq'
      rcases hk with ⟨h1, _⟩ | ⟨h1, _⟩
      · exact absurd hq (h1 e)
      · simp only at hu; omega
    · rfl

/-- The events of error callbacks. -/
def Quiet (l l' : List Ev) : Prop := ∃ evs, l' = l ++ evs ∧ ∀ ev ∈ evs,
  (∃ w k, ev = .reg w k) ∨ (∃ w, ev = .cancelStart w) ∨ (∃ w, ev = .cancelEnd w) ∨ (∃ w, ev = .closed w) ∨
  (∃ w m, ev = .called w m) ∨ (∃ w, ev = .freedW w) ∨ ∃ r m, ev = .kev r m

/-- The calls about error callbacks, as far as epoll entries see them. -/
theorem calls_shape {s s2 : S} (h : WInv s) {a : Act} (e : s.step a = some s2)
    (ha : (∃ i k, a = .reg i k) ∨ (∃ i k, a = .cancel i k) ∨ (∃ i, a = .close i) ∨ ∃ k, a = .other k) :
    (s2.reqs = s.reqs ∨ ∃ k kind, s2.reqs = s.reqs ++ [⟨(k, 0), kind, .queued⟩] ∧ (∀ e, kind ≠ .ent e) ∧ ∀ e t, kind ≠ .rmEnt e t) ∧
    s2.es = s.es ∧ s2.retry = s.retry ∧ s2.tag = s.tag ∧ s2.cq = s.cq ∧ s2.badE = s.badE ∧ Quiet s.log s2.log := by
  rcases ha with ⟨i, k, rfl⟩ | ⟨i, k, rfl⟩ | ⟨i, rfl⟩ | ⟨k, rfl⟩
  · simp only [S.step, S.reg] at e
    split at e
    · simp only [Option.some.injEq] at e; subst e
      exact ⟨.inr ⟨k, _, rfl, by simp, by simp⟩, rfl, rfl, rfl, rfl, rfl, [_], rfl, by simp⟩
    · cases e
  · simp only [S.step, S.cancel] at e
    cases hs : s.socks i with
    | none =>
      simp only [hs, Option.some.injEq] at e; subst e
      exact ⟨.inl rfl, rfl, rfl, rfl, rfl, rfl, [], by simp, by simp⟩
    | some w =>
      obtain ⟨x, hx, hsock, hheld⟩ := h.w3 _ _ hs
      obtain ⟨q, eq, hkq, huq, h1, h2, h3⟩ := h.w1 w x hx
      have hr : x.ref ≠ 0 := by rw [h2, hheld]; simp
      simp only [hs, hx, if_neg hr] at e
      cases hid : x.id with
      | none =>
        simp only [hid, Option.some.injEq] at e
        rw [release_eq (s := s.emit (.cancelStart w)) hx hr] at e
        subst e
        refine ⟨.inl rfl, rfl, rfl, rfl, rfl, rfl, [.cancelStart w] ++ (if x.ref = 1 then [Ev.freedW w] else []), by simp [S.emit], ?_⟩
        split <;> simp
      | some j =>
        simp only [hid] at e
        split at e
        · simp only [Option.some.injEq] at e
          rw [release_eq (s := (s.emit (.cancelStart w)).submitReq k 0 (.rmErr w (j, 0))) hx hr] at e
          subst e
          refine ⟨.inr ⟨k, _, rfl, by simp, by simp⟩, rfl, rfl, rfl, rfl, rfl,
            [.cancelStart w] ++ (if x.ref = 1 then [Ev.freedW w] else []), by simp [S.emit, S.submitReq], ?_⟩
          split <;> simp
        · cases e
  · simp only [S.step, S.close, Option.some.injEq] at e
    cases hs : s.socks i with
    | none => simp only [hs] at e; subst e; exact ⟨.inl rfl, rfl, rfl, rfl, rfl, rfl, [], by simp, by simp⟩
    | some w =>
      obtain ⟨x, hx, hsock, hheld⟩ := h.w3 _ _ hs
      obtain ⟨q, eq, hkq, huq, h1, h2, h3⟩ := h.w1 w x hx
      have hr : x.ref ≠ 0 := by rw [h2, hheld]; simp
      simp only [hs] at e
      rw [release_eq (s := s.emit (.closed w)) hx hr] at e
      subst e
      refine ⟨.inl rfl, rfl, rfl, rfl, rfl, rfl, [.closed w] ++ (if x.ref = 1 then [Ev.freedW w] else []), by simp [S.emit], ?_⟩
      split <;> simp
  · simp only [S.step] at e
    split at e
    · simp only [Option.some.injEq] at e; subst e
      exact ⟨.inr ⟨k, _, rfl, by simp, by simp⟩, rfl, rfl, rfl, rfl, rfl, [], by simp [S.submitReq], by simp⟩
    · cases e

/-- What the kernel does: stages change, at most one completion is posted. -/
structure Kern (s t : S) (r : Nat) (q : R) (st : Stage) (post : List Cqe) : Prop where
  hr : s.reqs[r]? = some q
  get : ∀ i : Nat, t.reqs[i]? = if i = r then some { q with stage := st } else s.reqs[i]?
  cq : t.cq = s.cq ++ post
  es : t.es = s.es
  retry : t.retry = s.retry
  tag : t.tag = s.tag
  badE : t.badE = s.badE
  log : Quiet s.log t.log

theorem TInv.kern {s t : S} {r : Nat} {q : R} {st : Stage} {post : List Cqe} (h : TInv s) (k : Kern s t r q st post)
    (hg : q.stage ≠ .gone)
    (hp : ∀ c ∈ post, c.more = false ∨ c.rid = r ∧ ∀ w, q.kind ≠ .err w) : TInv t := by
  refine h.frame ⟨?_, ?_⟩ ?_ k.tag ?_
  · intro i qi e
    rw [k.get]
    split
    · rename_i hi; subst hi
      have e2 := k.hr; rw [e] at e2; cases e2
      exact ⟨_, rfl, rfl, rfl, fun h => absurd h hg⟩
    · exact ⟨qi, e, rfl, rfl, id⟩
  · intro i qi e
    rw [k.get] at e
    split at e
    · rename_i hi; subst hi; exact .inl ⟨q, k.hr⟩
    · exact .inl ⟨qi, e⟩
  · intro i qi hi e
    rw [k.get] at e
    split at e
    · rename_i hi'; subst hi'; have := lt_of_get k.hr; omega
    · have := lt_of_get e; omega
  · intro c hc
    rw [k.cq] at hc
    rcases List.mem_append.1 hc with hc | hc
    · exact .inl hc
    · rcases hp c hc with h1 | ⟨h1, h2⟩
      · exact .inr (.inl h1)
      · exact .inr (.inr ⟨q, by rw [h1]; exact k.hr, h2⟩)

theorem TInv.popped {s : S} (h : TInv s) {c : Cqe} {rest : List Cqe} (hc : s.cq = c :: rest) : TInv (s.popped c rest) := by
  obtain ⟨_, _, _, _, f5, _, _, _, f9, _, f11, _⟩ := popped_rest (s := s) (c := c) (rest := rest)
  refine h.frame Later.popped ?_ f9 ?_
  · intro r q hr e
    have := lt_of_get e
    rw [f11] at this; omega
  · intro x hx
    rw [f5] at hx
    exact .inl (by rw [hc]; exact List.mem_cons_of_mem _ hx)

/-- The kernel's steps. -/
inductive KStep (s t : S) : Prop
  | take (p : Nat) (q : R) (k : Kern s t p q .kern []) (h : q.stage = .queued) (hk : ∀ e u, q.kind ≠ .rmEnt e u)
  | hit (p r : Nat) (q q' : R) (s1 : S) (c : Cqe) (k1 : Kern s s1 r q' .dying []) (k2 : Kern s1 t p q .done [c])
      (hpr : p ≠ r) (hs : ∃ rest, s.sq = p :: rest)
      (h : q.stage = .queued) (h' : q'.stage = .kern) (hk : (∃ e, q.kind = .rmEnt e q'.ud) ∨ ∃ w, q.kind = .rmErr w q'.ud)
      (hc : c.rid = p ∧ c.res = .ok ∧ c.more = false)
  | busy (p : Nat) (q : R) (c : Cqe) (k : Kern s t p q .done [c]) (h : q.stage = .queued)
      (hk : (∃ e t, q.kind = .rmEnt e t) ∨ ∃ w t, q.kind = .rmErr w t) (hc : c.rid = p ∧ c.res = .ealready ∧ c.more = false)
  | miss (p : Nat) (q : R) (c : Cqe) (k : Kern s t p q .done [c]) (h : q.stage = .queued) (u : Ud)
      (hs : ∃ rest, s.sq = p :: rest)
      (hk : (∃ e, q.kind = .rmEnt e u) ∨ ∃ w, q.kind = .rmErr w u) (hc : c.rid = p ∧ c.res = .enoent ∧ c.more = false)
      (hm : ∀ (r : Nat) (q' : R), s.reqs[r]? = some q' → q'.stage = .kern → q'.ud ≠ u)
  | event (r : Nat) (q : R) (c : Cqe) (m : Nat) (st : Stage) (k : Kern s t r q st [c]) (h : q.stage = .kern)
      (hst : st = if c.more then .kern else .done)
      (hc : c.rid = r ∧ c.res = .ev m ∧ (c.more = true → q.kind.oneShot = false))
  | die (r : Nat) (q : R) (c : Cqe) (k : Kern s t r q .done [c]) (h : q.stage = .dying)
      (hc : c.rid = r ∧ c.res = .cancelled ∧ c.more = false)
  | fail (r : Nat) (q : R) (c : Cqe) (k : Kern s t r q .done [c]) (h : q.stage = .kern)
      (hc : c.rid = r ∧ c.res = .fail ∧ c.more = false)

theorem setStage_get' {s : S} {p : Nat} {q : R} (h : s.reqs[p]? = some q) (st : Stage) (i : Nat) :
    (s.setStage p st).reqs[i]? = if i = p then some { q with stage := st } else s.reqs[i]? := by
  rw [setStage_get]
  split
  · rename_i hi; rw [hi, h]; rfl
  · rfl

theorem kernel_shape {s s2 : S} (hR : RInv s) {a : Act} (e : s.step a = some s2)
    (ha : a = .submit ∨ (∃ r, a = .removeHit r) ∨ (∃ r, a = .removeBusy r) ∨ a = .removeMiss ∨ (∃ r m b, a = .event r m b) ∨
      (∃ r, a = .die r) ∨ ∃ r, a = .fail r) : KStep s s2 := by
  have hnil : ∀ {t : S}, t.log = s.log → Quiet s.log t.log := fun h => ⟨[], by simp [h], by simp⟩
  rcases ha with rfl | ⟨r, rfl⟩ | ⟨r, rfl⟩ | rfl | ⟨r, m, b, rfl⟩ | ⟨r, rfl⟩ | ⟨r, rfl⟩
  · simp only [S.step] at e
    cases hs : s.sq with
    | nil => simp [hs] at e
    | cons p rest =>
      simp only [hs] at e
      cases hq : s.reqs[p]? with
      | none => simp [hq] at e
      | some q =>
        simp only [hq] at e
        have hst := (hR.take hs hq).1
        split at e
        · cases e
        · cases e
        · simp only [Option.some.injEq] at e; subst e
          exact .take p q ⟨hq, setStage_get' (s := { s with sq := rest }) hq _, by simp [S.setStage], rfl, rfl, rfl, rfl,
            hnil rfl⟩ hst (by assumption)
  · simp only [S.step] at e
    split at e
    · cases e
    · rename_i p q t s1 ht
      obtain ⟨rest, hs, hq, hk, h3⟩ := takeRemove_some ht
      have hst := (hR.take hs hq).1
      split at e
      · rename_i hw
        simp only [Option.some.injEq] at e; subst e
        obtain ⟨q', h4, h5, h6⟩ := waitingB_iff.1 hw
        have hpr : r ≠ p := by
          intro e; subst e; rw [hq] at h4; cases h4; rw [hst] at h5; cases h5
        have g1 : ∀ i : Nat, s1.reqs[i]? = if i = p then some { q with stage := .done } else s.reqs[i]? := by
          rw [h3]; exact setStage_get' (s := { s with sq := rest }) hq _
        have h4' : s1.reqs[r]? = some q' := by rw [g1, if_neg hpr]; exact h4
        have g2 : ∀ i : Nat, (s.setStage r .dying).reqs[i]? = if i = r then some { q' with stage := .dying } else s.reqs[i]? :=
          setStage_get' (s := s) h4 _
        refine .hit p r q q' (s.setStage r .dying) ⟨p, q.ud, .ok, false⟩
          ⟨h4, g2, by simp [S.setStage], rfl, rfl, rfl, rfl, hnil rfl⟩
          ⟨by rw [g2, if_neg (fun h => hpr h.symm)]; exact hq, fun i => ?_, by rw [h3]; rfl, by rw [h3]; rfl, by rw [h3]; rfl,
            by rw [h3]; rfl, by rw [h3]; rfl, ⟨[], by rw [h3]; simp [S.post, S.setStage], by simp⟩⟩
          (fun h => hpr h.symm) ⟨rest, hs⟩ hst h5 ?_ ⟨rfl, rfl, rfl⟩
        · have : ((s1.setStage r .dying).post ⟨p, q.ud, .ok, false⟩).reqs[i]? = (s1.setStage r .dying).reqs[i]? := rfl
          rw [this, setStage_get' h4', g1, g2]
          by_cases h1 : i = r
          · have : i ≠ p := fun h => hpr (by rw [← h1, h])
            simp only [if_pos h1, if_neg this]
          · simp only [if_neg h1]
        rcases hk with ⟨w, hk⟩ | ⟨w, hk⟩
        · exact .inr ⟨w, by rw [hk, h6]⟩
        · exact .inl ⟨w, by rw [hk, h6]⟩
      · cases e
  · simp only [S.step] at e
    split at e
    · cases e
    · rename_i p q t s1 ht
      obtain ⟨rest, hs, hq, hk, h3⟩ := takeRemove_some ht
      have hst := (hR.take hs hq).1
      split at e
      · simp only [Option.some.injEq] at e; subst e
        have g1 : ∀ i : Nat, s1.reqs[i]? = if i = p then some { q with stage := .done } else s.reqs[i]? := by
          rw [h3]; exact setStage_get' (s := { s with sq := rest }) hq _
        refine .busy p q ⟨p, q.ud, .ealready, false⟩ ⟨hq, g1, by rw [h3]; rfl, by rw [h3]; rfl, by rw [h3]; rfl, by rw [h3]; rfl, by rw [h3]; rfl, hnil (by rw [h3]; rfl)⟩ hst ?_ ⟨rfl, rfl, rfl⟩
        rcases hk with ⟨w, hk⟩ | ⟨w, hk⟩
        · exact .inr ⟨w, _, hk⟩
        · exact .inl ⟨w, _, hk⟩
      · cases e
  · simp only [S.step] at e
    split at e
    · cases e
    · rename_i p q t s1 ht
      obtain ⟨rest, hs, hq, hk, h3⟩ := takeRemove_some ht
      have hst := (hR.take hs hq).1
      split at e
      · rename_i hw
        simp only [Option.some.injEq] at e; subst e
        have g1 : ∀ i : Nat, s1.reqs[i]? = if i = p then some { q with stage := .done } else s.reqs[i]? := by
          rw [h3]; exact setStage_get' (s := { s with sq := rest }) hq _
        refine .miss p q ⟨p, q.ud, .enoent, false⟩ ⟨hq, g1, by rw [h3]; rfl, by rw [h3]; rfl, by rw [h3]; rfl, by rw [h3]; rfl, by rw [h3]; rfl, hnil (by rw [h3]; rfl)⟩ hst t ⟨rest, hs⟩ ?_ ⟨rfl, rfl, rfl⟩ ?_
        · exact hk.symm
        · intro r q' er hst' hu
          have := List.all_eq_true.1 hw r (List.mem_range.2 (lt_of_get er))
          rw [waitingB_iff.2 ⟨q', er, hst', hu⟩] at this
          cases this
      · cases e
  · simp only [S.step] at e
    split at e
    · cases e
    · rename_i q hr
      split at e
      · rename_i hq
        simp only [Option.some.injEq] at e; subst e
        refine .event r q ⟨r, q.ud, .ev m, b⟩ m (if b then .kern else .done) ?_ hq.1 rfl ⟨rfl, rfl, hq.2⟩
        cases b with
        | true =>
          refine ⟨hr, ?_, by simp [S.post, S.emit], rfl, rfl, rfl, rfl, ⟨[_], rfl, by simp⟩⟩
          intro i
          simp only [if_true, S.post, S.emit]
          split
          · rename_i hi; subst hi; rw [hr, ← hq.1]
          · rfl
        | false =>
          exact ⟨hr, setStage_get' (s := (s.post ⟨r, q.ud, .ev m, false⟩).emit (.kev r m)) hr _, by simp [S.post, S.emit, S.setStage], rfl, rfl, rfl, rfl, ⟨[.kev r m], by simp [S.setStage, S.emit, S.post], by simp⟩⟩
      · cases e
  · simp only [S.step] at e
    split at e
    · cases e
    · rename_i q hr
      split at e
      · rename_i hq
        simp only [Option.some.injEq] at e; subst e
        exact .die r q ⟨r, q.ud, .cancelled, false⟩ ⟨hr, setStage_get' (s := s.post ⟨r, q.ud, .cancelled, false⟩) hr _, by simp [S.post, S.setStage], rfl, rfl, rfl, rfl, hnil rfl⟩ hq ⟨rfl, rfl, rfl⟩
      · cases e
  · simp only [S.step] at e
    split at e
    · cases e
    · rename_i q hr
      split at e
      · rename_i hq
        simp only [Option.some.injEq] at e; subst e
        exact .fail r q ⟨r, q.ud, .fail, false⟩ ⟨hr, setStage_get' (s := s.post ⟨r, q.ud, .fail, false⟩) hr _, by simp [S.post, S.setStage], rfl, rfl, rfl, rfl, hnil rfl⟩ hq ⟨rfl, rfl, rfl⟩
      · cases e

theorem TInv.kstep {s t : S} (h : TInv s) (k : KStep s t) : TInv t := by
  cases k with
  | take p q k hs hk => exact h.kern k (by rw [hs]; simp) (by simp)
  | hit p r q q' s1 c k1 k2 hpr hsq hs hs' hk hc =>
    exact (h.kern k1 (by rw [hs']; simp) (by simp)).kern k2 (by rw [hs]; simp) (by simp [hc.2.2])
  | busy p q c k hs hk hc => exact h.kern k (by rw [hs]; simp) (by simp [hc.2.2])
  | miss p q c k hs u hsq hk hc hm => exact h.kern k (by rw [hs]; simp) (by simp [hc.2.2])
  | event r q c m st k hs hst hc =>
    refine h.kern k (by rw [hs]; simp) ?_
    intro x hx
    rw [List.mem_singleton.1 hx]
    cases hm : c.more with
    | false => exact .inl rfl
    | true =>
      refine .inr ⟨hc.1, fun w hw => ?_⟩
      have := hc.2.2 hm
      rw [hw] at this; cases this
  | die r q c k hs hc => exact h.kern k (by rw [hs]; simp) (by simp [hc.2.2])
  | fail r q c k hs hc => exact h.kern k (by rw [hs]; simp) (by simp [hc.2.2])

theorem runErr_rest {s : S} {w : Nat} {res : Res} : (s.runErr w res).es = s.es ∧ (s.runErr w res).tag = s.tag ∧
    (s.runErr w res).retry = s.retry ∧ (s.runErr w res).badE = s.badE ∧ Quiet s.log (s.runErr w res).log := by
  unfold S.runErr
  split
  · exact ⟨rfl, rfl, rfl, rfl, [], by simp, by simp⟩
  · rename_i x hx
    split
    · exact ⟨rfl, rfl, rfl, rfl, [], by simp, by simp⟩
    · rename_i hr
      have hlt := lt_of_get hx
      unfold S.destroy
      simp only [List.getElem?_set_self hlt, if_neg hr]
      refine ⟨?_, ?_, ?_, ?_, (if x.ref = 1 then [Ev.freedW w] else []) ++ callEv w x.cb res, ?_, ?_⟩
      · by_cases h1 : x.ref = 1 <;> cases res <;> simp [h1, S.emit] <;> split <;> rfl
      · by_cases h1 : x.ref = 1 <;> cases res <;> simp [h1, S.emit] <;> split <;> rfl
      · by_cases h1 : x.ref = 1 <;> cases res <;> simp [h1, S.emit] <;> split <;> rfl
      · by_cases h1 : x.ref = 1 <;> cases res <;> simp [h1, S.emit] <;> split <;> rfl
      · by_cases h1 : x.ref = 1 <;> cases res <;> simp [h1, S.emit, callEv] <;> split <;> simp
      · intro ev hev
        rcases List.mem_append.1 hev with h | h
        · split at h <;> simp at h
          subst h; simp
        · unfold callEv at h
          split at h
          · split at h <;> simp at h
            subst h; simp
          · simp at h

theorem TInv.step {s s2 : S} (h : TInv s) (hR : RInv s) (hW : WInv s) {a : Act} (e : s.step a = some s2) : TInv s2 := by
  have calls : ((∃ i k, a = .reg i k) ∨ (∃ i k, a = .cancel i k) ∨ (∃ i, a = .close i) ∨ ∃ k, a = .other k) → TInv s2 := by
    intro ha
    obtain ⟨h1, _, _, h4, h5, _⟩ := calls_shape hW e ha
    rcases h1 with h1 | ⟨k, kind, h1, h2, _⟩
    · exact h.congr h1 h4 h5
    · exact h.push hR h1 h5 (.inl ⟨h2, rfl, h4⟩)
  cases a with
  | reg sock k => exact calls (.inl ⟨_, _, rfl⟩)
  | cancel sock k => exact calls (.inr (.inl ⟨_, _, rfl⟩))
  | close sock => exact calls (.inr (.inr (.inl ⟨_, rfl⟩)))
  | other k => exact calls (.inr (.inr (.inr ⟨_, rfl⟩)))
  | add k =>
    simp only [S.step, S.add] at e
    split at e
    · simp only [Option.some.injEq] at e; subst e
      exact h.push hR (u := (k, s.tag)) rfl rfl (.inr ⟨rfl, rfl, _, rfl⟩)
    · cases e
  | del x k =>
    simp only [S.step, S.del] at e
    split at e
    · cases e
    · split at e
      · cases e
      · split at e
        · simp only [Option.some.injEq] at e; subst e
          exact h.congr rfl rfl rfl
        · split at e
          · simp only [Option.some.injEq] at e; subst e
            exact h.push hR (u := (k, 0)) rfl rfl (.inl ⟨by simp, rfl, rfl⟩)
          · cases e
  | retry i k =>
    simp only [S.step] at e
    split at e
    · cases e
    · split at e
      · simp only [Option.some.injEq] at e; subst e
        exact h.push hR (u := (k, 0)) rfl rfl (.inl ⟨by simp, rfl, rfl⟩)
      · cases e
  | submit => exact h.kstep (kernel_shape hR e (by simp))
  | removeHit r => exact h.kstep (kernel_shape hR e (by simp))
  | removeBusy r => exact h.kstep (kernel_shape hR e (by simp))
  | removeMiss => exact h.kstep (kernel_shape hR e (by simp))
  | event r m b => exact h.kstep (kernel_shape hR e (by simp))
  | die r => exact h.kstep (kernel_shape hR e (by simp))
  | fail r => exact h.kstep (kernel_shape hR e (by simp))
  | complete k =>
    obtain ⟨c, rest, q, hc, hslot, hq, hu, ng, nq, hd, e⟩ := complete_eq hR e
    have hp := h.popped hc
    have hRp := hR.popped hc
    unfold S.run at e
    split at e
    · rename_i w hk
      simp only [Option.some.injEq] at e; subst e
      obtain ⟨r1, _, r3, _⟩ := runErr_ring (s.popped c rest) w c.res
      exact hp.congr r1 runErr_rest.2.1 r3
    · rename_i en hk
      rcases runEnt_cases e with ⟨e, _⟩ | ⟨x, _, _, ⟨m, _, _, e⟩ | ⟨m, _, _, hk, e⟩ | ⟨_, e⟩⟩
      · subst e; exact hp.congr rfl rfl rfl
      · subst e; exact hp.congr rfl rfl rfl
      · subst e
        exact hp.push hRp (u := (k, (s.popped c rest).tag)) rfl rfl (.inr ⟨rfl, rfl, _, rfl⟩)
      · subst e
        split <;> exact hp.congr rfl rfl rfl
    · simp only [Option.some.injEq] at e; subst e; exact hp.congr rfl rfl rfl
    · split at e <;> simp only [Option.some.injEq] at e <;> subst e <;> exact hp.congr rfl rfl rfl
    · simp only [Option.some.injEq] at e; subst e; exact hp

end Verif.UPoll
