import Verif.UPoll.Model
/-! The ring: every request in flight owns its position, completions reach the request they are for. -/
namespace Verif.UPoll
open Verif.Common

structure RInv (s : S) : Prop where
  q1 : ∀ r, r ∈ s.sq ↔ ∃ q, s.reqs[r]? = some q ∧ q.stage = .queued
  q2 : s.sq.Pairwise (· < ·)
  q3 : ∀ r ∈ s.sq, ∀ r' q, s.reqs[r']? = some q → q.stage ≠ .queued → r' < r
  s1 : ∀ r q, s.reqs[r]? = some q → q.stage ≠ .gone → s.slots q.ud.1 = some r
  s2 : ∀ k r, s.slots k = some r → ∃ q, s.reqs[r]? = some q ∧ q.ud.1 = k ∧ q.stage ≠ .gone
  c1 : ∀ c ∈ s.cq, ∃ q, s.reqs[c.rid]? = some q ∧ q.ud = c.ud ∧
    (q.stage = .done ∨ c.more = true ∧ (q.stage = .kern ∨ q.stage = .dying))
  c2 : s.cq.Pairwise (fun a b => a.rid = b.rid → a.more = true)
  c3 : ∀ r q, s.reqs[r]? = some q → q.stage = .done → ∃ c ∈ s.cq, c.rid = r ∧ c.more = false

theorem RInv.congr {s t : S} (h : RInv s) (e1 : t.reqs = s.reqs) (e2 : t.sq = s.sq) (e3 : t.cq = s.cq)
    (e4 : t.slots = s.slots) : RInv t := by
  obtain ⟨h1, h2, h3, h4, h5, h6, h7, h8⟩ := h
  constructor <;> simp only [e1, e2, e3, e4] <;> assumption

theorem RInv.init : RInv S.init := by
  constructor <;> simp [S.init]

/-- The request with number `r` after the stage of `p` is set. -/
theorem setStage_get (s : S) (p : Nat) (st : Stage) (r : Nat) :
    (s.setStage p st).reqs[r]? =
      if r = p then (s.reqs[r]?).map (fun q => { q with stage := st }) else s.reqs[r]? := by
  unfold S.setStage
  cases hp : s.reqs[p]? with
  | none =>
    by_cases hr : r = p
    · subst hr; simp [hp]
    · simp [hr]
  | some q =>
    by_cases hr : r = p
    · subst hr
      simp [List.getElem?_set_self (lt_of_get hp), hp]
    · simp only [if_neg hr]
      exact List.getElem?_set_ne (fun h => hr h.symm)

theorem RInv.submitReq {s : S} (h : RInv s) {k tag : Nat} {kind : Kind} (hk : s.slots k = none) :
    RInv (s.submitReq k tag kind) := by
  have hg : ∀ r q, (s.submitReq k tag kind).reqs[r]? = some q ↔
      (s.reqs[r]? = some q ∧ r < s.reqs.length) ∨ (r = s.reqs.length ∧ q = ⟨(k, tag), kind, .queued⟩) := by
    intro r q
    simp only [S.submitReq]
    by_cases hr : r < s.reqs.length
    · rw [List.getElem?_append_left hr]
      constructor
      · intro hx; exact .inl ⟨hx, hr⟩
      · rintro (hx | ⟨hx, _⟩)
        · exact hx.1
        · omega
    · by_cases hr2 : r = s.reqs.length
      · subst hr2
        simp [eq_comm]
      · rw [List.getElem?_eq_none (by simp; omega)]
        constructor
        · intro hx; cases hx
        · rintro (hx | hx)
          · omega
          · omega
  have old : ∀ r q, s.reqs[r]? = some q → r < s.reqs.length := fun r q e => lt_of_get e
  constructor
  · intro r
    constructor
    · intro hr
      simp only [S.submitReq, List.mem_append, List.mem_singleton] at hr
      rcases hr with hr | hr
      · obtain ⟨q, e, hq⟩ := (h.q1 r).1 hr
        exact ⟨q, (hg r q).2 (.inl ⟨e, old _ _ e⟩), hq⟩
      · exact ⟨_, (hg r _).2 (.inr ⟨hr, rfl⟩), rfl⟩
    · rintro ⟨q, e, hq⟩
      simp only [S.submitReq, List.mem_append, List.mem_singleton]
      rcases (hg r q).1 e with ⟨e, _⟩ | ⟨e, _⟩
      · exact .inl ((h.q1 r).2 ⟨q, e, hq⟩)
      · exact .inr e
  · simp only [S.submitReq]
    rw [List.pairwise_append]
    refine ⟨h.q2, List.pairwise_singleton _ _, fun a ha b hb => ?_⟩
    rw [List.mem_singleton.1 hb]
    obtain ⟨q, e, _⟩ := (h.q1 a).1 ha
    exact old _ _ e
  · intro r hr r' q e hq
    have : s.reqs[r']? = some q ∧ r' < s.reqs.length := by
      rcases (hg r' q).1 e with e | ⟨_, e⟩
      · exact e
      · subst e; exact absurd rfl hq
    simp only [S.submitReq, List.mem_append, List.mem_singleton] at hr
    rcases hr with hr | hr
    · exact h.q3 r hr r' q this.1 hq
    · omega
  · intro r q e hq
    simp only [S.submitReq]
    rcases (hg r q).1 e with ⟨e, _⟩ | ⟨er, e2⟩
    · have := h.s1 r q e hq
      have : q.ud.1 ≠ k := by intro hx; rw [hx, hk] at this; cases this
      rw [upd_ne _ _ this]; exact h.s1 r q e hq
    · subst e2
      rw [er]; exact upd_same _ _ _
  · intro j r hj
    simp only [S.submitReq] at hj
    by_cases hjk : j = k
    · subst hjk
      simp only [upd, if_true, Option.some.injEq] at hj
      exact ⟨_, (hg r _).2 (.inr ⟨hj.symm, rfl⟩), rfl, by simp⟩
    · rw [upd_ne _ _ hjk] at hj
      obtain ⟨q, e, h1, h2⟩ := h.s2 j r hj
      exact ⟨q, (hg r q).2 (.inl ⟨e, old _ _ e⟩), h1, h2⟩
  · intro c hc
    obtain ⟨q, e, h1⟩ := h.c1 c hc
    exact ⟨q, (hg _ q).2 (.inl ⟨e, old _ _ e⟩), h1⟩
  · exact h.c2
  · intro r q e hq
    rcases (hg r q).1 e with ⟨e, _⟩ | ⟨_, e⟩
    · exact h.c3 r q e hq
    · subst e; cases hq

/-- The kernel takes the head of the submission queue. -/
theorem RInv.take {s : S} (h : RInv s) {p : Nat} {rest : List Nat} (hs : s.sq = p :: rest) {q : R}
    (hp : s.reqs[p]? = some q) : q.stage = .queued ∧ (∀ c ∈ s.cq, c.rid ≠ p) ∧
      RInv ({ s with sq := rest }.setStage p .kern) := by
  have hq : q.stage = .queued := by
    obtain ⟨q', e, hq⟩ := (h.q1 p).1 (by rw [hs]; exact List.mem_cons_self)
    rw [hp] at e; cases e; exact hq
  have nc : ∀ c ∈ s.cq, c.rid ≠ p := by
    intro c hc e
    obtain ⟨q', e', _, h2⟩ := h.c1 c hc
    rw [e, hp] at e'; cases e'
    rw [hq] at h2; simp at h2
  refine ⟨hq, nc, ?_⟩
  have hg := setStage_get { s with sq := rest } p .kern
  have pw : (p :: rest).Pairwise (· < ·) := by rw [← hs]; exact h.q2
  have f1 : ({ s with sq := rest }.setStage p .kern).sq = rest := rfl
  have f2 : ({ s with sq := rest }.setStage p .kern).slots = s.slots := rfl
  have f3 : ({ s with sq := rest }.setStage p .kern).cq = s.cq := rfl
  constructor
  · intro r
    rw [f1, hg r]
    by_cases hr : r = p
    · subst hr
      simp only [if_true, hp, Option.map_some, Option.some.injEq]
      constructor
      · intro hx; exact absurd (List.rel_of_pairwise_cons pw hx) (Nat.lt_irrefl _)
      · rintro ⟨q', rfl, hx⟩; cases hx
    · simp only [if_neg hr]
      rw [← h.q1 r, hs]
      simp [hr]
  · rw [f1]; exact (List.pairwise_cons.1 pw).2
  · intro r hr r' q' e hq'
    rw [f1] at hr
    rw [hg r'] at e
    by_cases hr' : r' = p
    · rw [hr']; exact List.rel_of_pairwise_cons pw hr
    · simp only [if_neg hr'] at e
      exact h.q3 r (by rw [hs]; exact List.mem_cons_of_mem _ hr) r' q' e hq'
  · intro r q' e hq'
    rw [hg r] at e
    rw [f2]
    by_cases hr : r = p
    · subst hr
      simp only [if_true, hp, Option.map_some, Option.some.injEq] at e
      subst e
      exact h.s1 r q hp (by rw [hq]; simp)
    · simp only [if_neg hr] at e
      exact h.s1 r q' e hq'
  · intro k r hk
    rw [f2] at hk
    obtain ⟨q', e, h1, h2⟩ := h.s2 k r hk
    rw [hg r]
    by_cases hr : r = p
    · subst hr
      rw [hp] at e; cases e
      exact ⟨{ q with stage := .kern }, by simp [hp], h1, by simp⟩
    · exact ⟨q', by rw [if_neg hr]; exact e, h1, h2⟩
  · intro c hc
    rw [f3] at hc
    obtain ⟨q', e, h1⟩ := h.c1 c hc
    exact ⟨q', by rw [hg, if_neg (nc c hc)]; exact e, h1⟩
  · rw [f3]; exact h.c2
  · intro r q' e hq'
    rw [f3]
    rw [hg r] at e
    by_cases hr : r = p
    · subst hr
      simp only [if_true, hp, Option.map_some, Option.some.injEq] at e
      subst e; cases hq'
    · simp only [if_neg hr] at e
      exact h.c3 r q' e hq'

/-- Between the kernel's own stages. -/
theorem RInv.die {s : S} (h : RInv s) {r : Nat} {q : R} (hr : s.reqs[r]? = some q) (hq : q.stage = .kern) :
    RInv (s.setStage r .dying) := by
  have hg := setStage_get s r .dying
  constructor
  · intro p
    show p ∈ s.sq ↔ _
    rw [hg p, h.q1 p]
    by_cases hp : p = r
    · subst hp; simp [hr, hq]
    · simp [hp]
  · exact h.q2
  · intro p hp r' q' e hq'
    rw [hg r'] at e
    by_cases hx : r' = r
    · subst hx
      exact h.q3 p hp r' q hr (by rw [hq]; simp)
    · rw [if_neg hx] at e
      exact h.q3 p hp r' q' e hq'
  · intro p q' e hq'
    show s.slots _ = _
    rw [hg p] at e
    by_cases hx : p = r
    · subst hx
      simp only [if_true, hr, Option.map_some, Option.some.injEq] at e
      subst e
      exact h.s1 p q hr (by rw [hq]; simp)
    · rw [if_neg hx] at e
      exact h.s1 p q' e hq'
  · intro k p hk
    obtain ⟨q', e, h1, h2⟩ := h.s2 k p hk
    rw [hg p]
    by_cases hx : p = r
    · subst hx
      rw [hr] at e; cases e
      exact ⟨{ q with stage := .dying }, by simp [hr], h1, by simp⟩
    · exact ⟨q', by rw [if_neg hx]; exact e, h1, h2⟩
  · intro c hc
    obtain ⟨q', e, h1, h2⟩ := h.c1 c hc
    rw [hg]
    by_cases hx : c.rid = r
    · rw [hx, hr] at e; cases e
      refine ⟨{ q with stage := .dying }, by rw [if_pos hx, hx, hr]; rfl, h1, .inr ⟨?_, .inr rfl⟩⟩
      rw [hq] at h2; simpa using h2
    · exact ⟨q', by rw [if_neg hx]; exact e, h1, h2⟩
  · exact h.c2
  · intro p q' e hq'
    show ∃ c ∈ s.cq, _
    rw [hg p] at e
    by_cases hx : p = r
    · subst hx
      simp only [if_true, hr, Option.map_some, Option.some.injEq] at e
      subst e; cases hq'
    · rw [if_neg hx] at e
      exact h.c3 p q' e hq'

/-- A report that is not the last one. -/
theorem RInv.postMore {s : S} (h : RInv s) {r : Nat} {q : R} (hr : s.reqs[r]? = some q) (hq : q.stage = .kern) {c : Cqe}
    (h1 : c.rid = r) (h2 : c.ud = q.ud) (h3 : c.more = true) : RInv (s.post c) := by
  refine ⟨h.q1, h.q2, h.q3, h.s1, h.s2, fun x hx => ?_, ?_, fun p q' e hq' => ?_⟩
  · rcases List.mem_append.1 hx with hx | hx
    · exact h.c1 x hx
    · rw [List.mem_singleton.1 hx, h1]
      exact ⟨q, hr, h2.symm, .inr ⟨h3, .inl hq⟩⟩
  · show (s.cq ++ [c]).Pairwise _
    rw [List.pairwise_append]
    refine ⟨h.c2, List.pairwise_singleton _ _, fun a ha b hb e => ?_⟩
    rw [List.mem_singleton.1 hb, h1] at e
    obtain ⟨q', e', _, h4⟩ := h.c1 a ha
    rw [e, hr] at e'; cases e'
    rw [hq] at h4; simpa using h4
  · obtain ⟨x, hx, h4⟩ := h.c3 p q' e hq'
    exact ⟨x, List.mem_append_left _ hx, h4⟩

/-- The last report. -/
theorem RInv.postLast {s : S} (h : RInv s) {r : Nat} {q : R} (hr : s.reqs[r]? = some q)
    (hq : q.stage = .kern ∨ q.stage = .dying) {c : Cqe} (h1 : c.rid = r) (h2 : c.ud = q.ud) (h3 : c.more = false) :
    RInv ((s.post c).setStage r .done) := by
  have hg := setStage_get (s.post c) r .done
  have hg0 : ∀ p : Nat, (s.post c).reqs[p]? = s.reqs[p]? := fun _ => rfl
  have nq : q.stage ≠ .queued := by rcases hq with hq | hq <;> rw [hq] <;> simp
  have ng : q.stage ≠ .gone := by rcases hq with hq | hq <;> rw [hq] <;> simp
  constructor
  · intro p
    show p ∈ s.sq ↔ _
    rw [hg p, h.q1 p, hg0]
    by_cases hp : p = r
    · subst hp; simp [hr, nq]
    · simp [hp]
  · exact h.q2
  · intro p hp r' q' e hq'
    rw [hg r', hg0] at e
    by_cases hx : r' = r
    · subst hx
      exact h.q3 p hp r' q hr nq
    · rw [if_neg hx] at e
      exact h.q3 p hp r' q' e hq'
  · intro p q' e hq'
    show s.slots _ = _
    rw [hg p, hg0] at e
    by_cases hx : p = r
    · subst hx
      simp only [if_true, hr, Option.map_some, Option.some.injEq] at e
      subst e
      exact h.s1 p q hr ng
    · rw [if_neg hx] at e
      exact h.s1 p q' e hq'
  · intro k p hk
    obtain ⟨q', e, h4, h5⟩ := h.s2 k p hk
    rw [hg p, hg0]
    by_cases hx : p = r
    · subst hx
      rw [hr] at e; cases e
      exact ⟨{ q with stage := .done }, by simp [hr], h4, by simp⟩
    · exact ⟨q', by rw [if_neg hx]; exact e, h4, h5⟩
  · intro x hx
    rw [hg, hg0]
    rcases List.mem_append.1 hx with hx | hx
    · obtain ⟨q', e, h4, h5⟩ := h.c1 x hx
      by_cases hy : x.rid = r
      · rw [hy, hr] at e; cases e
        exact ⟨{ q with stage := .done }, by rw [if_pos hy, hy, hr]; rfl, h4, .inl rfl⟩
      · exact ⟨q', by rw [if_neg hy]; exact e, h4, h5⟩
    · rw [List.mem_singleton.1 hx, h1]
      exact ⟨{ q with stage := .done }, by rw [if_pos rfl, hr]; rfl, h2.symm, .inl rfl⟩
  · show (s.cq ++ [c]).Pairwise _
    rw [List.pairwise_append]
    refine ⟨h.c2, List.pairwise_singleton _ _, fun a ha b hb e => ?_⟩
    rw [List.mem_singleton.1 hb, h1] at e
    obtain ⟨q', e', _, h4⟩ := h.c1 a ha
    rw [e, hr] at e'; cases e'
    rcases h4 with h4 | h4
    · rw [h4] at hq; simp at hq
    · exact h4.1
  · intro p q' e hq'
    show ∃ x ∈ s.cq ++ [c], _
    rw [hg p, hg0] at e
    by_cases hx : p = r
    · exact ⟨c, by simp, by rw [h1, hx], h3⟩
    · rw [if_neg hx] at e
      obtain ⟨x, hx, h4⟩ := h.c3 p q' e hq'
      exact ⟨x, List.mem_append_left _ hx, h4⟩

/-- A completion finds its request in the table. -/
theorem RInv.dispatch {s : S} (h : RInv s) {c : Cqe} (hc : c ∈ s.cq) :
    ∃ q, s.slots c.ud.1 = some c.rid ∧ s.reqs[c.rid]? = some q ∧ q.ud = c.ud ∧ q.stage ≠ .gone ∧ q.stage ≠ .queued ∧
      (c.more = false → q.stage = .done) := by
  obtain ⟨q, e, h1, h2⟩ := h.c1 c hc
  have ng : q.stage ≠ .gone := by
    rcases h2 with h2 | ⟨_, h2 | h2⟩ <;> rw [h2] <;> simp
  have nq : q.stage ≠ .queued := by
    rcases h2 with h2 | ⟨_, h2 | h2⟩ <;> rw [h2] <;> simp
  refine ⟨q, by rw [← h1]; exact h.s1 _ _ e ng, e, h1, ng, nq, fun hm => ?_⟩
  rcases h2 with h2 | ⟨h2, _⟩
  · exact h2
  · rw [hm] at h2; cases h2

theorem RInv.popMore {s : S} (h : RInv s) {c : Cqe} {rest : List Cqe} (hc : s.cq = c :: rest) (hm : c.more = true) :
    RInv { s with cq := rest } := by
  refine ⟨h.q1, h.q2, h.q3, h.s1, h.s2, fun x hx => h.c1 x (by rw [hc]; exact List.mem_cons_of_mem _ hx), ?_,
    fun p q e hq => ?_⟩
  · have := h.c2; rw [hc] at this; exact (List.pairwise_cons.1 this).2
  · obtain ⟨x, hx, h1, h2⟩ := h.c3 p q e hq
    rw [hc] at hx
    rcases List.mem_cons.1 hx with hx | hx
    · rw [hx, hm] at h2; cases h2
    · exact ⟨x, hx, h1, h2⟩

theorem RInv.popLast {s : S} (h : RInv s) {c : Cqe} {rest : List Cqe} (hc : s.cq = c :: rest) (hm : c.more = false) :
    RInv { ({ s with cq := rest } : S).setStage c.rid .gone with slots := upd s.slots c.ud.1 none } := by
  obtain ⟨q, hs, hr, hu, ng, nq, hd⟩ := h.dispatch (c := c) (by rw [hc]; exact List.mem_cons_self)
  have hg := setStage_get { s with cq := rest } c.rid .gone
  have nr : ∀ x ∈ rest, x.rid ≠ c.rid := by
    intro x hx e
    have := h.c2; rw [hc] at this
    have := (List.pairwise_cons.1 this).1 x hx e.symm
    rw [hm] at this; cases this
  constructor
  · intro p
    show p ∈ s.sq ↔ ∃ q', (S.setStage { s with cq := rest } c.rid .gone).reqs[p]? = some q' ∧ _
    rw [hg p, h.q1 p]
    by_cases hp : p = c.rid
    · subst hp; simp [hr, nq]
    · simp [hp]
  · exact h.q2
  · intro p hp r' q' e hq'
    have e : (S.setStage { s with cq := rest } c.rid .gone).reqs[r']? = some q' := e
    rw [hg r'] at e
    by_cases hx : r' = c.rid
    · rw [hx]
      exact h.q3 p hp _ q hr nq
    · rw [if_neg hx] at e
      exact h.q3 p hp r' q' e hq'
  · intro p q' e hq'
    have e : (S.setStage { s with cq := rest } c.rid .gone).reqs[p]? = some q' := e
    show upd s.slots _ none _ = _
    rw [hg p] at e
    by_cases hx : p = c.rid
    · subst hx
      simp only [if_true, hr, Option.map_some, Option.some.injEq] at e
      subst e; exact absurd rfl hq'
    · rw [if_neg hx] at e
      have := h.s1 p q' e hq'
      rw [upd_ne]
      · exact this
      · intro hy; rw [hy, hs] at this; exact hx (by injection this with this; exact this.symm)
  · intro k p hk
    have hk : upd s.slots c.ud.1 none k = some p := hk
    by_cases hy : k = c.ud.1
    · subst hy; simp [upd] at hk
    · rw [upd_ne _ _ hy] at hk
      obtain ⟨q', e, h4, h5⟩ := h.s2 k p hk
      have : p ≠ c.rid := by
        intro hx; rw [hx, hr] at e; cases e
        exact hy (by rw [← h4, hu])
      refine ⟨q', ?_, h4, h5⟩
      show (S.setStage { s with cq := rest } c.rid .gone).reqs[p]? = some q'
      rw [hg p, if_neg this]; exact e
  · intro x hx
    obtain ⟨q', e, h1⟩ := h.c1 x (by rw [hc]; exact List.mem_cons_of_mem _ hx)
    refine ⟨q', ?_, h1⟩
    show (S.setStage { s with cq := rest } c.rid .gone).reqs[x.rid]? = some q'
    rw [hg, if_neg (nr x hx)]; exact e
  · have := h.c2; rw [hc] at this; exact (List.pairwise_cons.1 this).2
  · intro p q' e hq'
    have e : (S.setStage { s with cq := rest } c.rid .gone).reqs[p]? = some q' := e
    rw [hg p] at e
    by_cases hx : p = c.rid
    · subst hx
      simp only [if_true, hr, Option.map_some, Option.some.injEq] at e
      subst e; cases hq'
    · rw [if_neg hx] at e
      obtain ⟨x, hx2, h1, h2⟩ := h.c3 p q' e hq'
      rw [hc] at hx2
      rcases List.mem_cons.1 hx2 with hx2 | hx2
      · exact absurd (by rw [← h1, hx2]) hx
      · exact ⟨x, hx2, h1, h2⟩

theorem RInv.takeRm {s : S} (h : RInv s) {p : Nat} {rest : List Nat} (hs : s.sq = p :: rest) {q : R}
    (hp : s.reqs[p]? = some q) {c : Cqe} (h1 : c.rid = p) (h2 : c.ud = q.ud) (h3 : c.more = false) :
    RInv (({ s with sq := rest }.setStage p .done).post c) := by
  obtain ⟨hq, _, h4⟩ := h.take hs hp
  have hp2 : ({ s with sq := rest }.setStage p .kern).reqs[p]? = some { q with stage := .kern } := by
    rw [setStage_get, if_pos rfl]; simp [hp]
  refine (h4.postLast hp2 (.inl rfl) h1 h2 h3).congr ?_ rfl rfl rfl
  refine List.ext_getElem? fun r => ?_
  show ({ s with sq := rest }.setStage p .done).reqs[r]? = _
  rw [setStage_get, setStage_get]
  show _ = if r = p then Option.map _ (({ s with sq := rest }.setStage p .kern).reqs[r]?) else
    ({ s with sq := rest }.setStage p .kern).reqs[r]?
  rw [setStage_get]
  by_cases hr : r = p <;> simp [hr, hp]

theorem RInv.takeRmHit {s : S} (h : RInv s) {p : Nat} {rest : List Nat} (hs : s.sq = p :: rest) {q : R}
    (hp : s.reqs[p]? = some q) {c : Cqe} (h1 : c.rid = p) (h2 : c.ud = q.ud) (h3 : c.more = false)
    {r : Nat} {q' : R} (hr : s.reqs[r]? = some q') (hq' : q'.stage = .kern) :
    RInv ((({ s with sq := rest }.setStage p .done).setStage r .dying).post c) := by
  have hq := (h.take hs hp).1
  have hpr : p ≠ r := by
    intro e; subst e; rw [hp] at hr; cases hr; rw [hq] at hq'; cases hq'
  have a := h.die hr hq'
  have hp2 : (s.setStage r .dying).reqs[p]? = some q := by rw [setStage_get, if_neg hpr]; exact hp
  refine (a.takeRm hs hp2 h1 h2 h3).congr ?_ rfl rfl rfl
  refine List.ext_getElem? fun x => ?_
  show (({ s with sq := rest }.setStage p .done).setStage r .dying).reqs[x]? =
    ({ s.setStage r .dying with sq := rest }.setStage p .done).reqs[x]?
  rw [setStage_get, setStage_get, setStage_get]
  show _ = if x = p then Option.map _ ((s.setStage r .dying).reqs[x]?) else (s.setStage r .dying).reqs[x]?
  rw [setStage_get]
  by_cases hx : x = r
  · subst hx; simp [Ne.symm hpr]
  · by_cases hy : x = p <;> simp [hx, hy, hpr]

/-! ### Steps in terms of the ring -/

theorem destroy_ring (s : S) (w : Nat) : (s.destroy w).reqs = s.reqs ∧ (s.destroy w).sq = s.sq ∧
    (s.destroy w).cq = s.cq ∧ (s.destroy w).slots = s.slots := by
  unfold S.destroy
  split
  · simp
  · split
    · simp
    · dsimp only; split <;> simp [S.emit]

theorem unhold_ring (s : S) (k w : Nat) : (s.unhold k w).reqs = s.reqs ∧ (s.unhold k w).sq = s.sq ∧
    (s.unhold k w).cq = s.cq ∧ (s.unhold k w).slots = s.slots := by
  unfold S.unhold; simp

theorem runErr_ring (s : S) (w : Nat) (res : Res) : (s.runErr w res).reqs = s.reqs ∧ (s.runErr w res).sq = s.sq ∧
    (s.runErr w res).cq = s.cq ∧ (s.runErr w res).slots = s.slots := by
  unfold S.runErr
  split
  · simp
  · rename_i x _
    split
    · simp
    · have := destroy_ring ({ s with ws := s.ws.set w { x with id := none } }) w
      dsimp only
      split
      · split
        · exact this
        · exact this
      · exact this

theorem RInv.congr4 {s t : S} (h : RInv s) (e : t.reqs = s.reqs ∧ t.sq = s.sq ∧ t.cq = s.cq ∧ t.slots = s.slots) : RInv t :=
  h.congr e.1 e.2.1 e.2.2.1 e.2.2.2

theorem takeRemove_some {s s1 : S} {p : Nat} {q : R} {t : Ud} (e : s.takeRemove = some (p, q, t, s1)) :
    ∃ rest, s.sq = p :: rest ∧ s.reqs[p]? = some q ∧ ((∃ w, q.kind = .rmErr w t) ∨ (∃ x, q.kind = .rmEnt x t)) ∧
      s1 = { s with sq := rest }.setStage p .done := by
  unfold S.takeRemove at e
  cases hs : s.sq with
  | nil => simp [hs] at e
  | cons p' rest =>
    simp only [hs] at e
    cases hq : s.reqs[p']? with
    | none => simp [hq] at e
    | some q' =>
      simp only [hq] at e
      cases hk : q'.kind <;> simp only [hk] at e <;> try (cases e; done)
      · simp only [Option.some.injEq, Prod.mk.injEq] at e
        obtain ⟨rfl, rfl, rfl, rfl⟩ := e
        exact ⟨rest, rfl, hq, .inl ⟨_, hk⟩, rfl⟩
      · simp only [Option.some.injEq, Prod.mk.injEq] at e
        obtain ⟨rfl, rfl, rfl, rfl⟩ := e
        exact ⟨rest, rfl, hq, .inr ⟨_, hk⟩, rfl⟩

theorem waitingB_iff {s : S} {r : Nat} {t : Ud} : s.waitingB r t = true ↔
    ∃ q, s.reqs[r]? = some q ∧ q.stage = .kern ∧ q.ud = t := by
  unfold S.waitingB
  cases h : s.reqs[r]? with
  | none => simp
  | some q => simp

/-- The state in which a completion is run: it is taken off the queue, and its position is free if it is the last. -/
def S.popped (s : S) (c : Cqe) (rest : List Cqe) : S :=
  if c.more then { s with cq := rest }
  else { ({ s with cq := rest } : S).setStage c.rid .gone with slots := upd s.slots c.ud.1 none }

theorem RInv.popped {s : S} (h : RInv s) {c : Cqe} {rest : List Cqe} (hc : s.cq = c :: rest) : RInv (s.popped c rest) := by
  unfold S.popped
  split
  · exact h.popMore hc (by assumption)
  · exact h.popLast hc (by simpa using ‹¬ c.more = true›)

/-- What a completion does. -/
def S.run (s1 : S) (q : R) (c : Cqe) (k : Nat) : Option S :=
  match q.kind with
  | .err w => some (s1.runErr w c.res)
  | .ent e => s1.runEnt e c k
  | .rmErr w _ => some (s1.emit (.cancelEnd w))
  | .rmEnt e t =>
    if c.res = .ealready then some { s1 with retry := s1.retry ++ [(e, t)] } else some (s1.emit (.delEnd e))
  | .other => some s1

theorem complete_eq {s : S} (h : RInv s) {k : Nat} {s2 : S} (e : s.complete k = some s2) :
    ∃ c rest q, s.cq = c :: rest ∧ s.slots c.ud.1 = some c.rid ∧ s.reqs[c.rid]? = some q ∧ q.ud = c.ud ∧
      q.stage ≠ .gone ∧ q.stage ≠ .queued ∧ (c.more = false → q.stage = .done) ∧ (s.popped c rest).run q c k = some s2 := by
  unfold S.complete at e
  cases hc : s.cq with
  | nil => simp [hc] at e
  | cons c rest =>
    obtain ⟨q, h1, h2, h3, h4, h5, h6⟩ := h.dispatch (c := c) (by rw [hc]; exact List.mem_cons_self)
    simp only [hc, h1, h2] at e
    exact ⟨c, rest, q, rfl, h1, h2, h3, h4, h5, h6, e⟩

theorem runEnt_cases {s1 s2 : S} {e : Nat} {c : Cqe} {k : Nat} (h : s1.runEnt e c k = some s2) :
    (s2 = { s1 with badE := true } ∧ ∀ x, s1.es[e]? = some x → x.freed = true) ∨
    ∃ x, s1.es[e]? = some x ∧ x.freed = false ∧
      ((∃ m, c.res = .ev m ∧ c.more = true ∧ s2 = s1.emit (.event e m)) ∨
       (∃ m, c.res = .ev m ∧ c.more = false ∧ s1.slots k = none ∧ s2 = (s1.emit (.event e m)).rearm e k x) ∨
       ((∀ m, c.res ≠ .ev m) ∧
         s2 = ({ (if c.res = .cancelled then s1 else s1.emit (.kfail e)) with
           es := s1.es.set e { x with freed := true } } : S).emit (.freedE e))) := by
  unfold S.runEnt at h
  cases hx : s1.es[e]? with
  | none => simp only [hx, Option.some.injEq] at h; exact .inl ⟨h.symm, by simp⟩
  | some x =>
    simp only [hx] at h
    cases hf : x.freed with
    | true => simp only [hf, if_true, Option.some.injEq] at h; exact .inl ⟨h.symm, by simp [hf]⟩
    | false =>
      simp only [hf, Bool.false_eq_true, if_false] at h
      refine .inr ⟨x, rfl, hf, ?_⟩
      cases hr : c.res with
      | ev m =>
        simp only [hr] at h
        cases hm : c.more with
        | true => simp only [hm, if_true, Option.some.injEq] at h; exact .inl ⟨m, rfl, rfl, h.symm⟩
        | false =>
          simp only [hm, Bool.false_eq_true, if_false] at h
          split at h
          · rename_i hk
            simp only [Option.some.injEq] at h
            exact .inr (.inl ⟨m, rfl, rfl, hk, h.symm⟩)
          · cases h
      | cancelled =>
        simp only [hr, if_true, Option.some.injEq] at h
        exact .inr (.inr ⟨by simp, by simpa using h.symm⟩)
      | _ =>
        simp only [hr, Option.some.injEq] at h
        refine .inr (.inr ⟨by simp, ?_⟩)
        rw [← h]; rfl

theorem RInv.step {s s2 : S} (h : RInv s) {a : Act} (e : s.step a = some s2) : RInv s2 := by
  cases a with
  | reg sock k =>
    simp only [S.step, S.reg] at e
    split at e
    · rename_i hk
      simp only [Option.some.injEq] at e; subst e
      exact ((h.congr rfl rfl rfl rfl).submitReq hk.2).congr rfl rfl rfl rfl
    · cases e
  | cancel sock k =>
    simp only [S.step, S.cancel] at e
    split at e
    · simp only [Option.some.injEq] at e; subst e; exact h
    · rename_i w _
      split at e
      · simp only [Option.some.injEq] at e; subst e; exact h.congr rfl rfl rfl rfl
      · split at e
        · simp only [Option.some.injEq] at e; subst e; exact h.congr rfl rfl rfl rfl
        · split at e
          · simp only [Option.some.injEq] at e; subst e
            exact ((RInv.congr (t := s.emit (.cancelStart w)) h rfl rfl rfl rfl).congr4 (destroy_ring _ _)).congr4 (unhold_ring _ _ _)
          · split at e
            · rename_i hk
              simp only [Option.some.injEq] at e; subst e
              exact (((RInv.congr (t := s.emit (.cancelStart w)) h rfl rfl rfl rfl).submitReq hk).congr4 (destroy_ring _ _)).congr4
                (unhold_ring _ _ _)
            · cases e
  | close sock =>
    simp only [S.step, S.close, Option.some.injEq] at e; subst e
    split
    · exact h
    · rename_i w _
      exact ((RInv.congr (t := s.emit (.closed w)) h rfl rfl rfl rfl).congr4 (destroy_ring _ _)).congr4 (unhold_ring _ _ _)
  | add k =>
    simp only [S.step, S.add] at e
    split at e
    · rename_i hk
      simp only [Option.some.injEq] at e; subst e
      exact ((h.congr rfl rfl rfl rfl).submitReq hk).congr rfl rfl rfl rfl
    · cases e
  | del x k =>
    simp only [S.step, S.del] at e
    split at e
    · cases e
    · split at e
      · cases e
      · split at e
        · simp only [Option.some.injEq] at e; subst e; exact h.congr rfl rfl rfl rfl
        · split at e
          · rename_i hk
            simp only [Option.some.injEq] at e; subst e
            exact ((h.congr rfl rfl rfl rfl).submitReq hk).congr rfl rfl rfl rfl
          · cases e
  | retry i k =>
    simp only [S.step] at e
    split at e
    · cases e
    · split at e
      · rename_i hk
        simp only [Option.some.injEq] at e; subst e
        exact RInv.submitReq (s := { s with retry := s.retry.eraseIdx i }) (h.congr rfl rfl rfl rfl) hk
      · cases e
  | other k =>
    simp only [S.step] at e
    split at e
    · rename_i hk
      simp only [Option.some.injEq] at e; subst e
      exact h.submitReq hk
    · cases e
  | submit =>
    simp only [S.step] at e
    cases hs : s.sq with
    | nil => simp [hs] at e
    | cons p rest =>
      simp only [hs] at e
      cases hq : s.reqs[p]? with
      | none => simp [hq] at e
      | some q =>
        simp only [hq] at e
        split at e
        · cases e
        · cases e
        · simp only [Option.some.injEq] at e; subst e; exact (h.take hs hq).2.2
  | removeHit r =>
    simp only [S.step] at e
    split at e
    · cases e
    · rename_i p q t s1 ht
      obtain ⟨rest, h1, h2, _, h3⟩ := takeRemove_some ht
      split at e
      · rename_i hw
        simp only [Option.some.injEq] at e; subst e
        obtain ⟨q', h4, h5, _⟩ := waitingB_iff.1 hw
        rw [h3]
        exact h.takeRmHit h1 h2 rfl rfl rfl h4 h5
      · cases e
  | removeBusy r =>
    simp only [S.step] at e
    split at e
    · cases e
    · rename_i p q t s1 ht
      obtain ⟨rest, h1, h2, _, h3⟩ := takeRemove_some ht
      split at e
      · simp only [Option.some.injEq] at e; subst e
        rw [h3]
        exact h.takeRm h1 h2 rfl rfl rfl
      · cases e
  | removeMiss =>
    simp only [S.step] at e
    split at e
    · cases e
    · rename_i p q t s1 ht
      obtain ⟨rest, h1, h2, _, h3⟩ := takeRemove_some ht
      split at e
      · simp only [Option.some.injEq] at e; subst e
        rw [h3]
        exact h.takeRm h1 h2 rfl rfl rfl
      · cases e
  | event r mask more =>
    simp only [S.step] at e
    split at e
    · cases e
    · rename_i q hr
      split at e
      · rename_i hq
        simp only [Option.some.injEq] at e; subst e
        cases more with
        | true => exact (h.postMore hr hq.1 rfl rfl rfl).congr rfl rfl rfl rfl
        | false =>
          refine (h.postLast (c := ⟨r, q.ud, .ev mask, false⟩) hr (.inl hq.1) rfl rfl rfl).congr ?_ rfl rfl rfl
          rfl
      · cases e
  | die r =>
    simp only [S.step] at e
    split at e
    · cases e
    · rename_i q hr
      split at e
      · rename_i hq
        simp only [Option.some.injEq] at e; subst e
        exact h.postLast hr (.inr hq) rfl rfl rfl
      · cases e
  | fail r =>
    simp only [S.step] at e
    split at e
    · cases e
    · rename_i q hr
      split at e
      · rename_i hq
        simp only [Option.some.injEq] at e; subst e
        exact h.postLast hr (.inl hq) rfl rfl rfl
      · cases e
  | complete k =>
    obtain ⟨c, rest, q, hc, _, _, _, _, _, _, e⟩ := complete_eq h e
    have hp := h.popped hc
    unfold S.run at e
    split at e
    · simp only [Option.some.injEq] at e; subst e
      exact hp.congr4 (runErr_ring _ _ _)
    · rcases runEnt_cases e with ⟨e, _⟩ | ⟨x, _, _, ⟨m, _, _, e⟩ | ⟨m, _, _, hk, e⟩ | ⟨_, e⟩⟩
      · subst e; exact hp.congr rfl rfl rfl rfl
      · subst e; exact hp.congr rfl rfl rfl rfl
      · subst e
        exact ((hp.congr rfl rfl rfl rfl).submitReq hk).congr rfl rfl rfl rfl
      · subst e
        split <;> exact hp.congr rfl rfl rfl rfl
    · simp only [Option.some.injEq] at e; subst e; exact hp.congr rfl rfl rfl rfl
    · split at e <;> simp only [Option.some.injEq] at e <;> subst e <;> exact hp.congr rfl rfl rfl rfl
    · simp only [Option.some.injEq] at e; subst e; exact hp

end Verif.UPoll
