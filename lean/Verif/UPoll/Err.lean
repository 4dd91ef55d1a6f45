import Verif.UPoll.Ring
/-! The error callback: the wrapper's fields follow from who still refers to it. -/
namespace Verif.UPoll
open Verif.Common

/-- `a` before `b` in the log is fine. -/
def RelW (a b : Ev) : Prop :=
  (∀ w m, b = .called w m → a ≠ .cancelStart w ∧ a ≠ .closed w ∧ ∀ m', a ≠ .called w m') ∧
  (∀ w, b = .freedW w → a ≠ .freedW w)

structure WInv (s : S) : Prop where
  w1 : ∀ (w : Nat) (x : W), s.ws[w]? = some x → ∃ q, s.reqs[x.rid]? = some q ∧ q.kind = .err w ∧ q.ud.2 = 0 ∧
    x.id = (if q.stage = .gone then none else some q.ud.1) ∧
    x.ref = (if x.held then 1 else 0) + (if q.stage = .gone then 0 else 1) ∧
    x.cb = (x.held && decide (q.stage ≠ .gone))
  w2 : ∀ (w : Nat) (x : W), s.ws[w]? = some x → x.held = true → s.socks x.sock = some w
  w3 : ∀ (k w : Nat), s.socks k = some w → ∃ x, s.ws[w]? = some x ∧ x.sock = k ∧ x.held = true
  w4 : ∀ (r : Nat) (q : R) (w : Nat), s.reqs[r]? = some q → q.kind = .err w → ∃ x, s.ws[w]? = some x ∧ x.rid = r
  w5 : ∀ (p : Nat) (q : R) (w : Nat) (t : Ud), s.reqs[p]? = some q → q.kind = .rmErr w t → ∃ x, s.ws[w]? = some x ∧ t.2 = 0 ∧
    (∀ qx : R, s.reqs[x.rid]? = some qx → qx.ud = t) ∧
    ∀ (r' : Nat) (q' : R), r' < p → s.reqs[r']? = some q' → q'.ud.1 = t.1 → r' = x.rid ∨ q'.stage = .gone
  l1 : ∀ w m : Nat, Ev.called w m ∈ s.log → ∃ x q, s.ws[w]? = some x ∧ s.reqs[x.rid]? = some q ∧ q.stage = .gone ∧
    Ev.kev x.rid m ∈ s.log
  l2 : ∀ w : Nat, Ev.cancelStart w ∈ s.log ∨ Ev.closed w ∈ s.log → ∃ x, s.ws[w]? = some x ∧ x.held = false
  l3 : ∀ w : Nat, Ev.freedW w ∈ s.log → ∃ x, s.ws[w]? = some x ∧ x.ref = 0
  l4 : s.log.Pairwise RelW
  l5 : ∀ c ∈ s.cq, ∀ m, c.res = .ev m → Ev.kev c.rid m ∈ s.log
  bw : s.badW = false
  bs : s.badSlot = false

theorem WInv.init : WInv S.init := by
  constructor <;> simp [S.init]

/-- Events that say nothing about wrappers. -/
def Tame : Ev → Bool
  | .called _ _ | .cancelStart _ | .closed _ | .freedW _ => false
  | _ => true

theorem relW_of_tame {a b : Ev} (h : Tame b = true) : RelW a b := by
  constructor
  · intro w m e; subst e; cases h
  · intro w e; subst e; cases h

theorem pairwise_append_tame {l evs : List Ev} (h : l.Pairwise RelW) (ht : ∀ e ∈ evs, Tame e = true) :
    (l ++ evs).Pairwise RelW := by
  rw [List.pairwise_append]
  refine ⟨h, ?_, fun a _ b hb => relW_of_tame (ht b hb)⟩
  induction evs with
  | nil => exact List.Pairwise.nil
  | cons e evs ih =>
    refine List.pairwise_cons.2 ⟨fun b hb => relW_of_tame (ht b (List.mem_cons_of_mem _ hb)), ih fun e he => ht e (List.mem_cons_of_mem _ he)⟩

/-- The requests of `t` are those of `s`, further on, and new ones. -/
structure Later (s t : S) : Prop where
  old : ∀ (r : Nat) (q : R), s.reqs[r]? = some q → ∃ q', t.reqs[r]? = some q' ∧ q'.ud = q.ud ∧ q'.kind = q.kind ∧
    (q.stage = .gone → q'.stage = .gone)
  new : ∀ (r : Nat) (q' : R), t.reqs[r]? = some q' → (∃ q, s.reqs[r]? = some q) ∨ s.reqs.length ≤ r

theorem Later.rfl' {s t : S} (h : t.reqs = s.reqs) : Later s t := by
  constructor
  · intro r q e; exact ⟨q, by rw [h]; exact e, rfl, rfl, id⟩
  · intro r q e; rw [h] at e; exact .inl ⟨q, e⟩

theorem Later.trans {s t u : S} (h1 : Later s t) (h2 : Later t u) : Later s u := by
  constructor
  · intro r q e
    obtain ⟨q', e', a, b, c⟩ := h1.old r q e
    obtain ⟨q2, e2, a2, b2, c2⟩ := h2.old r q' e'
    exact ⟨q2, e2, a2.trans a, b2.trans b, fun x => c2 (c x)⟩
  · intro r q e
    rcases h2.new r q e with ⟨q', e'⟩ | hr
    · exact h1.new r q' e'
    · refine Classical.byContradiction fun hn => ?_
      rw [not_or] at hn
      have : r < s.reqs.length := by omega
      exact hn.1 ⟨_, List.getElem?_eq_getElem this⟩

theorem Later.submitReq (s : S) (k tag : Nat) (kind : Kind) : Later s (s.submitReq k tag kind) := by
  constructor
  · intro r q e
    exact ⟨q, by simp only [S.submitReq]; rw [List.getElem?_append_left (lt_of_get e)]; exact e, rfl, rfl, id⟩
  · intro r q e
    by_cases hr : r < s.reqs.length
    · exact .inl ⟨_, List.getElem?_eq_getElem hr⟩
    · exact .inr (by omega)

theorem Later.setStage {s : S} {p : Nat} {st : Stage} {q : R} (hp : s.reqs[p]? = some q) (hq : q.stage = .gone → st = .gone) :
    Later s (s.setStage p st) := by
  constructor
  · intro r q' e
    rw [setStage_get]
    by_cases hr : r = p
    · subst hr
      rw [hp] at e; cases e
      exact ⟨{ q with stage := st }, by simp [hp], rfl, rfl, hq⟩
    · exact ⟨q', by rw [if_neg hr]; exact e, rfl, rfl, id⟩
  · intro r q' e
    rw [setStage_get] at e
    by_cases hr : r = p
    · exact .inl ⟨q, by rw [hr]; exact hp⟩
    · rw [if_neg hr] at e; exact .inl ⟨q', e⟩

/-- The polls of error callbacks have not ended. -/
def SameErr (s t : S) : Prop :=
  ∀ (r : Nat) (q q' : R), s.reqs[r]? = some q → t.reqs[r]? = some q' → ∀ w, q.kind = .err w → q'.stage = .gone → q.stage = .gone

/-- Nothing happens to wrappers. -/
theorem WInv.frame {s t : S} (h : WInv s) (hws : t.ws = s.ws) (hso : t.socks = s.socks) (hr : Later s t) (he : SameErr s t)
    (hn : ∀ (r : Nat) (q' : R), s.reqs.length ≤ r → t.reqs[r]? = some q' → ∀ w, q'.kind ≠ .err w ∧ ∀ u, q'.kind ≠ .rmErr w u)
    (hl : ∃ evs, t.log = s.log ++ evs ∧ ∀ ev ∈ evs, Tame ev = true)
    (hc : ∀ c ∈ t.cq, ∀ m, c.res = .ev m → Ev.kev c.rid m ∈ t.log)
    (b1 : t.badW = s.badW) (b2 : t.badSlot = s.badSlot) : WInv t := by
  obtain ⟨evs, hlog, hev⟩ := hl
  have sub : ∀ {e}, e ∈ s.log → e ∈ t.log := fun h => by rw [hlog]; exact List.mem_append_left _ h
  have back : ∀ {e}, Tame e = false → e ∈ t.log → e ∈ s.log := by
    intro e hf hm
    rw [hlog] at hm
    rcases List.mem_append.1 hm with hm | hm
    · exact hm
    · rw [hev e hm] at hf; cases hf
  refine ⟨?_, ?_, ?_, ?_, ?_, ?_, ?_, ?_, ?_, hc, by rw [b1]; exact h.bw, by rw [b2]; exact h.bs⟩
  · intro w x hx
    rw [hws] at hx
    obtain ⟨q, e, hk, hu, h1, h2, h3⟩ := h.w1 w x hx
    obtain ⟨q', e', hu', hk', hg'⟩ := hr.old _ _ e
    have hg : q'.stage = .gone ↔ q.stage = .gone := ⟨he _ _ _ e e' w hk, hg'⟩
    refine ⟨q', e', by rw [hk', hk], by rw [hu', hu], ?_, ?_, ?_⟩
    · simp only [hg, hu']; exact h1
    · simp only [hg]; exact h2
    · simp only [ne_eq, hg]; exact h3
  · intro w x hx hh; rw [hws] at hx; rw [hso]; exact h.w2 w x hx hh
  · intro k w hk; rw [hso] at hk; rw [hws]; exact h.w3 k w hk
  · intro r q' w e hk
    rw [hws]
    rcases hr.new r q' e with ⟨q, e0⟩ | hn'
    · obtain ⟨q2, e2, _, hk2, _⟩ := hr.old r q e0
      rw [e] at e2; cases e2
      exact h.w4 r q w e0 (by rw [← hk2, hk])
    · exact absurd hk (hn r q' hn' e w).1
  · intro p q' w u e hk
    rw [hws]
    rcases hr.new p q' e with ⟨q, e0⟩ | hn'
    · obtain ⟨q2, e2, _, hk2, _⟩ := hr.old p q e0
      rw [e] at e2; cases e2
      obtain ⟨x, hx, ht, h1, h2⟩ := h.w5 p q w u e0 (by rw [← hk2, hk])
      refine ⟨x, hx, ht, fun qx ex => ?_, fun r' q3 hlt e3 hu3 => ?_⟩
      · obtain ⟨q0, e0', _⟩ := h.w1 w x hx
        obtain ⟨q4, e4, hu4, _⟩ := hr.old _ _ e0'
        rw [ex] at e4; cases e4
        rw [hu4]; exact h1 _ e0'
      · rcases hr.new r' q3 e3 with ⟨q0, e0'⟩ | hn3
        · obtain ⟨q4, e4, hu4, _, hg4⟩ := hr.old _ _ e0'
          rw [e3] at e4; cases e4
          rcases h2 r' q0 hlt e0' (by rw [← hu4]; exact hu3) with h5 | h5
          · exact .inl h5
          · exact .inr (hg4 h5)
        · have := lt_of_get e0; omega
    · exact absurd hk ((hn p q' hn' e w).2 u)
  · intro w m hm
    obtain ⟨x, q, hx, e, hg, hk⟩ := h.l1 w m (back rfl hm)
    obtain ⟨q', e', _, _, hg'⟩ := hr.old _ _ e
    exact ⟨x, q', by rw [hws]; exact hx, e', hg' hg, sub hk⟩
  · intro w hm
    rw [hws]
    exact h.l2 w (hm.imp (back rfl) (back rfl))
  · intro w hm
    rw [hws]
    exact h.l3 w (back rfl hm)
  · rw [hlog]; exact pairwise_append_tame h.l4 hev

/-! ### Release by the socket -/

/-- The wrapper when the socket lets go. -/
def W.release (x : W) : W := { x with cb := false, ref := x.ref - 1, held := false }

theorem release_eq {s : S} {w sock : Nat} {x : W} (hx : s.ws[w]? = some x) (hr : x.ref ≠ 0) :
    (s.destroy w).unhold sock w =
      { s with ws := s.ws.set w x.release, socks := upd s.socks sock none,
               log := s.log ++ (if x.ref = 1 then [Ev.freedW w] else []) } := by
  have hlt := lt_of_get hx
  unfold S.destroy S.unhold
  simp only [hx, if_neg hr]
  by_cases h1 : x.ref = 1
  · simp [h1, S.emit, List.getElem?_set_self hlt, W.release]
  · simp [h1, List.getElem?_set_self hlt, W.release]

theorem get_set_w {ws : List W} {w v : Nat} {x y : W} (hx : ws[w]? = some x) :
    (ws.set w y)[v]? = if v = w then some y else ws[v]? := by
  by_cases h : v = w
  · subst h; rw [List.getElem?_set_self (lt_of_get hx), if_pos rfl]
  · rw [if_neg h, List.getElem?_set_ne (fun e => h e.symm)]

/-- The socket of wrapper `w` lets go; `start` says why. -/
theorem WInv.release {s t : S} (h : WInv s) {w sock : Nat} (hk : s.socks sock = some w) {x : W} (hx : s.ws[w]? = some x)
    {start : Ev} (hst : start = .cancelStart w ∨ start = .closed w)
    (hr : Later s t) (he : ∀ (r : Nat) (q q' : R), s.reqs[r]? = some q → t.reqs[r]? = some q' → q'.stage = .gone → q.stage = .gone)
    (hn : ∀ (r : Nat) (q' : R), s.reqs.length ≤ r → t.reqs[r]? = some q' → (∀ v, q'.kind ≠ .err v) ∧
      ∀ v u, q'.kind = .rmErr v u → v = w ∧ u.2 = 0 ∧ (∀ qx : R, t.reqs[x.rid]? = some qx → qx.ud = u) ∧
        ∀ (r' : Nat) (q2 : R), r' < r → t.reqs[r']? = some q2 → q2.ud.1 = u.1 → r' = x.rid ∨ q2.stage = .gone)
    (hws : t.ws = s.ws.set w x.release) (hso : t.socks = upd s.socks sock none)
    (hlog : t.log = s.log ++ (start :: if x.ref = 1 then [Ev.freedW w] else []))
    (hcq : t.cq = s.cq) (b1 : t.badW = s.badW) (b2 : t.badSlot = s.badSlot) : WInv t := by
  have sub : ∀ {e}, e ∈ s.log → e ∈ t.log := fun h => by rw [hlog]; exact List.mem_append_left _ h
  have nsf : ∀ v, start ≠ .freedW v := by rintro v e; rcases hst with h | h <;> rw [h] at e <;> cases e
  have nsc : ∀ v m, start ≠ .called v m := by rintro v m e; rcases hst with h | h <;> rw [h] at e <;> cases e
  obtain ⟨x', hx', hsock, hheld⟩ := h.w3 _ _ hk
  rw [hx] at hx'; cases hx'
  have gw := fun v => get_set_w (v := v) (y := x.release) hx
  obtain ⟨q, eq, hkq, huq, h1, h2, h3⟩ := h.w1 w x hx
  have back : ∀ {v m}, Ev.called v m ∈ t.log → Ev.called v m ∈ s.log := by
    intro v m hm
    rw [hlog] at hm
    rcases List.mem_append.1 hm with hm | hm
    · exact hm
    · rcases List.mem_cons.1 hm with hm | hm
      · exact absurd hm.symm (nsc v m)
      · split at hm <;> simp at hm
  refine ⟨?_, ?_, ?_, ?_, ?_, ?_, ?_, ?_, ?_, ?_, by rw [b1]; exact h.bw, by rw [b2]; exact h.bs⟩
  · intro v y hy
    rw [hws, gw] at hy
    by_cases hv : v = w
    · subst hv
      simp only [if_true, Option.some.injEq] at hy; subst hy
      obtain ⟨q', e', hu', hk', hg'⟩ := hr.old _ _ eq
      have hg : q'.stage = .gone ↔ q.stage = .gone := ⟨he _ _ _ eq e', hg'⟩
      refine ⟨q', e', by rw [hk', hkq], by rw [hu', huq], ?_, ?_, ?_⟩
      · simp only [W.release, hg, hu']; exact h1
      · simp only [W.release, hg]
        rw [hheld] at h2; simp at h2 ⊢; omega
      · simp [W.release]
    · rw [if_neg hv] at hy
      obtain ⟨q0, e0, hk0, hu0, a1, a2, a3⟩ := h.w1 v y hy
      obtain ⟨q', e', hu', hk', hg'⟩ := hr.old _ _ e0
      have hg : q'.stage = .gone ↔ q0.stage = .gone := ⟨he _ _ _ e0 e', hg'⟩
      refine ⟨q', e', by rw [hk', hk0], by rw [hu', hu0], ?_, ?_, ?_⟩
      · simp only [hg, hu']; exact a1
      · simp only [hg]; exact a2
      · simp only [ne_eq, hg]; exact a3
  · intro v y hy hh
    rw [hws, gw] at hy
    by_cases hv : v = w
    · subst hv
      simp only [if_true, Option.some.injEq] at hy; subst hy
      cases hh
    · rw [if_neg hv] at hy
      have := h.w2 v y hy hh
      rw [hso, upd_ne]
      · exact this
      · intro e; rw [e, hk] at this; exact hv (by injection this with this; exact this.symm)
  · intro k v hkv
    rw [hso] at hkv
    by_cases hks : k = sock
    · subst hks; simp at hkv
    · rw [upd_ne _ _ hks] at hkv
      obtain ⟨y, hy, hy1, hy2⟩ := h.w3 k v hkv
      have hv : v ≠ w := by
        intro e; subst e; rw [hx] at hy; cases hy
        exact hks (by rw [← hy1, hsock])
      exact ⟨y, by rw [hws, gw, if_neg hv]; exact hy, hy1, hy2⟩
  · intro r q' v e hkv
    rcases hr.new r q' e with ⟨q0, e0⟩ | hn'
    · obtain ⟨q2, e2, _, hk2, _⟩ := hr.old r q0 e0
      rw [e] at e2; cases e2
      obtain ⟨y, hy, hyr⟩ := h.w4 r q0 v e0 (by rw [← hk2, hkv])
      rw [hws, gw]
      by_cases hv : v = w
      · subst hv; rw [hx] at hy; cases hy
        exact ⟨x.release, by simp, hyr⟩
      · exact ⟨y, by rw [if_neg hv]; exact hy, hyr⟩
    · exact absurd hkv ((hn r q' hn' e).1 v)
  · intro p q' v u e hkv
    rcases hr.new p q' e with ⟨q0, e0⟩ | hn'
    · obtain ⟨q2, e2, _, hk2, _⟩ := hr.old p q0 e0
      rw [e] at e2; cases e2
      obtain ⟨y, hy, ht, a1, a2⟩ := h.w5 p q0 v u e0 (by rw [← hk2, hkv])
      have hrid : ∃ y', t.ws[v]? = some y' ∧ y'.rid = y.rid := by
        rw [hws, gw]
        by_cases hv : v = w
        · subst hv; rw [hx] at hy; cases hy
          exact ⟨x.release, by simp, rfl⟩
        · exact ⟨y, by rw [if_neg hv]; exact hy, rfl⟩
      obtain ⟨y', hy', hyr⟩ := hrid
      refine ⟨y', hy', ht, fun qx ex => ?_, fun r' q3 hlt e3 hu3 => ?_⟩
      · obtain ⟨q5, e5, _⟩ := h.w1 v y hy
        obtain ⟨q4, e4, hu4, _⟩ := hr.old _ _ e5
        rw [hyr, e4] at ex; cases ex
        rw [hu4]; exact a1 _ e5
      · rw [hyr]
        rcases hr.new r' q3 e3 with ⟨q5, e5⟩ | hn3
        · obtain ⟨q4, e4, hu4, _, hg4⟩ := hr.old _ _ e5
          rw [e3] at e4; cases e4
          rcases a2 r' q5 hlt e5 (by rw [← hu4]; exact hu3) with h5 | h5
          · exact .inl h5
          · exact .inr (hg4 h5)
        · have := lt_of_get e0; omega
    · obtain ⟨hv, hu, a1, a2⟩ := (hn p q' hn' e).2 v u hkv
      subst hv
      exact ⟨x.release, by rw [hws, gw]; simp, hu, a1, a2⟩
  · intro v m hm
    obtain ⟨y, q0, hy, e0, hg, hk0⟩ := h.l1 v m (back hm)
    obtain ⟨q', e', _, _, hg'⟩ := hr.old _ _ e0
    rw [hws, gw]
    by_cases hv : v = w
    · subst hv; rw [hx] at hy; cases hy
      exact ⟨x.release, q', by simp, e', hg' hg, sub hk0⟩
    · exact ⟨y, q', by rw [if_neg hv]; exact hy, e', hg' hg, sub hk0⟩
  · intro v hm
    rw [hws, gw]
    by_cases hv : v = w
    · subst hv; exact ⟨x.release, by simp, rfl⟩
    · rw [if_neg hv]
      refine h.l2 v (hm.imp (fun hm => ?_) (fun hm => ?_)) <;>
      · rw [hlog] at hm
        rcases List.mem_append.1 hm with hm | hm
        · exact hm
        · rcases List.mem_cons.1 hm with hm | hm
          · rcases hst with e | e <;> rw [e] at hm <;> cases hm <;> exact absurd rfl hv
          · split at hm <;> simp at hm
  · intro v hm
    rw [hws, gw]
    rw [hlog] at hm
    rcases List.mem_append.1 hm with hm | hm
    · obtain ⟨y, hy, hy0⟩ := h.l3 v hm
      by_cases hv : v = w
      · subst hv; rw [hx] at hy; cases hy
        exact ⟨x.release, by simp, by simp [W.release, hy0]⟩
      · exact ⟨y, by rw [if_neg hv]; exact hy, hy0⟩
    · rcases List.mem_cons.1 hm with hm | hm
      · exact absurd hm.symm (nsf v)
      · split at hm
        · rename_i hr1
          simp only [List.mem_singleton, Ev.freedW.injEq] at hm
          subst hm
          exact ⟨x.release, by simp, by simp [W.release, hr1]⟩
        · simp at hm
  · rw [hlog, List.pairwise_append]
    refine ⟨h.l4, ?_, fun a ha b hb => ?_⟩
    · refine List.pairwise_cons.2 ⟨fun b hb => ?_, ?_⟩
      · split at hb
        · simp only [List.mem_singleton] at hb; subst hb
          exact ⟨fun _ _ e => (by cases e), fun v _ => nsf v⟩
        · simp at hb
      · split
        · exact List.pairwise_singleton _ _
        · exact List.Pairwise.nil
    · rcases List.mem_cons.1 hb with hb | hb
      · exact ⟨fun v m e => absurd (hb ▸ e) (nsc v m), fun v e => absurd (hb ▸ e) (nsf v)⟩
      · split at hb
        · rename_i hr1
          simp only [List.mem_singleton] at hb; subst hb
          refine ⟨fun _ _ e => (by cases e), fun v e ha' => ?_⟩
          cases e
          subst ha'
          obtain ⟨y, hy, hy0⟩ := h.l3 w ha
          rw [hx] at hy; cases hy
          omega
        · simp at hb
  · intro c hc m hm
    rw [hcq] at hc
    exact sub (h.l5 c hc m hm)

/-! ### The end of the poll -/

def W.finish (x : W) : W := { x with id := none, cb := false, ref := x.ref - 1 }

/-- The call, if there is one. -/
def callEv (w : Nat) (cb : Bool) : Res → List Ev
  | .ev m => if cb then [.called w m] else []
  | _ => []

theorem runErr_eq {s : S} {w : Nat} {res : Res} {x : W} (hx : s.ws[w]? = some x) (hr : x.ref ≠ 0) :
    s.runErr w res =
      { s with ws := s.ws.set w x.finish,
               log := s.log ++ ((if x.ref = 1 then [Ev.freedW w] else []) ++
                 callEv w x.cb res) } := by
  have hlt := lt_of_get hx
  unfold S.runErr S.destroy
  simp only [hx, if_neg hr, List.getElem?_set_self hlt, W.finish]
  by_cases h1 : x.ref = 1 <;> cases res <;> simp [h1, S.emit, callEv]
  all_goals split <;> simp

/-- The poll of wrapper `w` has ended. -/
theorem WInv.finish {s t : S} (h : WInv s) {w : Nat} {x : W} (hx : s.ws[w]? = some x) {q : R} (hq : s.reqs[x.rid]? = some q)
    (ng : q.stage ≠ .gone) {res : Res} (hres : ∀ m, res = .ev m → Ev.kev x.rid m ∈ s.log)
    (hr : Later s t) (hg : ∀ (r : Nat) (q1 q' : R), s.reqs[r]? = some q1 → t.reqs[r]? = some q' →
      (q'.stage = .gone ↔ q1.stage = .gone ∨ r = x.rid))
    (hn : ∀ (r : Nat) (q' : R), s.reqs.length ≤ r → t.reqs[r]? ≠ some q')
    (hws : t.ws = s.ws.set w x.finish) (hso : t.socks = s.socks)
    (hlog : t.log = s.log ++ ((if x.ref = 1 then [Ev.freedW w] else []) ++
                 callEv w x.cb res))
    (hcq : ∀ c ∈ t.cq, c ∈ s.cq) (b1 : t.badW = s.badW) (b2 : t.badSlot = s.badSlot) : WInv t := by
  have sub : ∀ {e}, e ∈ s.log → e ∈ t.log := fun h => by rw [hlog]; exact List.mem_append_left _ h
  have gw := fun v => get_set_w (v := v) (y := x.finish) hx
  obtain ⟨q0, e0, hkq, huq, h1, h2, h3⟩ := h.w1 w x hx
  rw [hq] at e0; cases e0
  have hne : ∀ (v : Nat) (y : W), s.ws[v]? = some y → v ≠ w → y.rid ≠ x.rid := by
    intro v y hy hv e
    obtain ⟨q1, e1, hk1, _⟩ := h.w1 v y hy
    rw [e, hq] at e1; cases e1
    rw [hkq] at hk1; cases hk1; exact hv rfl
  have memlog : ∀ e, e ∈ t.log → e ∈ s.log ∨ (e = .freedW w ∧ x.ref = 1) ∨ (∃ m, e = .called w m ∧ res = .ev m ∧ x.cb = true) := by
    intro e he
    rw [hlog] at he
    rcases List.mem_append.1 he with he | he
    · exact .inl he
    · rcases List.mem_append.1 he with he | he
      · split at he
        · rename_i hx1; simp only [List.mem_singleton] at he; exact .inr (.inl ⟨he, hx1⟩)
        · simp at he
      · unfold callEv at he
        split at he
        · split at he
          · rename_i hcb; simp only [List.mem_singleton] at he; exact .inr (.inr ⟨_, he, rfl, hcb⟩)
          · simp at he
        · simp at he
  have hqt : ∃ q', t.reqs[x.rid]? = some q' ∧ q'.ud = q.ud ∧ q'.kind = q.kind ∧ q'.stage = .gone := by
    obtain ⟨q', e', hu', hk', _⟩ := hr.old _ _ hq
    exact ⟨q', e', hu', hk', (hg _ _ _ hq e').2 (.inr rfl)⟩
  refine ⟨?_, ?_, ?_, ?_, ?_, ?_, ?_, ?_, ?_, ?_, by rw [b1]; exact h.bw, by rw [b2]; exact h.bs⟩
  · intro v y hy
    rw [hws, gw] at hy
    by_cases hv : v = w
    · subst hv
      simp only [if_true, Option.some.injEq] at hy; subst hy
      obtain ⟨q', e', hu', hk', hg'⟩ := hqt
      refine ⟨q', e', by rw [hk', hkq], by rw [hu', huq], ?_, ?_, ?_⟩
      · simp [W.finish, hg']
      · simp only [W.finish, hg', if_true]
        rw [if_neg ng] at h2
        by_cases hh : x.held = true <;> simp [hh] at h2 ⊢ <;> omega
      · simp [W.finish, hg']
    · rw [if_neg hv] at hy
      obtain ⟨q1, e1, hk0, hu0, a1, a2, a3⟩ := h.w1 v y hy
      obtain ⟨q', e', hu', hk', _⟩ := hr.old _ _ e1
      have hg2 : q'.stage = .gone ↔ q1.stage = .gone := by
        rw [hg _ _ _ e1 e']
        exact or_iff_left (hne v y hy hv)
      refine ⟨q', e', by rw [hk', hk0], by rw [hu', hu0], ?_, ?_, ?_⟩
      · simp only [hg2, hu']; exact a1
      · simp only [hg2]; exact a2
      · simp only [ne_eq, hg2]; exact a3
  · intro v y hy hh
    rw [hws, gw] at hy
    rw [hso]
    by_cases hv : v = w
    · subst hv
      simp only [if_true, Option.some.injEq] at hy; subst hy
      exact h.w2 v x hx hh
    · rw [if_neg hv] at hy
      exact h.w2 v y hy hh
  · intro k v hkv
    rw [hso] at hkv
    obtain ⟨y, hy, hy1, hy2⟩ := h.w3 k v hkv
    rw [hws, gw]
    by_cases hv : v = w
    · subst hv; rw [hx] at hy; cases hy
      exact ⟨x.finish, by simp, hy1, hy2⟩
    · exact ⟨y, by rw [if_neg hv]; exact hy, hy1, hy2⟩
  · intro r q' v e hkv
    rcases hr.new r q' e with ⟨q0, e0⟩ | hn'
    · obtain ⟨q2, e2, _, hk2, _⟩ := hr.old r q0 e0
      rw [e] at e2; cases e2
      obtain ⟨y, hy, hyr⟩ := h.w4 r q0 v e0 (by rw [← hk2, hkv])
      rw [hws, gw]
      by_cases hv : v = w
      · subst hv; rw [hx] at hy; cases hy
        exact ⟨x.finish, by simp, hyr⟩
      · exact ⟨y, by rw [if_neg hv]; exact hy, hyr⟩
    · exact absurd e (hn r q' hn')
  · intro p q' v u e hkv
    rcases hr.new p q' e with ⟨q0, e0⟩ | hn'
    · obtain ⟨q2, e2, _, hk2, _⟩ := hr.old p q0 e0
      rw [e] at e2; cases e2
      obtain ⟨y, hy, ht, a1, a2⟩ := h.w5 p q0 v u e0 (by rw [← hk2, hkv])
      have hrid : ∃ y', t.ws[v]? = some y' ∧ y'.rid = y.rid := by
        rw [hws, gw]
        by_cases hv : v = w
        · subst hv; rw [hx] at hy; cases hy
          exact ⟨x.finish, by simp, rfl⟩
        · exact ⟨y, by rw [if_neg hv]; exact hy, rfl⟩
      obtain ⟨y', hy', hyr⟩ := hrid
      refine ⟨y', hy', ht, fun qx ex => ?_, fun r' q3 hlt e3 hu3 => ?_⟩
      · obtain ⟨q5, e5, _⟩ := h.w1 v y hy
        obtain ⟨q4, e4, hu4, _⟩ := hr.old _ _ e5
        rw [hyr, e4] at ex; cases ex
        rw [hu4]; exact a1 _ e5
      · rw [hyr]
        rcases hr.new r' q3 e3 with ⟨q5, e5⟩ | hn3
        · obtain ⟨q4, e4, hu4, _, hg4⟩ := hr.old _ _ e5
          rw [e3] at e4; cases e4
          rcases a2 r' q5 hlt e5 (by rw [← hu4]; exact hu3) with h5 | h5
          · exact .inl h5
          · exact .inr (hg4 h5)
        · have := lt_of_get e0; omega
    · exact absurd e (hn p q' hn')
  · intro v m hm
    rcases memlog _ hm with hm | ⟨hm, _⟩ | ⟨m', hm, hres', _⟩
    · obtain ⟨y, q0, hy, e0, hg0, hk0⟩ := h.l1 v m hm
      obtain ⟨q', e', _, _, hg'⟩ := hr.old _ _ e0
      rw [hws, gw]
      by_cases hv : v = w
      · subst hv; rw [hx] at hy; cases hy
        exact ⟨x.finish, q', by simp, e', hg' hg0, sub hk0⟩
      · exact ⟨y, q', by rw [if_neg hv]; exact hy, e', hg' hg0, sub hk0⟩
    · cases hm
    · cases hm
      obtain ⟨q', e', _, _, hg'⟩ := hqt
      exact ⟨x.finish, q', by rw [hws, gw]; simp, e', hg', sub (hres _ hres')⟩
  · intro v hm
    have : Ev.cancelStart v ∈ s.log ∨ Ev.closed v ∈ s.log := by
      refine hm.imp (fun hm => ?_) (fun hm => ?_) <;>
      · rcases memlog _ hm with hm | ⟨hm, _⟩ | ⟨m', hm, _⟩
        · exact hm
        · cases hm
        · cases hm
    obtain ⟨y, hy, hyh⟩ := h.l2 v this
    rw [hws, gw]
    by_cases hv : v = w
    · subst hv; rw [hx] at hy; cases hy
      exact ⟨x.finish, by simp, hyh⟩
    · exact ⟨y, by rw [if_neg hv]; exact hy, hyh⟩
  · intro v hm
    rw [hws, gw]
    rcases memlog _ hm with hm | ⟨hm, hr1⟩ | ⟨m', hm, _⟩
    · obtain ⟨y, hy, hy0⟩ := h.l3 v hm
      by_cases hv : v = w
      · subst hv; rw [hx] at hy; cases hy
        exact ⟨x.finish, by simp, by simp [W.finish, hy0]⟩
      · exact ⟨y, by rw [if_neg hv]; exact hy, hy0⟩
    · cases hm
      exact ⟨x.finish, by simp, by simp [W.finish, hr1]⟩
    · cases hm
  · rw [hlog, List.pairwise_append]
    refine ⟨h.l4, ?_, fun a ha b hb => ?_⟩
    · rw [List.pairwise_append]
      refine ⟨?_, ?_, fun a ha b hb => ?_⟩
      · split
        · exact List.pairwise_singleton _ _
        · exact List.Pairwise.nil
      · unfold callEv
        split
        · split
          · exact List.pairwise_singleton _ _
          · exact List.Pairwise.nil
        · exact List.Pairwise.nil
      · unfold callEv at hb
        split at hb
        · split at hb
          · simp only [List.mem_singleton] at hb; subst hb
            split at ha
            · simp only [List.mem_singleton] at ha; subst ha
              exact ⟨fun _ _ _ => ⟨by simp, by simp, by simp⟩, fun _ e => (by cases e)⟩
            · simp at ha
          · simp at hb
        · simp at hb
    · rcases List.mem_append.1 hb with hb | hb
      · split at hb
        · rename_i hr1
          simp only [List.mem_singleton] at hb; subst hb
          refine ⟨fun _ _ e => (by cases e), fun v e ha' => ?_⟩
          cases e
          subst ha'
          obtain ⟨y, hy, hy0⟩ := h.l3 w ha
          rw [hx] at hy; cases hy
          omega
        · simp at hb
      · unfold callEv at hb
        split at hb
        · split at hb
          · rename_i hcb
            simp only [List.mem_singleton] at hb; subst hb
            refine ⟨fun v m e => ?_, fun _ e => (by cases e)⟩
            cases e
            have hheld : x.held = true := by
              rw [hcb] at h3; simp at h3; exact h3.1
            refine ⟨fun ha' => ?_, fun ha' => ?_, fun m' ha' => ?_⟩
            · subst ha'
              obtain ⟨y, hy, hyh⟩ := h.l2 w (.inl ha)
              rw [hx] at hy; cases hy
              rw [hheld] at hyh; cases hyh
            · subst ha'
              obtain ⟨y, hy, hyh⟩ := h.l2 w (.inr ha)
              rw [hx] at hy; cases hy
              rw [hheld] at hyh; cases hyh
            · subst ha'
              obtain ⟨y, q1, hy, e1, hg1, _⟩ := h.l1 w m' ha
              rw [hx] at hy; cases hy
              rw [hq] at e1; cases e1
              exact ng hg1
          · simp at hb
        · simp at hb
  · intro c hc m hm
    exact sub (h.l5 c (hcq c hc) m hm)

end Verif.UPoll
