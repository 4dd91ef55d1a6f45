import Verif.UPoll.Tags
/-! The epoll entries. -/
namespace Verif.UPoll
open Verif.Common

/-- The kernel failed the poll of `e`, or it was armed again after `EpollDel` began. -/
def Lost (l : List Ev) (e : Nat) : Prop := Ev.kfail e ∈ l ∨ ∃ a b, l = a ++ Ev.rearm e :: b ∧ Ev.delStart e ∈ a

theorem Lost.mono {l : List Ev} {e : Nat} (h : Lost l e) (evs : List Ev) : Lost (l ++ evs) e := by
  rcases h with h | ⟨a, b, rfl, h⟩
  · exact .inl (List.mem_append_left _ h)
  · exact .inr ⟨a, b ++ evs, by simp, h⟩

/-- The poll `r` reports nothing any more, except that it is cancelled. -/
def Dead (s : S) (r : Nat) : Prop := ∃ q, s.reqs[r]? = some q ∧
  (q.stage = .dying ∨ q.stage = .gone ∨ q.stage = .done ∧ ∃ a ∈ s.cq, a.rid = r ∧ a.more = false ∧ a.res = .cancelled)

def NoEv (l : List Cqe) (r : Nat) : Prop := ∀ a ∈ l, a.rid = r → ∀ m, a.res ≠ .ev m

/-- The removal of entry `e` with user data `t` by request `p` (or a later one). -/
def RmOk (s : S) (p e : Nat) (t : Ud) : Prop := ∃ x : E, s.es[e]? = some x ∧ x.del = true ∧ Ev.delStart e ∈ s.log ∧
  (∃ (r : Nat) (q : R), s.reqs[r]? = some q ∧ q.kind = .ent e ∧ q.ud = t ∧ r < p) ∧ (t = x.ud ∨ Lost s.log e)

def RelE (a b : Ev) : Prop :=
  (∀ e m, b = .event e m → a ≠ .freedE e) ∧ (∀ e, b = .freedE e → a ≠ .freedE e)

/-- A completion that ended a poll of `x` otherwise than by removal. -/
def Ended (l : List Cqe) (r : Nat) : Prop := ∃ a ∈ l, a.rid = r ∧ a.more = false ∧ a.res ≠ .cancelled

structure EInv (s : S) : Prop where
  e1 : ∀ (e : Nat) (x : E), s.es[e]? = some x → ∃ q, s.reqs[x.rid]? = some q ∧ q.kind = .ent e ∧ q.ud = x.ud ∧
    (x.freed = true ↔ q.stage = .gone)
  e2 : ∀ (r : Nat) (q : R) (e : Nat), s.reqs[r]? = some q → q.kind = .ent e → ∃ x : E, s.es[e]? = some x ∧
    (x.rid = r ∨ q.stage = .gone)
  e3 : ∀ (r : Nat) (q : R) (e : Nat), s.reqs[r]? = some q → q.kind = .ent e →
    (q.stage = .dying ∨ ∃ c ∈ s.cq, c.rid = r ∧ c.res = .cancelled) → ∃ x : E, s.es[e]? = some x ∧ x.del = true
  e4 : ∀ (e : Nat) (x : E), s.es[e]? = some x → x.freed = true → x.del = true ∨ Ev.kfail e ∈ s.log
  e5 : ∀ (e : Nat), Ev.delStart e ∈ s.log → ∃ x : E, s.es[e]? = some x ∧ x.del = true
  e5' : ∀ (e : Nat) (x : E), s.es[e]? = some x → x.del = true → x.freed = true ∨ Ev.delStart e ∈ s.log
  e6 : ∀ (p : Nat) (q : R) (e : Nat) (t : Ud), s.reqs[p]? = some q → q.kind = .rmEnt e t → RmOk s p e t
  e6' : ∀ y ∈ s.retry, RmOk s s.reqs.length y.1 y.2
  e7 : ∀ l1 c l2, s.cq = l1 ++ c :: l2 → ∀ (q : R) (e : Nat) (t : Ud), s.reqs[c.rid]? = some q → q.kind = .rmEnt e t →
    c.res ≠ .ealready → Lost s.log e ∨ ∃ x : E, s.es[e]? = some x ∧ (Dead s x.rid ∧ NoEv l2 x.rid ∨ Ended l1 x.rid)
  e8 : ∀ (e : Nat), Ev.delEnd e ∈ s.log → Ev.delStart e ∈ s.log ∧
    (Lost s.log e ∨ ∃ x : E, s.es[e]? = some x ∧ Dead s x.rid ∧ NoEv s.cq x.rid)
  e9 : ∀ e : Nat, ¬ Lost s.log e → s.log.Pairwise (fun a b => a = .delEnd e → ∀ m, b ≠ .event e m)
  e10 : s.badE = true → ∃ e, Ev.kfail e ∈ s.log
  e11 : ∀ e m : Nat, Ev.event e m ∈ s.log → ∃ (r : Nat) (q : R), s.reqs[r]? = some q ∧ q.kind = .ent e ∧ Ev.kev r m ∈ s.log
  e12 : s.log.Pairwise RelE
  e13 : ∀ e : Nat, Ev.freedE e ∈ s.log → ∃ x : E, s.es[e]? = some x ∧ x.freed = true

theorem EInv.init : EInv S.init := by
  constructor <;> simp [S.init]

/-- Events that entries do not cause, except that `EpollDel` begins. -/
def Calm : Ev → Bool
  | .delEnd _ | .event _ _ | .rearm _ | .kfail _ | .freedE _ => false
  | _ => true

theorem quiet_calm {l l' : List Ev} (h : Quiet l l') : ∃ evs, l' = l ++ evs ∧ (∀ ev ∈ evs, Calm ev = true) ∧
    ∀ e, Ev.delStart e ∉ evs := by
  obtain ⟨evs, h1, h2⟩ := h
  refine ⟨evs, h1, fun ev hev => ?_, fun e he => ?_⟩
  · rcases h2 ev hev with ⟨w, k, rfl⟩ | ⟨w, rfl⟩ | ⟨w, rfl⟩ | ⟨w, rfl⟩ | ⟨w, m, rfl⟩ | ⟨w, rfl⟩ | ⟨r, m, rfl⟩ <;> rfl
  · rcases h2 _ he with ⟨w, k, h⟩ | ⟨w, h⟩ | ⟨w, h⟩ | ⟨w, h⟩ | ⟨w, m, h⟩ | ⟨w, h⟩ | ⟨r, m, h⟩ <;> cases h

theorem calm_back {l evs : List Ev} {e : Ev} (h : ∀ ev ∈ evs, Calm ev = true) (he : Calm e = false) (hm : e ∈ l ++ evs) : e ∈ l := by
  rcases List.mem_append.1 hm with hm | hm
  · exact hm
  · rw [h _ hm] at he; cases he

theorem calm_pair {l evs : List Ev} {P : Ev → Ev → Prop} (h : ∀ ev ∈ evs, Calm ev = true)
    (hP : ∀ a b, Calm b = true → P a b) (hl : l.Pairwise P) : (l ++ evs).Pairwise P := by
  rw [List.pairwise_append]
  refine ⟨hl, ?_, fun a _ b hb => hP a b (h b hb)⟩
  induction evs with
  | nil => exact .nil
  | cons x xs ih =>
    exact .cons (fun b hb => hP _ _ (h b (List.mem_cons_of_mem _ hb))) (ih fun ev hev => h ev (List.mem_cons_of_mem _ hev))

theorem relE_calm (a b : Ev) (h : Calm b = true) : RelE a b := by
  constructor
  · intro e m hb; subst hb; cases h
  · intro e hb; subst hb; cases h

theorem rel9_calm (e : Nat) (a b : Ev) (h : Calm b = true) : a = Ev.delEnd e → ∀ m, b ≠ .event e m := by
  intro _ m hb; subst hb; cases h

/-- A request is added, or none. -/
theorem EInv.push {s t : S} (h : EInv s) (hR : RInv s) {u : Ud} {kind : Kind} {evs : List Ev}
    (get : ∀ (r : Nat) (q : R), s.reqs[r]? = some q → t.reqs[r]? = some q)
    (getn : ∀ (r : Nat) (q : R), t.reqs[r]? = some q → s.reqs[r]? = some q ∨ r = s.reqs.length ∧ q = ⟨u, kind, .queued⟩)
    (len : s.reqs.length ≤ t.reqs.length)
    (cq : t.cq = s.cq) (hb : t.badE = true → s.badE = true ∨ ∃ e, Ev.kfail e ∈ s.log)
    (log : t.log = s.log ++ evs) (calm : ∀ ev ∈ evs, Calm ev = true)
    (hds : ∀ e, Ev.delStart e ∈ evs → ∃ x : E, t.es[e]? = some x ∧ x.del = true)
    (old : ∀ (e : Nat) (x : E), s.es[e]? = some x → ∃ x' : E, t.es[e]? = some x' ∧ x'.rid = x.rid ∧ x'.ud = x.ud ∧
      x'.freed = x.freed ∧ (x.del = true → x'.del = true) ∧
      (x'.del = true → x.del = true ∨ x.freed = true ∨ Ev.delStart e ∈ t.log))
    (new : ∀ (e : Nat) (x' : E), t.es[e]? = some x' → (∃ x : E, s.es[e]? = some x) ∨
      t.reqs[x'.rid]? = some ⟨u, kind, .queued⟩ ∧ kind = .ent e ∧ x'.ud = u ∧ x'.freed = false ∧ x'.del = false)
    (hk : ∀ e, kind = .ent e → ∃ x' : E, t.es[e]? = some x' ∧ x'.rid = s.reqs.length)
    (hrm : ∀ e u', kind = .rmEnt e u' → RmOk t s.reqs.length e u')
    (hretry : ∀ y ∈ t.retry, y ∈ s.retry) : EInv t := by
  have back : ∀ {e}, Calm e = false → e ∈ t.log → e ∈ s.log := by
    intro e he hm; rw [log] at hm; exact calm_back calm he hm
  have fwd : ∀ {e}, e ∈ s.log → e ∈ t.log := by
    intro e hm; rw [log]; exact List.mem_append_left _ hm
  have lost : ∀ {e}, Lost s.log e → Lost t.log e := by
    intro e hm; rw [log]; exact hm.mono _
  have dead : ∀ {r}, Dead s r → Dead t r := by
    intro r ⟨q, hq, hd⟩
    exact ⟨q, get _ _ hq, by rw [cq]; exact hd⟩
  have rm : ∀ {p e t'}, RmOk s p e t' → RmOk t p e t' := by
    intro p e t' ⟨x, hx, hd, hl, ⟨r, q, hq, h1⟩, h2⟩
    obtain ⟨x', hx', _, hu, _, hd', _⟩ := old e x hx
    exact ⟨x', hx', hd' hd, fwd hl, ⟨r, q, get _ _ hq, h1⟩, h2.imp (fun h => by rw [h, hu]) lost⟩
  refine ⟨?_, ?_, ?_, ?_, ?_, ?_, ?_, ?_, ?_, ?_, ?_, ?_, ?_, ?_, ?_⟩
  · intro e x' hx'
    rcases new e x' hx' with ⟨x, hx⟩ | ⟨h1, h2, h3, h4, _⟩
    · obtain ⟨x2, hx2, hrid, hu, hf, _⟩ := old e x hx
      rw [hx'] at hx2; cases hx2
      obtain ⟨q, hq, h1, h2, h3⟩ := h.e1 e x hx
      exact ⟨q, by rw [hrid]; exact get _ _ hq, h1, by rw [hu]; exact h2, by rw [hf]; exact h3⟩
    · exact ⟨_, h1, h2, h3.symm, by simp [h4]⟩
  · intro r q e er hq
    rcases getn r q er with er | ⟨rfl, rfl⟩
    · obtain ⟨x, hx, h1⟩ := h.e2 r q e er hq
      obtain ⟨x2, hx2, hrid, _⟩ := old e x hx
      exact ⟨x2, hx2, by rw [hrid]; exact h1⟩
    · obtain ⟨x', hx', h1⟩ := hk e hq
      exact ⟨x', hx', .inl h1⟩
  · intro r q e er hq hd
    rw [cq] at hd
    rcases getn r q er with er | ⟨rfl, rfl⟩
    · obtain ⟨x, hx, h1⟩ := h.e3 r q e er hq hd
      obtain ⟨x2, hx2, _, _, _, hd', _⟩ := old e x hx
      exact ⟨x2, hx2, hd' h1⟩
    · rcases hd with hd | ⟨c, hc, hcr, _⟩
      · cases hd
      · obtain ⟨q0, e0, _⟩ := hR.c1 c hc
        have := lt_of_get e0; omega
  · intro e x' hx' hf
    rcases new e x' hx' with ⟨x, hx⟩ | ⟨_, _, _, h4, _⟩
    · obtain ⟨x2, hx2, hrid, hu, hf', hd', _⟩ := old e x hx
      rw [hx'] at hx2; cases hx2
      exact (h.e4 e x hx (by rw [← hf']; exact hf)).imp hd' fwd
    · rw [h4] at hf; cases hf
  · intro e hm
    rw [log] at hm
    rcases List.mem_append.1 hm with hm | hm
    · obtain ⟨x, hx, h1⟩ := h.e5 e hm
      obtain ⟨x2, hx2, _, _, _, hd', _⟩ := old e x hx
      exact ⟨x2, hx2, hd' h1⟩
    · exact hds e hm
  · intro e x' hx' hd
    rcases new e x' hx' with ⟨x, hx⟩ | ⟨_, _, _, _, h5⟩
    · obtain ⟨x2, hx2, _, _, hf, _, hd'⟩ := old e x hx
      rw [hx'] at hx2; cases hx2
      rcases hd' hd with h1 | h1 | h1
      · exact (h.e5' e x hx h1).imp (fun h => by rw [hf]; exact h) fwd
      · exact .inl (by rw [hf]; exact h1)
      · exact .inr h1
    · rw [h5] at hd; cases hd
  · intro p q e t' ep hq
    rcases getn p q ep with ep | ⟨rfl, rfl⟩
    · exact rm (h.e6 p q e t' ep hq)
    · exact hrm e t' hq
  · intro y hy
    obtain ⟨x, hx, hd, hl, ⟨r, q, hq, h1, h2, h3⟩, h4⟩ := rm (h.e6' y (hretry y hy))
    exact ⟨x, hx, hd, hl, ⟨r, q, hq, h1, h2, by omega⟩, h4⟩
  · intro l1 c l2 hc q e t' eq hq hr
    rw [cq] at hc
    have eq' : s.reqs[c.rid]? = some q := by
      obtain ⟨q0, e0, _⟩ := hR.c1 c (by rw [hc]; simp)
      rcases getn _ q eq with eq | ⟨h1, _⟩
      · exact eq
      · have := lt_of_get e0; omega
    rcases h.e7 l1 c l2 hc q e t' eq' hq hr with h1 | ⟨x, hx, h1⟩
    · exact .inl (lost h1)
    · obtain ⟨x2, hx2, hrid, _⟩ := old e x hx
      refine .inr ⟨x2, hx2, ?_⟩
      rw [hrid]
      exact h1.imp (fun ⟨a, b⟩ => ⟨dead a, b⟩) id
  · intro e hm
    obtain ⟨h0, h1⟩ := h.e8 e (back rfl hm)
    refine ⟨fwd h0, ?_⟩
    rcases h1 with h1 | ⟨x, hx, h1, h2⟩
    · exact .inl (lost h1)
    · obtain ⟨x2, hx2, hrid, _⟩ := old e x hx
      refine .inr ⟨x2, hx2, ?_⟩
      rw [hrid, cq]
      exact ⟨dead h1, h2⟩
  · intro e hl
    rw [log]
    exact calm_pair calm (rel9_calm e) (h.e9 e fun h => hl (lost h))
  · intro hbad
    rcases hb hbad with h1 | ⟨e, h1⟩
    · obtain ⟨e, h1⟩ := h.e10 h1; exact ⟨e, fwd h1⟩
    · exact ⟨e, fwd h1⟩
  · intro e m hm
    obtain ⟨r, q, hq, h1, h2⟩ := h.e11 e m (back rfl hm)
    exact ⟨r, q, get _ _ hq, h1, fwd h2⟩
  · rw [log]; exact calm_pair calm relE_calm h.e12
  · intro e hm
    obtain ⟨x, hx, h1⟩ := h.e13 e (back rfl hm)
    obtain ⟨x2, hx2, _, _, hf, _⟩ := old e x hx
    exact ⟨x2, hx2, by rw [hf]; exact h1⟩

/-- The kernel changes the stage of a request and posts at most one completion. -/
theorem EInv.kern {s t : S} {r : Nat} {q : R} {st : Stage} {post : List Cqe} (h : EInv s) (k : Kern s t r q st post)
    (hg : q.stage ≠ .gone) (hg' : st ≠ .gone) (hdn : q.stage ≠ .done)
    (hd : q.stage = .dying → st = .done ∧ ∃ c ∈ post, c.rid = r ∧ c.more = false ∧ c.res = .cancelled)
    (hnd : st = .dying → ∀ e, q.kind = .ent e → ∃ x : E, s.es[e]? = some x ∧ x.del = true)
    (hp : post = [] ∨ ∃ c, post = [c] ∧ c.rid = r ∧ (∀ m, c.res = .ev m → q.stage = .kern) ∧
      (c.res = .cancelled → q.stage = .dying) ∧
      ∀ e u, q.kind = .rmEnt e u → c.res ≠ .ealready → Lost s.log e ∨ ∃ x : E, s.es[e]? = some x ∧
        (Dead s x.rid ∨ Ended s.cq x.rid)) : EInv t := by
  obtain ⟨evs, log, calm, nds⟩ := quiet_calm k.log
  have back : ∀ {e}, Calm e = false → e ∈ t.log → e ∈ s.log := by
    intro e he hm; rw [log] at hm; exact calm_back calm he hm
  have backd : ∀ {e}, Ev.delStart e ∈ t.log → Ev.delStart e ∈ s.log := by
    intro e hm; rw [log] at hm
    exact (List.mem_append.1 hm).resolve_right (nds e)
  have fwd : ∀ {e}, e ∈ s.log → e ∈ t.log := by
    intro e hm; rw [log]; exact List.mem_append_left _ hm
  have lost : ∀ {e}, Lost s.log e → Lost t.log e := by
    intro e hm; rw [log]; exact hm.mono _
  -- requests, forwards and backwards
  have get : ∀ (i : Nat) (qi : R), s.reqs[i]? = some qi → ∃ q', t.reqs[i]? = some q' ∧ q'.kind = qi.kind ∧ q'.ud = qi.ud ∧
      (q'.stage = .gone ↔ qi.stage = .gone) ∧ (i ≠ r → q' = qi) ∧ (i = r → q'.stage = st) := by
    intro i qi e
    rw [k.get]
    by_cases hi : i = r
    · subst hi
      have e2 := k.hr; rw [e] at e2; cases e2
      rw [if_pos rfl]
      exact ⟨_, rfl, rfl, rfl, by simp [hg, hg'], fun h => absurd rfl h, fun _ => rfl⟩
    · rw [if_neg hi]
      exact ⟨qi, e, rfl, rfl, Iff.rfl, fun _ => rfl, fun h => absurd h hi⟩
  have getn : ∀ (i : Nat) (q' : R), t.reqs[i]? = some q' → ∃ qi, s.reqs[i]? = some qi ∧ q'.kind = qi.kind ∧ q'.ud = qi.ud ∧
      (q'.stage = .gone ↔ qi.stage = .gone) ∧ (i ≠ r → q' = qi) ∧ (i = r → q'.stage = st ∧ qi = q) := by
    intro i q' e
    rw [k.get] at e
    by_cases hi : i = r
    · subst hi
      rw [if_pos rfl] at e; cases e
      exact ⟨q, k.hr, rfl, rfl, by simp [hg, hg'], fun h => absurd rfl h, fun _ => ⟨rfl, rfl⟩⟩
    · rw [if_neg hi] at e
      exact ⟨q', e, rfl, rfl, Iff.rfl, fun _ => rfl, fun h => absurd h hi⟩
  have dead : ∀ {i}, Dead s i → Dead t i := by
    intro i ⟨qi, hqi, hdi⟩
    obtain ⟨q', hq', _, _, h3, h4, h5⟩ := get i qi hqi
    refine ⟨q', hq', ?_⟩
    by_cases hi : i = r
    · subst hi
      have e2 := k.hr; rw [hqi] at e2; cases e2
      rcases hdi with h1 | h1 | ⟨h1, _⟩
      · obtain ⟨h6, c, hc, h7⟩ := hd h1
        exact .inr (.inr ⟨by rw [h5 rfl, h6], c, by rw [k.cq]; exact List.mem_append_right _ hc, h7⟩)
      · exact absurd h1 hg
      · exact absurd h1 hdn
    · rw [h4 hi]
      rcases hdi with h1 | h1 | ⟨h1, c, hc, h2⟩
      · exact .inl h1
      · exact .inr (.inl h1)
      · exact .inr (.inr ⟨h1, c, by rw [k.cq]; exact List.mem_append_left _ hc, h2⟩)
  -- no event of a dead poll is posted
  have noEv : ∀ {i l}, Dead s i → NoEv l i → NoEv (l ++ post) i := by
    intro i l hd hn a ha har m hm
    rcases List.mem_append.1 ha with ha | ha
    · exact hn a ha har m hm
    · rcases hp with hp | ⟨c, hp, hcr, hce, _⟩
      · rw [hp] at ha; cases ha
      · rw [hp, List.mem_singleton] at ha; subst ha
        obtain ⟨qi, hqi, hdi⟩ := hd
        have e2 := k.hr; rw [← hcr, har, hqi] at e2; cases e2
        have h1 := hce m hm
        rcases hdi with h2 | h2 | ⟨h2, _⟩ <;> rw [h1] at h2 <;> cases h2
  have rm : ∀ {p e t'}, RmOk s p e t' → RmOk t p e t' := by
    intro p e t' ⟨x, hx, hd, hl, ⟨i, qi, hqi, h1, h2, h3⟩, h4⟩
    obtain ⟨q', hq', hk', hu', _⟩ := get i qi hqi
    exact ⟨x, by rw [k.es]; exact hx, hd, fwd hl, ⟨i, q', hq', by rw [hk', h1], by rw [hu', h2], h3⟩, h4.imp id lost⟩
  have len : t.reqs.length = s.reqs.length := by
    have a : ∀ i : Nat, i < t.reqs.length ↔ i < s.reqs.length := by
      intro i
      constructor
      · intro hi
        obtain ⟨qi, e, _⟩ := getn i _ (List.getElem?_eq_getElem hi)
        exact lt_of_get e
      · intro hi
        obtain ⟨qi, e, _⟩ := get i _ (List.getElem?_eq_getElem hi)
        exact lt_of_get e
    have h1 := a t.reqs.length
    have h2 := a s.reqs.length
    omega
  refine ⟨?_, ?_, ?_, ?_, ?_, ?_, ?_, ?_, ?_, ?_, ?_, ?_, ?_, ?_, ?_⟩
  · intro e x hx
    rw [k.es] at hx
    obtain ⟨qi, hqi, h1, h2, h3⟩ := h.e1 e x hx
    obtain ⟨q', hq', hk', hu', hg', _⟩ := get _ qi hqi
    exact ⟨q', hq', by rw [hk', h1], by rw [hu', h2], by rw [hg']; exact h3⟩
  · intro i q' e ei hq
    obtain ⟨qi, hqi, hk', hu', hg', _⟩ := getn i q' ei
    rw [k.es, hg']
    exact h.e2 i qi e hqi (by rw [← hk', hq])
  · intro i q' e ei hq hdi
    obtain ⟨qi, hqi, hk', hu', hgi, h4, h5⟩ := getn i q' ei
    rw [k.es]
    rcases hdi with hdi | ⟨c, hc, hcr, hcc⟩
    · by_cases hi : i = r
      · obtain ⟨h6, h7⟩ := h5 hi
        subst h7
        exact hnd (by rw [← h6]; exact hdi) e (by rw [← hk', hq])
      · rw [h4 hi] at hdi hq
        exact h.e3 i qi e hqi hq (.inl hdi)
    · rw [k.cq] at hc
      rcases List.mem_append.1 hc with hc | hc
      · exact h.e3 i qi e hqi (by rw [← hk', hq]) (.inr ⟨c, hc, hcr, hcc⟩)
      · rcases hp with hp | ⟨c', hp, hcr', _, hcd, _⟩
        · rw [hp] at hc; cases hc
        · rw [hp, List.mem_singleton] at hc; subst hc
          have h6 := (h5 (by rw [← hcr, hcr'])).2
          subst h6
          exact h.e3 i qi e hqi (by rw [← hk', hq]) (.inl (hcd hcc))
  · intro e x hx hf
    rw [k.es] at hx
    exact (h.e4 e x hx hf).imp id fwd
  · intro e hm
    rw [k.es]; exact h.e5 e (backd hm)
  · intro e x hx hf
    rw [k.es] at hx
    exact (h.e5' e x hx hf).imp id fwd
  · intro p q' e t' ep hq
    obtain ⟨qi, hqi, hk', _⟩ := getn p q' ep
    exact rm (h.e6 p qi e t' hqi (by rw [← hk', hq]))
  · intro y hy
    rw [k.retry] at hy; rw [len]
    exact rm (h.e6' y hy)
  · intro l1 c l2 hc q' e t' eq hq hr
    obtain ⟨qi, hqi, hk', _, _, _, h5⟩ := getn _ q' eq
    rw [k.cq] at hc
    rw [k.es]
    -- an old completion, or the new one
    have old : ∀ l2', s.cq = l1 ++ c :: l2' → l2 = l2' ++ post → Lost t.log e ∨ ∃ x : E, s.es[e]? = some x ∧
        (Dead t x.rid ∧ NoEv l2 x.rid ∨ Ended l1 x.rid) := by
      intro l2' h1 h2
      rcases h.e7 l1 c l2' h1 qi e t' hqi (by rw [← hk', hq]) hr with h3 | ⟨x, hx, h3⟩
      · exact .inl (lost h3)
      · refine .inr ⟨x, hx, h3.imp (fun ⟨a, b⟩ => ⟨dead a, ?_⟩) id⟩
        rw [h2]; exact noEv a b
    rcases hp with hp | ⟨c', hp, hcr', _, _, hrm⟩
    · rw [hp, List.append_nil] at hc
      exact old l2 hc (by rw [hp]; simp)
    · rcases List.eq_nil_or_concat l2 with h1 | ⟨l2', b, h1⟩
      · subst h1
        rw [hp] at hc
        obtain ⟨h2, h3⟩ := List.append_inj' hc rfl
        cases h3
        have h6 := (h5 hcr').2
        subst h6
        rcases hrm e t' (by rw [← hk', hq]) hr with h4 | ⟨x, hx, h4⟩
        · exact .inl (lost h4)
        · refine .inr ⟨x, hx, ?_⟩
          rcases h4 with h4 | h4
          · exact .inl ⟨dead h4, by intro a ha; cases ha⟩
          · exact .inr (by rw [← h2]; exact h4)
      · rw [List.concat_eq_append] at h1
        rw [h1, hp] at hc
        have hc' : s.cq ++ [c'] = (l1 ++ c :: l2') ++ [b] := by rw [hc]; simp
        obtain ⟨h2, h3⟩ := List.append_inj' hc' rfl
        cases h3
        exact old l2' h2 (by rw [h1, hp])
  · intro e hm
    obtain ⟨h0, h1⟩ := h.e8 e (back rfl hm)
    refine ⟨fwd h0, ?_⟩
    rcases h1 with h1 | ⟨x, hx, h1, h2⟩
    · exact .inl (lost h1)
    · exact .inr ⟨x, by rw [k.es]; exact hx, dead h1, by rw [k.cq]; exact noEv h1 h2⟩
  · intro e hl
    rw [log]
    exact calm_pair calm (rel9_calm e) (h.e9 e fun h => hl (lost h))
  · intro hb
    rw [k.badE] at hb
    obtain ⟨e, h1⟩ := h.e10 hb; exact ⟨e, fwd h1⟩
  · intro e m hm
    obtain ⟨i, qi, hqi, h1, h2⟩ := h.e11 e m (back rfl hm)
    obtain ⟨q', hq', hk', _⟩ := get i qi hqi
    exact ⟨i, q', hq', by rw [hk', h1], fwd h2⟩
  · rw [log]; exact calm_pair calm relE_calm h.e12
  · intro e hm
    rw [k.es]; exact h.e13 e (back rfl hm)

end Verif.UPoll
