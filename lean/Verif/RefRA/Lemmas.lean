import Verif.RefRA.Model
/-! The invariant: the last message of the counter is the number of handles, and what each thread did is in the view of that message or of someone who has a handle. -/
namespace Verif.RefRA
open Verif.Common Verif.RelAcq

def Strong (c : Cfg) : Prop := c.rel = true ∧ c.fence = true

def Th.busy (x : Th) : Nat := if x.pc = .use then 0 else 1

/-- Threads that are destroying the object. -/
def busy (s : State) : Nat := (s.th.map Th.busy).sum

/-- `k` in the view of the last message `y`, or of a thread with a handle. -/
def Covered (s : State) (y : Msg Loc) (u : Nat) : Prop :=
  s.m.log (.data u) ≤ y.view (.data u) ∨ ∃ (w : Nat) (x : Th), s.th[w]? = some x ∧ 0 < x.refs ∧ s.m.log (.data u) ≤ s.m.cur w (.data u)

structure Inv (s : State) : Prop where
  all : ∀ ts, ts ≤ s.top → s.m.msg .cnt ts ≠ none
  le : ∀ ts y, s.m.msg .cnt ts = some y → ts ≤ s.top
  last : ∃ y, s.m.msg .cnt s.top = some y ∧ y.val = handles s ∧ ∀ u, Covered s y u
  own : ∀ u, s.m.log (.data u) ≤ s.m.cur u (.data u)
  one : busy s + s.freed = if handles s = 0 then 1 else 0
  atFence : ∀ (t : Nat) (x : Th), s.th[t]? = some x → x.pc = .fence → ∀ u, s.m.log (.data u) ≤ join (s.m.cur t) (s.m.acq t) (.data u)
  atFree : ∀ (t : Nat) (x : Th), s.th[t]? = some x → x.pc = .free → ∀ u, s.m.log (.data u) ≤ s.m.cur t (.data u)
  race : s.race = false
  uaf : s.uaf = false

theorem sum_set {f : Th → Nat} {l : List Th} {t : Nat} {a b : Th} (h : l[t]? = some a) : ((l.set t b).map f).sum + f a = (l.map f).sum + f b := by
  induction l generalizing t with
  | nil => cases h
  | cons x l ih =>
    cases t with
    | zero => cases h; simp; omega
    | succ t =>
      have := ih (t := t) (by simpa using h)
      simp only [List.set_cons_succ, List.map_cons, List.sum_cons]; omega

theorem le_sum {f : Th → Nat} {l : List Th} {t : Nat} {a : Th} (h : l[t]? = some a) : f a ≤ (l.map f).sum := by
  have := sum_set (f := f) (b := a) h
  have h0 := sum_set (f := f) (b := a) h
  induction l generalizing t with
  | nil => cases h
  | cons x l ih =>
    cases t with
    | zero => cases h; simp
    | succ t =>
      have h : l[t]? = some a := by simpa using h
      have := ih h (sum_set h) (sum_set h)
      simp only [List.map_cons, List.sum_cons]; omega

theorem get_set {l : List Th} {t : Nat} {p p' : Th} (ht : l[t]? = some p) (i : Nat) (x : Th) (hx : (l.set t p')[i]? = some x) :
    (i = t ∧ x = p') ∨ (i ≠ t ∧ l[i]? = some x) := by
  by_cases e : i = t
  · subst e; rw [List.getElem?_set_self (lt_of_get ht)] at hx; cases hx; exact Or.inl ⟨rfl, rfl⟩
  · rw [List.getElem?_set_ne (fun h => e h.symm)] at hx; exact Or.inr ⟨e, hx⟩

theorem top_of {s : State} (h : Inv s) {m : Mem Loc} {t ts : Nat} {f : Nat → Nat} {a r : Bool} {y : Msg Loc} {w : View Loc} (L : Swapped s.m m t .cnt f a r ts y w) :
    ts = s.top ∧ y.val = handles s ∧ (∀ u, Covered s y u) ∧ (∀ k, k ≤ ts + 1 → m.msg .cnt k ≠ none) ∧ (∀ k z, m.msg .cnt k = some z → k ≤ ts + 1) := by
  have h1 := h.le ts y L.src
  have hts : ts = s.top := by
    rcases Nat.eq_or_lt_of_le h1 with e | hlt
    · exact e
    · exact absurd L.free (h.all (ts + 1) hlt)
  obtain ⟨z, k1, k2, k3⟩ := h.last
  rw [← hts, L.src] at k1; cases k1
  refine ⟨hts, k2, k3, ?_, ?_⟩
  · intro k hk
    by_cases e : k = ts + 1
    · rw [e, L.new]; nofun
    · rw [L.old _ _ (fun x => e x.2)]
      exact h.all k (by omega)
  · intro k z hz
    by_cases e : k = ts + 1
    · omega
    · rw [L.old _ _ (fun x => e x.2)] at hz
      have := h.le k z hz
      omega

/-- While someone has a handle nobody destroys the object, and nobody has. -/
theorem held {s : State} (h : Inv s) {t : Nat} {x : Th} (hx : s.th[t]? = some x) (hr : 0 < x.refs) : 0 < handles s ∧ busy s = 0 ∧ s.freed = 0 := by
  have h1 : x.refs ≤ handles s := le_sum hx
  have h2 := h.one
  rw [if_neg (by omega)] at h2
  omega

theorem all_use {s : State} (hb : busy s = 0) {t : Nat} {x : Th} (hx : s.th[t]? = some x) : x.pc = .use := by
  have h1 : x.busy ≤ busy s := le_sum hx
  rw [hb] at h1
  refine Classical.byContradiction fun e => ?_
  unfold Th.busy at h1; rw [if_neg e] at h1; omega

theorem touch_log (m : Mem Loc) (t : Nat) (l k : Loc) : (m.touch t l).log k = if k = l then m.log l + 1 else m.log k := rfl

theorem touch_mono (m : Mem Loc) (t u : Nat) (l k : Loc) : m.cur u k ≤ (m.touch t l).cur u k := by
  unfold Mem.touch
  simp only
  by_cases h : u = t
  · subst h; rw [upd_same]; exact le_join_left _ _ _
  · rw [upd_ne _ _ h]; exact Nat.le_refl _

theorem touch_self (m : Mem Loc) (t : Nat) (l : Loc) : (m.touch t l).log l ≤ (m.touch t l).cur t l := by
  rw [touch_log, if_pos rfl]
  unfold Mem.touch
  simp only [upd_same]
  have := le_join_right (m.cur t) (single l (m.log l + 1)) l
  rwa [single_same] at this

theorem inv_access {s : State} (h : Inv s) {t : Nat} {x : Th} (hx : s.th[t]? = some x) (hr : 0 < x.refs) : Inv (doAccess s t) := by
  obtain ⟨hp, hb, hf⟩ := held h hx hr
  obtain ⟨y, k1, k2, k3⟩ := h.last
  refine ⟨h.all, h.le, ⟨y, k1, k2, ?_⟩, ?_, h.one, ?_, ?_, ?_, ?_⟩
  · intro u
    by_cases e : u = t
    · subst e; exact Or.inr ⟨u, x, hx, hr, touch_self _ _ _⟩
    · have hl : (doAccess s t).m.log (.data u) = s.m.log (.data u) := by
        show (s.m.touch t (.data t)).log _ = _
        rw [touch_log, if_neg (fun e2 => e (Loc.data.inj e2))]
      rcases k3 u with h1 | ⟨w, z, h1, h2, h3⟩
      · exact Or.inl (hl ▸ h1)
      · exact Or.inr ⟨w, z, h1, h2, hl ▸ Nat.le_trans h3 (touch_mono _ _ _ _ _)⟩
  · intro u
    by_cases e : u = t
    · subst e; exact touch_self _ _ _
    · show (s.m.touch t (.data t)).log _ ≤ _
      rw [touch_log, if_neg (fun e2 => e (Loc.data.inj e2))]
      exact Nat.le_trans (h.own u) (touch_mono _ _ _ _ _)
  · intro v z hz hpc
    rw [all_use hb hz] at hpc; cases hpc
  · intro v z hz hpc
    rw [all_use hb hz] at hpc; cases hpc
  · have hc : s.m.clear t (.data t) = true := decide_eq_true (h.own t)
    simp [doAccess, h.race, hc]
  · simp [doAccess, h.uaf, hf]

theorem inv_copy {s s' : State} (h : Inv s) {t ts : Nat} {x : Th} (hx : s.th[t]? = some x) (hpc : x.pc = .use) (hr : 0 < x.refs) (hst : doCopy s t x ts = some s')
    (hw : handles s' < W) : Inv s' := by
  unfold doCopy at hst
  split at hst
  · cases hst
  rename_i v m hm
  cases hst
  obtain ⟨y, w, L, rfl⟩ := rmw_facts hm
  obtain ⟨hts, hval, hcov, hc1, hc2⟩ := top_of h L
  obtain ⟨hp, hb, hf⟩ := held h hx hr
  have c1 := sum_set (f := Th.refs) (b := { x with refs := x.refs + 1 }) hx
  have c2 := sum_set (f := Th.busy) (b := { x with refs := x.refs + 1 }) hx
  have hu : Th.busy { x with refs := x.refs + 1 } = Th.busy x := rfl
  rw [hu] at c2
  have e1 : ((s.th.set t { x with refs := x.refs + 1 }).map Th.refs).sum = handles s + 1 := by unfold handles; simp only at c1; omega
  have e2 : ((s.th.set t { x with refs := x.refs + 1 }).map Th.busy).sum = 0 := by unfold busy at hb; omega
  have hw : handles s + 1 < W := by rw [← e1]; exact hw
  have huse : ∀ (v : Nat) (z : Th), (s.th.set t { x with refs := x.refs + 1 })[v]? = some z → z.pc = .use := by
    intro v z hz
    rcases get_set hx v z hz with ⟨_, rfl⟩ | ⟨_, hz⟩
    · exact hpc
    · exact all_use hb hz
  refine ⟨hc1, hc2, ⟨_, L.new, ?_, ?_⟩, ?_, ?_, ?_, ?_, h.race, ?_⟩
  · show (y.val + 1) % W = _
    rw [hval, Nat.mod_eq_of_lt hw]
    exact e1.symm
  · intro u
    have hl : m.log (.data u) = s.m.log (.data u) := by rw [L.log]
    rcases hcov u with h1 | ⟨v, z, h1, h2, h3⟩
    · exact Or.inl (by show m.log _ ≤ w _; rw [hl]; exact Nat.le_trans h1 (L.rel _))
    · refine Or.inr ?_
      by_cases e : v = t
      · subst e
        exact ⟨v, _, List.getElem?_set_self (lt_of_get hx), Nat.succ_pos _, by show m.log _ ≤ m.cur _ _; rw [hl]; exact Nat.le_trans h3 (L.mono _ _)⟩
      · exact ⟨v, z, by show (s.th.set t _)[v]? = _; rw [List.getElem?_set_ne (fun x => e x.symm)]; exact h1, h2, by
          show m.log _ ≤ m.cur _ _; rw [hl]; exact Nat.le_trans h3 (L.mono _ _)⟩
  · intro u; show m.log _ ≤ _; rw [L.log]; exact Nat.le_trans (h.own u) (L.mono _ _)
  · show ((s.th.set t _).map Th.busy).sum + s.freed = if ((s.th.set t _).map Th.refs).sum = 0 then 1 else 0
    rw [e1, e2, hf, if_neg (by omega)]
  · intro v z hz hpc; rw [huse v z hz] at hpc; cases hpc
  · intro v z hz hpc; rw [huse v z hz] at hpc; cases hpc
  · simp [h.uaf, hf]

theorem inv_give {s : State} (h : Inv s) {t u : Nat} {x y : Th} (hx : s.th[t]? = some x) (hy : s.th[u]? = some y) (hne : t ≠ u) (hpx : x.pc = .use) (hpy : y.pc = .use)
    (hr : 0 < x.refs) : Inv (doGive s t u x y) := by
  obtain ⟨hp, hb, hf⟩ := held h hx hr
  have hy' : (s.th.set t { x with refs := x.refs - 1 })[u]? = some y := by rw [List.getElem?_set_ne hne]; exact hy
  have c1 := sum_set (f := Th.refs) (b := { x with refs := x.refs - 1 }) hx
  have c2 := sum_set (f := Th.refs) (b := { y with refs := y.refs + 1 }) hy'
  have d1 := sum_set (f := Th.busy) (b := { x with refs := x.refs - 1 }) hx
  have d2 := sum_set (f := Th.busy) (b := { y with refs := y.refs + 1 }) hy'
  have u1 : Th.busy { x with refs := x.refs - 1 } = Th.busy x := rfl
  have u2 : Th.busy { y with refs := y.refs + 1 } = Th.busy y := rfl
  rw [u1] at d1
  rw [u2] at d2
  have e1 : handles (doGive s t u x y) = handles s := by
    show (((s.th.set t { x with refs := x.refs - 1 }).set u { y with refs := y.refs + 1 }).map Th.refs).sum = _
    unfold handles; simp only at c1 c2; omega
  have e2 : busy (doGive s t u x y) = busy s := by
    show (((s.th.set t { x with refs := x.refs - 1 }).set u { y with refs := y.refs + 1 }).map Th.busy).sum = _
    unfold busy; omega
  have hmono : ∀ w l, s.m.cur w l ≤ (doGive s t u x y).m.cur w l := by
    intro w l
    show _ ≤ (upd s.m.cur u (join (s.m.cur u) (s.m.cur t))) w l
    by_cases e : w = u
    · subst e; rw [upd_same]; exact le_join_left _ _ _
    · rw [upd_ne _ _ e]; exact Nat.le_refl _
  have huse : ∀ (v : Nat) (z : Th), (doGive s t u x y).th[v]? = some z → z.pc = .use := fun v z hz => all_use (e2.trans hb) hz
  have hgu : (doGive s t u x y).th[u]? = some { y with refs := y.refs + 1 } := List.getElem?_set_self (lt_of_get hy')
  obtain ⟨m0, k1, k2, k3⟩ := h.last
  refine ⟨h.all, h.le, ⟨m0, k1, k2.trans e1.symm, ?_⟩, fun w => Nat.le_trans (h.own w) (hmono _ _), ?_, ?_, ?_, h.race, h.uaf⟩
  · intro w
    rcases k3 w with h1 | ⟨v, z, h1, h2, h3⟩
    · exact Or.inl h1
    · refine Or.inr ?_
      by_cases e : v = t ∨ v = u
      · refine ⟨u, _, hgu, Nat.succ_pos _, ?_⟩
        show _ ≤ (upd s.m.cur u (join (s.m.cur u) (s.m.cur t))) u _
        rw [upd_same]
        rcases e with rfl | rfl
        · exact Nat.le_trans h3 (le_join_right _ _ _)
        · exact Nat.le_trans h3 (le_join_left _ _ _)
      · refine ⟨v, z, ?_, h2, Nat.le_trans h3 (hmono _ _)⟩
        show ((s.th.set t _).set u _)[v]? = _
        rw [List.getElem?_set_ne (fun e2 => e (Or.inr e2.symm)), List.getElem?_set_ne (fun e2 => e (Or.inl e2.symm))]
        exact h1
  · rw [e1, e2]; exact h.one
  · intro v z hz hpc; rw [huse v z hz] at hpc; cases hpc
  · intro v z hz hpc; rw [huse v z hz] at hpc; cases hpc

theorem inv_drop {c : Cfg} (hc : Strong c) {s s' : State} (h : Inv s) (hb0 : handles s < W) {t ts : Nat} {x : Th} (hx : s.th[t]? = some x) (hpc : x.pc = .use) (hr : 0 < x.refs)
    (hst : doDrop c s t x ts = some s') : Inv s' := by
  unfold doDrop at hst
  split at hst
  · cases hst
  rename_i v m hm
  cases hst
  obtain ⟨y, w, L, rfl⟩ := rmw_facts hm
  obtain ⟨hts, hval, hcov, hc1, hc2⟩ := top_of h L
  obtain ⟨hp, hb, hf⟩ := held h hx hr
  generalize hq : (if y.val = 1 then Pc.fence else .use) = q
  have c1 := sum_set (f := Th.refs) (b := ⟨x.refs - 1, q⟩) hx
  have c2 := sum_set (f := Th.busy) (b := ⟨x.refs - 1, q⟩) hx
  have e1 : ((s.th.set t ⟨x.refs - 1, q⟩).map Th.refs).sum = handles s - 1 := by unfold handles; simp only at c1; omega
  have bx : x.busy = 0 := if_pos hpc
  have e2 : ((s.th.set t ⟨x.refs - 1, q⟩).map Th.busy).sum = if handles s = 1 then 1 else 0 := by
    have hq2 : Th.busy ⟨x.refs - 1, q⟩ = if handles s = 1 then 1 else 0 := by
      rw [← hq, hval]; unfold Th.busy; by_cases e : handles s = 1 <;> simp [e]
    rw [hq2, bx] at c2
    have hb : (s.th.map Th.busy).sum = 0 := hb
    omega
  have hnew : ∀ u, m.log (.data u) = s.m.log (.data u) := fun u => by rw [L.log]
  have hcov' : ∀ u, m.log (.data u) ≤ w (.data u) ∨ ∃ (v : Nat) (z : Th), (s.th.set t ⟨x.refs - 1, q⟩)[v]? = some z ∧ 0 < z.refs ∧ m.log (.data u) ≤ m.cur v (.data u) := by
    intro u
    rw [hnew]
    rcases hcov u with h1 | ⟨v, z, h1, h2, h3⟩
    · exact Or.inl (Nat.le_trans h1 (L.rel _))
    · by_cases e : v = t
      · subst e; exact Or.inl (Nat.le_trans h3 (Nat.le_trans (L.mono _ _) (L.pub hc.1 _)))
      · exact Or.inr ⟨v, z, by rw [List.getElem?_set_ne (fun x => e x.symm)]; exact h1, h2, Nat.le_trans h3 (L.mono _ _)⟩
  refine ⟨hc1, hc2, ⟨_, L.new, ?_, hcov'⟩, ?_, ?_, ?_, ?_, h.race, ?_⟩
  · show (y.val + (W - 1)) % W = ((s.th.set t _).map Th.refs).sum
    rw [e1, hval]
    have hw2 : handles s + (W - 1) = (handles s - 1) + W := by unfold W; omega
    rw [hw2, Nat.add_mod_right, Nat.mod_eq_of_lt (by omega)]
  · intro u; show m.log _ ≤ _; rw [L.log]; exact Nat.le_trans (h.own u) (L.mono _ _)
  · show ((s.th.set t _).map Th.busy).sum + s.freed = if ((s.th.set t _).map Th.refs).sum = 0 then 1 else 0
    rw [e1, e2, hf]
    by_cases e : handles s = 1
    · rw [if_pos e, if_pos (by omega)]
    · rw [if_neg e, if_neg (by omega)]
  · intro v z hz hzp u
    show m.log _ ≤ join (m.cur v) (m.acq v) _
    rcases get_set hx v z hz with ⟨rfl, rfl⟩ | ⟨hn, hz⟩
    · have hq1 : q = .fence := hzp
      have h1 : y.val = 1 := by
        refine Classical.byContradiction fun e => ?_
        rw [if_neg e] at hq; rw [← hq] at hq1; cases hq1
      have h0 : ((s.th.set v ⟨x.refs - 1, q⟩).map Th.refs).sum = 0 := by rw [e1, ← hval, h1]
      rcases hcov u with k | ⟨v', z, k1, k2, k3⟩
      · rw [hnew]; exact Nat.le_trans k (Nat.le_trans (L.acqv _) (le_join_right _ _ _))
      · have hv : v' = v := by
          refine Classical.byContradiction fun e => ?_
          have := le_sum (f := Th.refs) (l := s.th.set v ⟨x.refs - 1, q⟩) (t := v') (a := z) (by rw [List.getElem?_set_ne (fun x => e x.symm)]; exact k1)
          omega
        subst hv
        rw [hnew]
        exact Nat.le_trans k3 (Nat.le_trans (L.mono _ _) (le_join_left _ _ _))
    · rw [all_use hb hz] at hzp; cases hzp
  · intro v z hz hzp
    rcases get_set hx v z hz with ⟨rfl, rfl⟩ | ⟨hn, hz⟩
    · have hzp : q = .free := hzp
      rw [← hq] at hzp; split at hzp <;> cases hzp
    · rw [all_use hb hz] at hzp; cases hzp
  · simp [h.uaf, hf]

/-- Whoever destroys the object is alone, and there are no handles. -/
theorem alone {s : State} (h : Inv s) {t : Nat} {x : Th} (hx : s.th[t]? = some x) (hpc : x.pc ≠ .use) :
    handles s = 0 ∧ busy s = 1 ∧ s.freed = 0 := by
  have h1 : x.busy ≤ busy s := le_sum hx
  unfold Th.busy at h1
  rw [if_neg hpc] at h1
  have h2 := h.one
  split at h2 <;> omega

theorem alone_ne {s : State} (h : Inv s) {t : Nat} {x : Th} (hx : s.th[t]? = some x) (hpc : x.pc ≠ .use) {u : Nat} {z : Th} (hz : s.th[u]? = some z) (hne : u ≠ t) : z.pc = .use := by
  obtain ⟨_, hb, _⟩ := alone h hx hpc
  have c := sum_set (f := Th.busy) (b := ⟨0, .use⟩) hx
  have e1 : x.busy = 1 := if_neg hpc
  have e2 : Th.busy ⟨0, .use⟩ = 0 := rfl
  have c2 := le_sum (f := Th.busy) (l := s.th.set t ⟨0, .use⟩) (t := u) (a := z) (by rw [List.getElem?_set_ne (fun e => hne e.symm)]; exact hz)
  have hb : (s.th.map Th.busy).sum = 1 := hb
  refine Classical.byContradiction fun e => ?_
  have e3 : z.busy = 1 := if_neg e
  omega

theorem no_refs {s : State} (h0 : handles s = 0) {t : Nat} {x : Th} (hx : s.th[t]? = some x) : x.refs = 0 := by
  have h1 : x.refs ≤ handles s := le_sum hx
  omega

theorem inv_fence {c : Cfg} (hc : Strong c) {s : State} (h : Inv s) {t : Nat} {x : Th} (hx : s.th[t]? = some x) (hpc : x.pc = .fence) : Inv (doFence c s t x) := by
  have hn : x.pc ≠ .use := by rw [hpc]; nofun
  obtain ⟨h0, hb, hf⟩ := alone h hx hn
  have c1 := sum_set (f := Th.refs) (b := { x with pc := .free }) hx
  have c2 := sum_set (f := Th.busy) (b := { x with pc := .free }) hx
  have e1 : handles (doFence c s t x) = handles s := by show ((s.th.set t _).map Th.refs).sum = _; unfold handles; simp only at c1; omega
  have e2 : busy (doFence c s t x) = busy s := by
    show ((s.th.set t { x with pc := .free }).map Th.busy).sum = _
    have k1 : x.busy = 1 := if_neg hn
    have k2 : Th.busy { x with pc := .free } = 1 := rfl
    unfold busy; omega
  have hm : (doFence c s t x).m = s.m.fence t := by show (if c.fence = true then _ else _) = _; rw [if_pos hc.2]
  have hmsg : (doFence c s t x).m.msg = s.m.msg := by rw [hm]; rfl
  have hlog : (doFence c s t x).m.log = s.m.log := by rw [hm]; rfl
  have hself : (doFence c s t x).m.cur t = join (s.m.cur t) (s.m.acq t) := by rw [hm]; exact upd_same _ _ _
  have hmono : ∀ w l, s.m.cur w l ≤ (doFence c s t x).m.cur w l := by
    intro w l
    by_cases e : w = t
    · subst e; rw [hself]; exact le_join_left _ _ _
    · rw [hm]; show _ ≤ (upd s.m.cur t _) w l; rw [upd_ne _ _ e]; exact Nat.le_refl _
  obtain ⟨y, k1, k2, k3⟩ := h.last
  refine ⟨by rw [hmsg]; exact h.all, by rw [hmsg]; exact h.le, ⟨y, by rw [hmsg]; exact k1, k2.trans e1.symm, ?_⟩, ?_, by rw [e1, e2]; exact h.one, ?_, ?_, h.race, h.uaf⟩
  · intro u
    rcases k3 u with k | ⟨v, z, k, k', _⟩
    · exact Or.inl (by rw [hlog]; exact k)
    · have := no_refs h0 k; omega
  · intro u; rw [hlog]; exact Nat.le_trans (h.own u) (hmono _ _)
  · intro v z hz hzp
    rcases get_set hx v z hz with ⟨rfl, rfl⟩ | ⟨hn2, hz⟩
    · cases hzp
    · rw [alone_ne h hx hn hz hn2] at hzp; cases hzp
  · intro v z hz hzp u
    rcases get_set hx v z hz with ⟨rfl, rfl⟩ | ⟨hn2, hz⟩
    · rw [hlog, hself]; exact h.atFence v x hx hpc u
    · rw [alone_ne h hx hn hz hn2] at hzp; cases hzp

theorem inv_free {s : State} (h : Inv s) {t : Nat} {x : Th} (hx : s.th[t]? = some x) (hpc : x.pc = .free) : Inv (doFree s t x) := by
  have hn : x.pc ≠ .use := by rw [hpc]; nofun
  obtain ⟨h0, hb, hf⟩ := alone h hx hn
  have c1 := sum_set (f := Th.refs) (b := { x with pc := .use }) hx
  have c2 := sum_set (f := Th.busy) (b := { x with pc := .use }) hx
  have e1 : handles (doFree s t x) = handles s := by show ((s.th.set t _).map Th.refs).sum = _; unfold handles; simp only at c1; omega
  have e2 : busy (doFree s t x) = 0 := by
    show ((s.th.set t { x with pc := .use }).map Th.busy).sum = _
    have k1 : x.busy = 1 := if_neg hn
    have k2 : Th.busy { x with pc := .use } = 0 := rfl
    have hb : (s.th.map Th.busy).sum = 1 := hb
    omega
  have hu : ∀ (v : Nat) (z : Th), (doFree s t x).th[v]? = some z → z.pc = .use := fun v z hz => all_use e2 hz
  obtain ⟨y, k1, k2, k3⟩ := h.last
  refine ⟨h.all, h.le, ⟨y, k1, k2.trans e1.symm, ?_⟩, h.own, ?_, ?_, ?_, ?_, ?_⟩
  · intro u
    rcases k3 u with k | ⟨v, z, k, k', _⟩
    · exact Or.inl k
    · have := no_refs h0 k; omega
  · rw [e1, e2, if_pos h0]; show 0 + (s.freed + 1) = 1; omega
  · intro v z hz hpc; rw [hu v z hz] at hpc; cases hpc
  · intro v z hz hpc; rw [hu v z hz] at hpc; cases hpc
  · have hc : ∀ u, s.m.clear t (.data u) = true := fun u => decide_eq_true (h.atFree t x hx hpc u)
    have : (List.range s.th.length).all (fun u => s.m.clear t (.data u)) = true := List.all_eq_true.2 fun u _ => hc u
    simp only [doFree, h.race, this]; rfl
  · simp [doFree, h.uaf, hf]

theorem inv_step {c : Cfg} (hc : Strong c) (s : State) (a : Act) (s' : State) (hb : handles s < W) (hb' : handles s' < W) (h : Inv s) (hst : step c s a = some s') : Inv s' := by
  cases a with
  | access t =>
    simp only [step] at hst
    split at hst
    · split at hst
      · cases hst; exact inv_access h ‹_› (by rename_i k; exact k.2)
      · cases hst
    · cases hst
  | copy t ts =>
    simp only [step] at hst
    split at hst
    · split at hst
      · rename_i k; exact inv_copy h ‹_› k.1 k.2 hst hb'
      · cases hst
    · cases hst
  | give t u =>
    simp only [step] at hst
    split at hst
    · split at hst
      · rename_i x y hx hy k; cases hst; exact inv_give h hx hy k.1 k.2.1 k.2.2.1 k.2.2.2
      · cases hst
    · cases hst
  | drop t ts =>
    simp only [step] at hst
    split at hst
    · split at hst
      · rename_i k; exact inv_drop hc h hb ‹_› k.1 k.2 hst
      · cases hst
    · cases hst
  | fence t =>
    simp only [step] at hst
    split at hst
    · split at hst
      · cases hst; exact inv_fence hc h ‹_› ‹_›
      · cases hst
    · cases hst
  | free t =>
    simp only [step] at hst
    split at hst
    · split at hst
      · cases hst; exact inv_free h ‹_› ‹_›
      · cases hst
    · cases hst

theorem inv_init (s : State) (h : Init s) : Inv s := by
  obtain ⟨k, n, hk, rfl⟩ := h
  have hh : handles (startOf k n) = k := by simp [handles, startOf]
  have hb : busy (startOf k n) = 0 := by simp [busy, startOf, Th.busy]
  refine ⟨?_, ?_, ⟨⟨k, zero⟩, rfl, hh.symm, fun _ => Or.inl (Nat.zero_le _)⟩, fun _ => Nat.zero_le _, ?_, fun _ _ _ _ _ => Nat.zero_le _, fun _ _ _ _ _ => Nat.zero_le _, rfl, rfl⟩
  · intro j hj
    have : j = 0 := Nat.le_zero.1 hj
    subst this; nofun
  · intro j y hy
    have hy : (if j = 0 then some (⟨k, zero⟩ : Msg Loc) else none) = some y := hy
    split at hy
    · rename_i e; subst e; exact Nat.le_refl _
    · cases hy
  · rw [hh, hb, if_neg (by omega)]; rfl

end Verif.RefRA
