import Verif.BlockRA.Model
/-! The invariant of the blocking counter over the memory of C++ threads. -/
namespace Verif.BlockRA
open Verif.Common Verif.RelAcq

/-- The orders that matter: release of `Dec` and of the notification, acquire of `prepareWait`, and the fence. -/
structure Strong (c : Cfg) : Prop where
  decRel : c.decRel = true
  prepAcq : c.prepAcq = true
  notRel : c.notRel = true
  fence : c.fence = true

def Pc.isWork : Pc → Bool | .work => true | _ => false
def Pc.isNotify : Pc → Bool | .notify => true | _ => false
def Pc.isNlock : Pc → Bool | .nlock => true | _ => false
/-- The thread is counted as a waiter in `val_`. -/
def Pc.hasKey : Pc → Bool | .test _ | .lock _ | .sleep | .woke | .drop | .won true | .dropG => true | _ => false

/-- Who does what. -/
structure Q (th : List Pc) (cv : Nat) (fired : Bool) (phase : Nat) : Prop where
  len : th.length < E
  cvEq : cv = th.countP Pc.isWork
  fire : fired = true → cv = 0
  ph : phase ≠ 0 → fired = true
  p3 : phase ≤ 3
  nt : th.countP Pc.isNotify = if fired = true ∧ phase = 0 then 1 else 0
  nl : th.countP Pc.isNlock = if phase = 1 then 1 else 0

/-- The messages of `count_`. -/
structure Cnt (s : State) : Prop where
  all : ∀ ts, ts ≤ s.topC → s.m.msg .cnt ts ≠ none
  le : ∀ ts y, s.m.msg .cnt ts = some y → ts ≤ s.topC
  last : ∃ y, s.m.msg .cnt s.topC = some y ∧ y.val = s.cv ∧ ∀ u : Nat, s.th[u]? ≠ some .work → s.m.log (.data u) ≤ y.view (.data u)
  zero : ∀ ts y, s.m.msg .cnt ts = some y → y.val = 0 → ts = s.topC
  init : s.fired = false → s.cv = 0 → s.topC = 0

/-- The messages of `val_`. -/
structure Val (s : State) : Prop where
  all : ∀ ts, ts ≤ s.topV → s.m.msg .val ts ≠ none
  le : ∀ ts y, s.m.msg .val ts = some y → ts ≤ s.topV
  last : ∃ y, s.m.msg .val s.topV = some y ∧ y.val = (if s.phase = 0 then 0 else E) + s.th.countP Pc.hasKey
  ep : ∀ ts y, s.m.msg .val ts = some y → y.val / E = if s.phase ≠ 0 ∧ s.nAt ≤ ts then 1 else 0
  know : s.phase ≠ 0 → ∀ ts y, s.nAt ≤ ts → s.m.msg .val ts = some y → s.topC ≤ y.view .cnt

/-- What is known when thread `t` is at `p`. -/
def Good (s : State) (t : Nat) : Pc → Prop
  | .notify => s.topC ≤ s.m.cur t .cnt
  | .nlock => s.nAt ≤ s.m.cur t .val
  | .test e => (e = 0 ∧ s.phase ≠ 3) ∨ (e = 1 ∧ s.phase ≠ 0 ∧ s.topC ≤ s.m.cur t .cnt)
  | .lock e => e = 0 ∧ s.phase ≠ 3 ∧ (s.fired = true ∨ s.cv ≠ 0)
  | .sleep => s.phase ≠ 3 ∧ s.phase ≠ 2 ∧ (s.fired = true ∨ s.cv ≠ 0)
  | .won _ => s.cv = 0 ∧ ∀ u, s.m.log (.data u) ≤ s.m.acq t (.data u)
  | .dropG | .got => s.cv = 0 ∧ ∀ u, s.m.log (.data u) ≤ s.m.cur t (.data u)
  | _ => True

structure Inv (s : State) : Prop where
  q : Q s.th s.cv s.fired s.phase
  cnt : Cnt s
  val : Val s
  good : ∀ (t : Nat) (p : Pc), s.th[t]? = some p → Good s t p
  mine : ∀ t, s.m.log (.data t) ≤ s.m.cur t (.data t)
  lockV : s.phase = 2 → s.nAt ≤ s.lockView .val
  seen : s.seen = true → s.cv = 0
  race : s.race = false

theorem count_set {l : List Pc} {t : Nat} {p q : Pc} (f : Pc → Bool) (h : l[t]? = some p) :
    (l.set t q).countP f + (if f p then 1 else 0) = l.countP f + (if f q then 1 else 0) := by
  have ht := lt_of_get h
  have hp : l[t] = p := by rw [List.getElem?_eq_getElem ht] at h; simpa using h
  rw [List.countP_set ht, hp]
  have : (if f p then 1 else 0) ≤ l.countP f := by
    split
    · rename_i hf
      exact List.countP_pos_iff.2 ⟨p, by rw [← hp]; exact List.getElem_mem ht, hf⟩
    · exact Nat.zero_le _
  have e : (if f p = true then 1 else 0) = (if f p then 1 else 0) := rfl
  omega

theorem pos_of {l : List Pc} {i : Nat} {p : Pc} {f : Pc → Bool} (h : l[i]? = some p) (hf : f p = true) : 1 ≤ l.countP f :=
  List.countP_pos_iff.2 ⟨p, List.mem_of_getElem? h, hf⟩

theorem get_set {l : List Pc} {t : Nat} {p p' : Pc} (ht : l[t]? = some p) (i : Nat) (x : Pc) (hx : (l.set t p')[i]? = some x) :
    (i = t ∧ x = p') ∨ (i ≠ t ∧ l[i]? = some x) := by
  by_cases e : i = t
  · subst e; rw [List.getElem?_set_self (lt_of_get ht)] at hx; cases hx; exact Or.inl ⟨rfl, rfl⟩
  · rw [List.getElem?_set_ne (fun h => e h.symm)] at hx; exact Or.inr ⟨e, hx⟩

/-- A step of a thread that is not at `work`, `notify` or `nlock`, and does not get there. -/
theorem Q.move {th : List Pc} {cv phase : Nat} {fired : Bool} (h : Q th cv fired phase) {t : Nat} {p p' : Pc} (ht : th[t]? = some p)
    (h1 : p.isWork = p'.isWork) (h2 : p.isNotify = p'.isNotify) (h3 : p.isNlock = p'.isNlock) : Q (th.set t p') cv fired phase := by
  have c1 := count_set (q := p') Pc.isWork ht
  have c2 := count_set (q := p') Pc.isNotify ht
  have c3 := count_set (q := p') Pc.isNlock ht
  rw [h1] at c1; rw [h2] at c2; rw [h3] at c3
  exact ⟨by simpa using h.len, by rw [h.cvEq]; omega, h.fire, h.ph, h.p3, by rw [← h.nt]; omega, by rw [← h.nl]; omega⟩

theorem work_set {th : List Pc} {t : Nat} {p p' : Pc} (ht : th[t]? = some p) (h1 : p.isWork = p'.isWork) (u : Nat)
    (h : (th.set t p')[u]? ≠ some .work) : th[u]? ≠ some .work := by
  intro e
  by_cases hu : u = t
  · subst hu
    rw [ht] at e; cases e
    have hp' : p' = .work := by cases p' <;> first | rfl | cases h1
    subst hp'
    exact h (List.getElem?_set_self (lt_of_get ht))
  · exact h (by rw [List.getElem?_set_ne (fun h => hu h.symm)]; exact e)

/-- Steps that leave `count_` alone. -/
theorem Cnt.same {s s' : State} (h : Cnt s) (hm : ∀ ts, s'.m.msg .cnt ts = s.m.msg .cnt ts) (hc : s'.cv = s.cv) (ht : s'.topC = s.topC) (hf : s'.fired = s.fired)
    (hl : s'.m.log = s.m.log) (hw : ∀ u : Nat, s'.th[u]? ≠ some .work → s.th[u]? ≠ some .work) : Cnt s' := by
  obtain ⟨h1, h2, ⟨y, h3, h4, h5⟩, h6, h7⟩ := h
  refine ⟨?_, ?_, ⟨y, ?_, ?_, ?_⟩, ?_, ?_⟩
  · intro ts; rw [hm, ht]; exact h1 ts
  · intro ts y; rw [hm, ht]; exact h2 ts y
  · rw [hm, ht]; exact h3
  · rw [hc]; exact h4
  · intro u hu; rw [hl]; exact h5 u (hw u hu)
  · intro ts y; rw [hm, ht]; exact h6 ts y
  · rw [hf, hc, ht]; exact h7

/-- Steps that leave `val_` alone. -/
theorem Val.same {s s' : State} (h : Val s) (hm : ∀ ts, s'.m.msg .val ts = s.m.msg .val ts) (ht : s'.topV = s.topV) (hp : s'.phase = 0 ↔ s.phase = 0) (hn : s'.nAt = s.nAt)
    (hc : s'.topC = s.topC ∨ s.phase = 0) (hk : s'.th.countP Pc.hasKey = s.th.countP Pc.hasKey) : Val s' := by
  obtain ⟨h1, h2, ⟨y, h3, h4⟩, h6, h7⟩ := h
  refine ⟨?_, ?_, ⟨y, ?_, ?_⟩, ?_, ?_⟩
  · intro ts; rw [hm, ht]; exact h1 ts
  · intro ts y; rw [hm, ht]; exact h2 ts y
  · rw [hm, ht]; exact h3
  · rw [hk, h4]; simp only [hp]
  · intro ts y; rw [hm, hn]; simp only [ne_eq, hp]; exact h6 ts y
  · intro h0 ts y; rw [hm, hn]
    have h0 : s.phase ≠ 0 := fun e => h0 (hp.2 e)
    rcases hc with hc | hc
    · rw [hc]; exact h7 h0 ts y
    · exact absurd hc h0

/-- What a thread knows stays. -/
theorem Good.frame {s s' : State} {t : Nat} {p : Pc} (h : Good s t p) (hc : s'.cv = s.cv) (ht : s'.topC = s.topC) (hf : s'.fired = s.fired) (hp : s'.phase = s.phase)
    (hn : s'.nAt = s.nAt) (hl : s'.m.log = s.m.log) (h1 : ∀ l, s.m.cur t l ≤ s'.m.cur t l) (h2 : ∀ l, s.m.acq t l ≤ s'.m.acq t l) : Good s' t p := by
  cases p <;> simp only [Good] at h ⊢
  case notify => rw [ht]; exact Nat.le_trans h (h1 _)
  case nlock => rw [hn]; exact Nat.le_trans h (h1 _)
  case test e =>
    rw [hp, ht]
    exact h.imp id (fun ⟨a, b, k⟩ => ⟨a, b, Nat.le_trans k (h1 _)⟩)
  case lock e => rw [hp, hf, hc]; exact h
  case sleep => rw [hp, hf, hc]; exact h
  case won k => rw [hc, hl]; exact ⟨h.1, fun u => Nat.le_trans (h.2 u) (h2 _)⟩
  case dropG => rw [hc, hl]; exact ⟨h.1, fun u => Nat.le_trans (h.2 u) (h1 _)⟩
  case got => rw [hc, hl]; exact ⟨h.1, fun u => Nat.le_trans (h.2 u) (h1 _)⟩

theorem cnt_top {s : State} (h : Cnt s) {m : Mem Loc} {t ts : Nat} {f : Nat → Nat} {a r : Bool} {y : Msg Loc} {w : View Loc} (L : Swapped s.m m t .cnt f a r ts y w) :
    ts = s.topC ∧ y.val = s.cv ∧ ∀ u : Nat, s.th[u]? ≠ some .work → s.m.log (.data u) ≤ y.view (.data u) := by
  have h1 := h.le ts y L.src
  have hts : ts = s.topC := by
    rcases Nat.eq_or_lt_of_le h1 with e | hlt
    · exact e
    · exact absurd L.free (h.all (ts + 1) hlt)
  obtain ⟨z, k1, k2, k3⟩ := h.last
  rw [← hts, L.src] at k1; cases k1
  exact ⟨hts, k2, k3⟩

theorem val_top {s : State} (h : Val s) {m : Mem Loc} {t ts : Nat} {f : Nat → Nat} {a r : Bool} {y : Msg Loc} {w : View Loc} (L : Swapped s.m m t .val f a r ts y w) :
    ts = s.topV ∧ y.val = (if s.phase = 0 then 0 else E) + s.th.countP Pc.hasKey := by
  have h1 := h.le ts y L.src
  have hts : ts = s.topV := by
    rcases Nat.eq_or_lt_of_le h1 with e | hlt
    · exact e
    · exact absurd L.free (h.all (ts + 1) hlt)
  obtain ⟨z, k1, k2⟩ := h.last
  rw [← hts, L.src] at k1; cases k1
  exact ⟨hts, k2⟩

/-- A worker is there: nothing has been notified. -/
theorem worker {s : State} (h : Inv s) {t : Nat} (ht : s.th[t]? = some .work) : 1 ≤ s.cv ∧ s.fired = false ∧ s.phase = 0 ∧ s.seen = false := by
  have h1 : 1 ≤ s.cv := by rw [h.q.cvEq]; exact pos_of ht rfl
  have h2 : s.fired = false := by
    cases e : s.fired with
    | false => rfl
    | true => have := h.q.fire e; omega
  refine ⟨h1, h2, ?_, ?_⟩
  · refine Classical.byContradiction fun e => ?_
    rw [h.q.ph e] at h2; cases h2
  · cases e : s.seen with
    | false => rfl
    | true => have := h.seen e; omega

/-- A change of `count_` by a worker: what the other threads know stays. -/
theorem Good.count {s s' : State} (h : Inv s) {t u : Nat} {p : Pc} (ht : s.th[t]? = some .work) (hu : s.th[u]? = some p) (hp : s'.phase = 0)
    (hz : s'.fired = true ∨ s'.cv ≠ 0) (hg : Good s u p) : Good s' u p := by
  obtain ⟨w1, w2, w3, _⟩ := worker h ht
  cases p <;> simp only [Good] at hg ⊢
  case notify => have := pos_of (f := Pc.isNotify) hu rfl; rw [h.q.nt, w2] at this; simp at this
  case nlock => have := pos_of (f := Pc.isNlock) hu rfl; rw [h.q.nl, w3] at this; simp at this
  case test e =>
    rcases hg with hg | hg
    · exact Or.inl ⟨hg.1, by omega⟩
    · exact absurd w3 hg.2.1
  case lock e => exact ⟨hg.1, by omega, hz⟩
  case sleep => exact ⟨by omega, by omega, hz⟩
  case won k => omega
  case dropG => omega
  case got => omega

theorem inv_write {s : State} (h : Inv s) {t : Nat} (ht : s.th[t]? = some .work) : Inv (doWrite s t) := by
  obtain ⟨w1, w2, w3, w4⟩ := worker h ht
  have hlog : ∀ u, u ≠ t → (doWrite s t).m.log (.data u) = s.m.log (.data u) := by
    intro u hu
    show (if Loc.data u = .data t then _ else _) = _
    rw [if_neg (fun e => hu (Loc.data.inj e))]
  have hcur : ∀ u l, s.m.cur u l ≤ (doWrite s t).m.cur u l := by
    intro u l
    show _ ≤ upd s.m.cur t _ u l
    by_cases e : u = t
    · subst e; rw [upd_same]; exact le_join_left _ _ _
    · rw [upd_ne _ _ e]; exact Nat.le_refl _
  have hc : s.m.clear t (.data t) = true := decide_eq_true (h.mine t)
  refine ⟨h.q, ?_, ?_, ?_, ?_, h.lockV, h.seen, ?_⟩
  · obtain ⟨h1, h2, ⟨y, h3, h4, h5⟩, h6, h7⟩ := h.cnt
    refine ⟨h1, h2, ⟨y, h3, h4, fun u hu => ?_⟩, h6, h7⟩
    by_cases e : u = t
    · subst e; exact absurd ht hu
    · rw [hlog u e]; exact h5 u hu
  · exact h.val.same (fun _ => rfl) rfl Iff.rfl rfl (Or.inl rfl) rfl
  · intro u p hu
    exact Good.count (s' := doWrite s t) h ht hu w3 (Or.inr (by show s.cv ≠ 0; omega)) (h.good u p hu)
  · intro u
    by_cases e : u = t
    · subst e
      show (if Loc.data u = .data u then s.m.log (.data u) + 1 else _) ≤ upd s.m.cur u _ u _
      rw [if_pos rfl, upd_same]
      have := le_join_right (s.m.cur u) (single (Loc.data u) (s.m.log (.data u) + 1)) (.data u)
      rwa [single_same] at this
    · rw [hlog u e]; exact Nat.le_trans (h.mine u) (hcur u _)
  · simp [doWrite, h.race, hc, w4]

/-- The messages of `count_` after a change by a worker. -/
theorem cnt_rmw {s : State} (h : Inv s) {m : Mem Loc} {t ts : Nat} {f : Nat → Nat} {a r : Bool} {y : Msg Loc} {w : View Loc} (L : Swapped s.m m t .cnt f a r ts y w)
    (ht : s.th[t]? = some .work) {th : List Pc} {fi : Bool} {v : Nat} (hv : f y.val = v) (hf : fi = true ∨ v ≠ 0)
    (hw : ∀ u : Nat, th[u]? ≠ some .work → s.th[u]? ≠ some .work ∨ (u = t ∧ r = true)) :
    Cnt { s with m := m, th := th, cv := v, topC := ts + 1, fired := fi } := by
  obtain ⟨hts, hy, hview⟩ := cnt_top h.cnt L
  obtain ⟨w1, _, _, _⟩ := worker h ht
  refine ⟨?_, ?_, ⟨_, L.new, hv, ?_⟩, ?_, ?_⟩
  · intro k hk
    show m.msg .cnt k ≠ none
    by_cases e : k = ts + 1
    · rw [e, L.new]; nofun
    · rw [L.old _ _ (fun x => e x.2)]
      have hk : k ≤ ts + 1 := hk
      exact h.cnt.all k (by omega)
  · intro k z hz
    show k ≤ ts + 1
    by_cases e : k = ts + 1
    · omega
    · have hz : m.msg .cnt k = some z := hz
      rw [L.old _ _ (fun x => e x.2)] at hz
      have := h.cnt.le k z hz
      omega
  · intro u hu
    show m.log (.data u) ≤ w (.data u)
    rw [L.log]
    rcases hw u hu with hu | ⟨rfl, hr⟩
    · exact Nat.le_trans (hview u hu) (L.rel _)
    · exact Nat.le_trans (h.mine u) (Nat.le_trans (L.mono u _) (L.pub hr _))
  · intro k z hz hz0
    show k = ts + 1
    refine Classical.byContradiction fun e => ?_
    have hz : m.msg .cnt k = some z := hz
    rw [L.old _ _ (fun x => e x.2)] at hz
    have hk := h.cnt.zero k z hz hz0
    rw [hk, ← hts, L.src] at hz; cases hz
    omega
  · intro h1 h2
    simp only at h1 h2
    rcases hf with hf | hf
    · rw [h1] at hf; cases hf
    · exact absurd h2 hf

theorem inv_add {s s' : State} (h : Inv s) {t u ts : Nat} (ht : s.th[t]? = some .work) (hu : s.th[u]? = some .idle) (hst : doAdd s t u ts = some s') : Inv s' := by
  unfold doAdd at hst
  split at hst
  · cases hst
  · rename_i v m hm
    cases hst
    obtain ⟨y, w, L, rfl⟩ := rmw_facts hm
    obtain ⟨hts, hy, hview⟩ := cnt_top h.cnt L
    obtain ⟨w1, w2, w3, w4⟩ := worker h ht
    have c1 := count_set (q := .work) Pc.isWork hu
    have c2 := count_set (q := .work) Pc.isNotify hu
    have c3 := count_set (q := .work) Pc.isNlock hu
    have c4 := count_set (q := .work) Pc.hasKey hu
    simp [Pc.isWork, Pc.isNotify, Pc.isNlock, Pc.hasKey] at c1 c2 c3 c4
    refine ⟨⟨?_, ?_, ?_, h.q.ph, h.q.p3, ?_, ?_⟩, ?_, ?_, ?_, ?_, ?_, ?_, h.race⟩
    · simpa using h.q.len
    · show y.val + 1 = _; rw [hy, h.q.cvEq, c1]
    · intro e; rw [w2] at e; cases e
    · show (s.th.set u .work).countP _ = _; rw [c2]; exact h.q.nt
    · show (s.th.set u .work).countP _ = _; rw [c3]; exact h.q.nl
    · refine cnt_rmw h L ht (fi := s.fired) rfl (Or.inr (by omega)) (fun x hx => Or.inl (fun e => hx ?_))
      by_cases hxu : x = u
      · subst hxu; exact List.getElem?_set_self (lt_of_get hu)
      · rw [List.getElem?_set_ne (fun e => hxu e.symm)]; exact e
    · exact h.val.same (fun k => L.old _ _ (fun x => by cases x.1)) rfl Iff.rfl rfl (Or.inr w3) c4
    · intro i p hi
      rcases get_set hu i p hi with ⟨rfl, rfl⟩ | ⟨hne, hi⟩
      · trivial
      · exact Good.count h ht hi w3 (Or.inr (by simp)) (h.good i p hi)
    · intro i; show m.log _ ≤ _; rw [L.log]; exact Nat.le_trans (h.mine i) (L.mono i _)
    · intro e; rw [w3] at e; cases e
    · intro e; rw [w4] at e; cases e

theorem inv_dec {c : Cfg} (hc : Strong c) {s s' : State} (h : Inv s) {t ts : Nat} (ht : s.th[t]? = some .work) (hst : doDec c s t ts = some s') : Inv s' := by
  unfold doDec at hst
  split at hst
  · cases hst
  · rename_i v m hm
    cases hst
    obtain ⟨y, w, L, rfl⟩ := rmw_facts hm
    obtain ⟨hts, hy, hview⟩ := cnt_top h.cnt L
    obtain ⟨w1, w2, w3, w4⟩ := worker h ht
    have hnt : s.th.countP Pc.isNotify = 0 := by rw [h.q.nt, w2]; simp
    have hnl : s.th.countP Pc.isNlock = 0 := by rw [h.q.nl, w3]; simp
    have c1 := count_set (q := if y.val = 1 then .notify else .idle) Pc.isWork ht
    have c2 := count_set (q := if y.val = 1 then .notify else .idle) Pc.isNotify ht
    have c3 := count_set (q := if y.val = 1 then .notify else .idle) Pc.isNlock ht
    have c4 := count_set (q := if y.val = 1 then .notify else .idle) Pc.hasKey ht
    have e1 : (if y.val = 1 then Pc.notify else .idle).isWork = false := by split <;> rfl
    have e2 : (if y.val = 1 then Pc.notify else .idle).isNotify = decide (y.val = 1) := by by_cases hh : y.val = 1 <;> simp [hh, Pc.isNotify]
    have e3 : (if y.val = 1 then Pc.notify else .idle).isNlock = false := by split <;> rfl
    have e4 : (if y.val = 1 then Pc.notify else .idle).hasKey = false := by split <;> rfl
    rw [e1] at c1; rw [e2] at c2; rw [e3] at c3; rw [e4] at c4
    simp [Pc.isWork, Pc.isNotify, Pc.isNlock, Pc.hasKey] at c1 c2 c3 c4
    have hq := h.q.cvEq
    refine ⟨⟨?_, ?_, ?_, ?_, h.q.p3, ?_, ?_⟩, ?_, ?_, ?_, ?_, ?_, ?_, h.race⟩
    · simpa using h.q.len
    · show y.val - 1 = (s.th.set t _).countP _; omega
    · intro e
      show y.val - 1 = 0
      simp only [w2, Bool.false_or, decide_eq_true_eq] at e
      omega
    · intro e; exact absurd w3 e
    · show (s.th.set t _).countP _ = _
      rw [c2, hnt]
      simp only [w2, Bool.false_or, w3, and_true, decide_eq_true_eq]
      omega
    · show (s.th.set t _).countP _ = _
      rw [c3, hnl, w3]; rfl
    · refine cnt_rmw h L ht rfl ?_ (fun x hx => ?_)
      · by_cases e : y.val = 1
        · left; simp [e]
        · right; omega
      · by_cases hxt : x = t
        · exact Or.inr ⟨hxt, hc.decRel⟩
        · left; rw [List.getElem?_set_ne (fun e => hxt e.symm)] at hx; exact hx
    · exact h.val.same (fun k => L.old _ _ (fun x => by cases x.1)) rfl Iff.rfl rfl (Or.inr w3) c4
    · intro i p hi
      rcases get_set ht i p hi with ⟨rfl, rfl⟩ | ⟨hne, hi⟩
      · by_cases e : y.val = 1
        · rw [if_pos e]; exact L.ge
        · rw [if_neg e]; trivial
      · refine Good.count h ht hi w3 ?_ (h.good i p hi)
        by_cases e : y.val = 1
        · left; simp [e]
        · right; show y.val - 1 ≠ 0; omega
    · intro i; show m.log _ ≤ _; rw [L.log]; exact Nat.le_trans (h.mine i) (L.mono i _)
    · intro e; rw [w3] at e; cases e
    · intro e; rw [w4] at e; cases e

/-- The messages of `val_` after a change. -/
theorem val_rmw {s : State} (h : Val s) {m : Mem Loc} {t ts : Nat} {f : Nat → Nat} {a r : Bool} {y : Msg Loc} {w : View Loc} (L : Swapped s.m m t .val f a r ts y w)
    {th : List Pc} (hlen : th.length < E) (hv : f y.val = (if s.phase = 0 then 0 else E) + th.countP Pc.hasKey) :
    Val { s with m := m, th := th, topV := ts + 1 } := by
  obtain ⟨hts, hy⟩ := val_top h L
  have hk : th.countP Pc.hasKey < E := Nat.lt_of_le_of_lt List.countP_le_length hlen
  refine ⟨?_, ?_, ⟨_, L.new, hv⟩, ?_, ?_⟩
  · intro k hk
    show m.msg .val k ≠ none
    by_cases e : k = ts + 1
    · rw [e, L.new]; nofun
    · rw [L.old _ _ (fun x => e x.2)]
      have hk : k ≤ ts + 1 := hk
      exact h.all k (by omega)
  · intro k z hz
    show k ≤ ts + 1
    by_cases e : k = ts + 1
    · omega
    · have hz : m.msg .val k = some z := hz
      rw [L.old _ _ (fun x => e x.2)] at hz
      have := h.le k z hz
      omega
  · intro k z hz
    show z.val / E = if s.phase ≠ 0 ∧ s.nAt ≤ k then 1 else 0
    have hz : m.msg .val k = some z := hz
    by_cases e : k = ts + 1
    · subst e; rw [L.new] at hz; cases hz
      show f y.val / E = _
      rw [hv]
      by_cases hp : s.phase = 0
      · rw [if_pos hp, if_neg (fun x => x.1 hp), Nat.zero_add]; exact Nat.div_eq_of_lt hk
      · have hn : s.nAt ≤ ts := by
          have he := h.ep ts y L.src
          rw [hy, if_neg hp] at he
          refine Classical.byContradiction fun hlt => ?_
          rw [if_neg (fun x => hlt x.2)] at he
          have : 0 < E := by decide
          have := Nat.div_pos (a := E + s.th.countP Pc.hasKey) (b := E) (by omega) this
          omega
        rw [if_neg hp, if_pos ⟨hp, by omega⟩, Nat.add_div_left _ (by decide), Nat.div_eq_of_lt hk]
    · rw [L.old _ _ (fun x => e x.2)] at hz
      exact h.ep k z hz
  · intro hp k z hk1 hz
    show s.topC ≤ z.view .cnt
    have hz : m.msg .val k = some z := hz
    by_cases e : k = ts + 1
    · subst e; rw [L.new] at hz; cases hz
      have he := h.ep ts y L.src
      rw [hy, if_neg hp] at he
      have hn : s.nAt ≤ ts := by
        refine Classical.byContradiction fun hlt => ?_
        rw [if_neg (fun x => hlt x.2)] at he
        have : 0 < E := by decide
        have := Nat.div_pos (a := E + s.th.countP Pc.hasKey) (b := E) (by omega) this
        omega
      exact Nat.le_trans (h.know hp ts y hn L.src) (L.rel _)
    · rw [L.old _ _ (fun x => e x.2)] at hz
      exact h.know hp k z hk1 hz

theorem inv_prep {c : Cfg} (hc : Strong c) {s s' : State} (h : Inv s) {t ts : Nat} (ht : s.th[t]? = some .prep) (hst : doPrep c s t ts = some s') : Inv s' := by
  unfold doPrep at hst
  split at hst
  · cases hst
  · rename_i v m hm
    cases hst
    obtain ⟨y, w, L, rfl⟩ := rmw_facts hm
    obtain ⟨hts, hy⟩ := val_top h.val L
    have c4 := count_set (q := .test (y.val / E)) Pc.hasKey ht
    simp [Pc.hasKey] at c4
    have hlen : (s.th.set t (.test (y.val / E))).length < E := by simpa using h.q.len
    refine ⟨h.q.move ht rfl rfl rfl, ?_, ?_, ?_, ?_, h.lockV, h.seen, h.race⟩
    · exact h.cnt.same (fun k => L.old _ _ (fun x => by cases x.1)) rfl rfl rfl L.log (work_set ht rfl)
    · exact val_rmw h.val L hlen (by rw [c4, hy]; omega)
    · intro i p hi
      rcases get_set ht i p hi with ⟨rfl, rfl⟩ | ⟨hne, hi⟩
      · have he := h.val.ep ts y L.src
        show (y.val / E = 0 ∧ s.phase ≠ 3) ∨ (y.val / E = 1 ∧ s.phase ≠ 0 ∧ s.topC ≤ m.cur i .cnt)
        by_cases hp : s.phase = 0
        · left; rw [if_neg (fun x => x.1 hp)] at he; exact ⟨he, by omega⟩
        · right
          have hn : s.nAt ≤ ts := by
            rw [hy, if_neg hp] at he
            refine Classical.byContradiction fun hlt => ?_
            rw [if_neg (fun x => hlt x.2)] at he
            have : 0 < E := by decide
            have := Nat.div_pos (a := E + s.th.countP Pc.hasKey) (b := E) (by omega) this
            omega
          rw [if_pos ⟨hp, hn⟩] at he
          exact ⟨he, hp, Nat.le_trans (h.val.know hp ts y hn L.src) (L.acq hc.prepAcq _)⟩
      · exact (h.good i p hi).frame rfl rfl rfl rfl rfl L.log (L.mono i) (L.acqMono i)
    · intro i; show m.log _ ≤ _; rw [L.log]; exact Nat.le_trans (h.mine i) (L.mono i _)

theorem inv_drop {s s' : State} (h : Inv s) {t ts : Nat} {p p' : Pc} (ht : s.th[t]? = some p) (hp : (p = .drop ∧ p' = .prep) ∨ (p = .dropG ∧ p' = .got))
    (hst : doDrop s t ts p' = some s') : Inv s' := by
  unfold doDrop at hst
  split at hst
  · cases hst
  · rename_i v m hm
    cases hst
    obtain ⟨y, w, L, rfl⟩ := rmw_facts hm
    obtain ⟨hts, hy⟩ := val_top h.val L
    have c4 := count_set (q := p') Pc.hasKey ht
    have k1 : p.hasKey = true := by rcases hp with ⟨rfl, rfl⟩ | ⟨rfl, rfl⟩ <;> rfl
    have k2 : p'.hasKey = false := by rcases hp with ⟨rfl, rfl⟩ | ⟨rfl, rfl⟩ <;> rfl
    rw [k1, k2] at c4
    simp at c4
    have hw : p.isWork = p'.isWork := by rcases hp with ⟨rfl, rfl⟩ | ⟨rfl, rfl⟩ <;> rfl
    have hlen : (s.th.set t p').length < E := by simpa using h.q.len
    refine ⟨h.q.move ht hw ?_ ?_, ?_, ?_, ?_, ?_, h.lockV, h.seen, h.race⟩
    · rcases hp with ⟨rfl, rfl⟩ | ⟨rfl, rfl⟩ <;> rfl
    · rcases hp with ⟨rfl, rfl⟩ | ⟨rfl, rfl⟩ <;> rfl
    · exact h.cnt.same (fun k => L.old _ _ (fun x => by cases x.1)) rfl rfl rfl L.log (work_set ht hw)
    · exact val_rmw h.val L hlen (by rw [hy]; omega)
    · intro i q hi
      rcases get_set ht i q hi with ⟨rfl, rfl⟩ | ⟨hne, hi⟩
      · rcases hp with ⟨rfl, rfl⟩ | ⟨rfl, rfl⟩
        · trivial
        · have := h.good i _ ht
          exact ⟨this.1, fun u => by show m.log _ ≤ _; rw [L.log]; exact Nat.le_trans (this.2 u) (L.mono i _)⟩
      · exact (h.good i q hi).frame rfl rfl rfl rfl rfl L.log (L.mono i) (L.acqMono i)
    · intro i; show m.log _ ≤ _; rw [L.log]; exact Nat.le_trans (h.mine i) (L.mono i _)

theorem inv_notify {c : Cfg} (hc : Strong c) {s s' : State} (h : Inv s) {t ts : Nat} (ht : s.th[t]? = some .notify) (hst : doNotify c s t ts = some s') : Inv s' := by
  unfold doNotify at hst
  split at hst
  · cases hst
  · rename_i v m hm
    cases hst
    obtain ⟨y, w, L, rfl⟩ := rmw_facts hm
    obtain ⟨hts, hy⟩ := val_top h.val L
    have hpos := pos_of (f := Pc.isNotify) ht rfl
    have hfp : s.fired = true ∧ s.phase = 0 := by
      refine Classical.byContradiction fun e => ?_
      rw [h.q.nt, if_neg e] at hpos; omega
    obtain ⟨hf, hp⟩ := hfp
    have hone : s.th.countP Pc.isNotify = 1 := by rw [h.q.nt, if_pos ⟨hf, hp⟩]
    have hnl : s.th.countP Pc.isNlock = 0 := by rw [h.q.nl, hp]; simp
    rw [if_pos hp, Nat.zero_add] at hy
    have hk : s.th.countP Pc.hasKey < E := Nat.lt_of_le_of_lt List.countP_le_length h.q.len
    have hmod : y.val % E = s.th.countP Pc.hasKey := by rw [hy]; exact Nat.mod_eq_of_lt hk
    have hg := h.good t _ ht
    generalize hq : (if y.val % E ≠ 0 then Pc.nlock else .idle) = q
    have c1 := count_set (q := q) Pc.isWork ht
    have c2 := count_set (q := q) Pc.isNotify ht
    have c3 := count_set (q := q) Pc.isNlock ht
    have c4 := count_set (q := q) Pc.hasKey ht
    have e1 : q.isWork = false := by subst hq; split <;> rfl
    have e2 : q.isNotify = false := by subst hq; split <;> rfl
    have e3 : q.isNlock = decide (y.val % E ≠ 0) := by subst hq; by_cases hh : y.val % E = 0 <;> simp [hh, Pc.isNlock]
    have e4 : q.hasKey = false := by subst hq; split <;> rfl
    rw [e1] at c1; rw [e2] at c2; rw [e3] at c3; rw [e4] at c4
    simp [Pc.isWork, Pc.isNotify, Pc.isNlock, Pc.hasKey] at c1 c2 c3 c4
    have hph : (if y.val % E ≠ 0 then 1 else 3) ≠ 0 := by split <;> omega
    have hlen : (s.th.set t q).length < E := by simpa using h.q.len
    have hk4 : (s.th.set t q).countP Pc.hasKey < E := by omega
    refine ⟨⟨hlen, ?_, h.q.fire, fun _ => hf, by show (if _ then 1 else 3) ≤ 3; split <;> omega, ?_, ?_⟩, ?_, ⟨?_, ?_, ⟨_, L.new, ?_⟩, ?_, ?_⟩, ?_, ?_, ?_, h.seen, h.race⟩
    · show s.cv = _; rw [h.q.cvEq, c1]
    · show (s.th.set t q).countP _ = _
      rw [if_neg (fun x => hph x.2)]; omega
    · show (s.th.set t q).countP _ = _
      rw [c3, hnl]
      by_cases e : y.val % E = 0 <;> simp [e]
    · exact h.cnt.same (fun k => L.old _ _ (fun x => by cases x.1)) rfl rfl rfl L.log (work_set ht e1.symm)
    · intro k hk
      show m.msg .val k ≠ none
      by_cases e : k = ts + 1
      · rw [e, L.new]; nofun
      · rw [L.old _ _ (fun x => e x.2)]
        have hk : k ≤ ts + 1 := hk
        exact h.val.all k (by omega)
    · intro k z hz
      show k ≤ ts + 1
      by_cases e : k = ts + 1
      · omega
      · have hz : m.msg .val k = some z := hz
        rw [L.old _ _ (fun x => e x.2)] at hz
        have := h.val.le k z hz
        omega
    · show y.val + E = (if _ = 0 then 0 else E) + (s.th.set t q).countP Pc.hasKey
      rw [if_neg hph, hy]; omega
    · intro k z hz
      show z.val / E = if _ ≠ 0 ∧ ts + 1 ≤ k then 1 else 0
      have hz : m.msg .val k = some z := hz
      by_cases e : k = ts + 1
      · subst e; rw [L.new] at hz; cases hz
        rw [if_pos ⟨hph, Nat.le_refl _⟩]
        show (y.val + E) / E = 1
        rw [Nat.add_div_right _ (by decide), Nat.div_eq_of_lt (by omega)]
      · rw [L.old _ _ (fun x => e x.2)] at hz
        have h1 := h.val.le k z hz
        have h2 := h.val.ep k z hz
        rw [if_neg (fun x => x.1 hp)] at h2
        rw [if_neg (fun x => by have := x.2; omega), h2]
    · intro _ k z hk1 hz
      show s.topC ≤ z.view .cnt
      have hz : m.msg .val k = some z := hz
      have hk1 : ts + 1 ≤ k := hk1
      by_cases e : k = ts + 1
      · subst e; rw [L.new] at hz; cases hz
        exact Nat.le_trans hg (Nat.le_trans (L.mono t _) (L.pub hc.notRel _))
      · rw [L.old _ _ (fun x => e x.2)] at hz
        have h1 := h.val.le k z hz
        omega
    · intro i p hi
      rcases get_set ht i p hi with ⟨rfl, rfl⟩ | ⟨hne, hi⟩
      · subst hq
        split
        · exact L.ge
        · trivial
      · have hgi := h.good i p hi
        have nokey : p.hasKey = true → (if y.val % E ≠ 0 then 1 else 3) = 1 := by
          intro hk
          have := pos_of (f := Pc.hasKey) hi hk
          rw [if_pos (by omega)]
        cases p <;> simp only [Good] at hgi ⊢
        case notify => exact Nat.le_trans hgi (L.mono i _)
        case nlock => have := pos_of (f := Pc.isNlock) hi rfl; omega
        case test e =>
          rcases hgi with hgi | hgi
          · exact Or.inl ⟨hgi.1, by rw [nokey rfl]; omega⟩
          · exact absurd hp hgi.2.1
        case lock e => exact ⟨hgi.1, by rw [nokey rfl]; omega, hgi.2.2⟩
        case sleep => exact ⟨by rw [nokey rfl]; omega, by rw [nokey rfl]; omega, hgi.2.2⟩
        case won k => exact ⟨hgi.1, fun u => by rw [L.log]; exact Nat.le_trans (hgi.2 u) (L.acqMono i _)⟩
        case dropG => exact ⟨hgi.1, fun u => by rw [L.log]; exact Nat.le_trans (hgi.2 u) (L.mono i _)⟩
        case got => exact ⟨hgi.1, fun u => by rw [L.log]; exact Nat.le_trans (hgi.2 u) (L.mono i _)⟩
    · intro i; show m.log _ ≤ _; rw [L.log]; exact Nat.le_trans (h.mine i) (L.mono i _)
    · intro e
      have e : (if y.val % E ≠ 0 then 1 else 3) = 2 := e
      split at e <;> omega

theorem enter_mono (s : State) (t u : Nat) (l : Loc) : s.m.cur u l ≤ (enter s t).cur u l := by
  show _ ≤ upd s.m.cur t _ u l
  by_cases e : u = t
  · subst e; rw [upd_same]; exact le_join_left _ _ _
  · rw [upd_ne _ _ e]; exact Nat.le_refl _

theorem enter_ge (s : State) (t : Nat) (l : Loc) : s.lockView l ≤ (enter s t).cur t l := by
  show _ ≤ upd s.m.cur t _ t l
  rw [upd_same]; exact le_join_right _ _ _

theorem inv_section {s : State} (h : Inv s) {t : Nat} (ht : s.th[t]? = some .nlock) : Inv (doSection s t) := by
  have hpos := pos_of (f := Pc.isNlock) ht rfl
  have hp : s.phase = 1 := by
    refine Classical.byContradiction fun e => ?_
    rw [h.q.nl, if_neg e] at hpos; omega
  have hnl : s.th.countP Pc.isNlock = 1 := by rw [h.q.nl, if_pos hp]
  have hf := h.q.ph (by omega)
  have hnt : s.th.countP Pc.isNotify = 0 := by rw [h.q.nt, if_neg (fun x => by have := x.2; omega)]
  have hg := h.good t _ ht
  have c1 := count_set (q := .idle) Pc.isWork ht
  have c2 := count_set (q := .idle) Pc.isNotify ht
  have c3 := count_set (q := .idle) Pc.isNlock ht
  have c4 := count_set (q := .idle) Pc.hasKey ht
  simp [Pc.isWork, Pc.isNotify, Pc.isNlock, Pc.hasKey] at c1 c2 c3 c4
  have cm : ∀ f : Pc → Bool, f .sleep = f .woke → ((s.th.set t .idle).map Pc.wake).countP f = (s.th.set t .idle).countP f := by
    intro f hf
    rw [List.countP_map]
    congr 1
    funext p
    cases p <;> simp [Pc.wake, Function.comp, hf]
  have hget : ∀ (i : Nat) (p : Pc), ((s.th.set t .idle).map Pc.wake)[i]? = some p → ∃ r, (s.th.set t .idle)[i]? = some r ∧ p = r.wake := by
    intro i p hi
    rw [List.getElem?_map] at hi
    cases e : (s.th.set t .idle)[i]? with
    | none => rw [e] at hi; cases hi
    | some r => rw [e] at hi; cases hi; exact ⟨r, rfl, rfl⟩
  refine ⟨⟨?_, ?_, h.q.fire, fun _ => hf, by show 2 ≤ 3; omega, ?_, ?_⟩, ?_, ?_, ?_, ?_, ?_, h.seen, h.race⟩
  · simpa [doSection] using h.q.len
  · show s.cv = _; rw [h.q.cvEq]; show _ = ((s.th.set t .idle).map Pc.wake).countP _; rw [cm _ rfl, c1]
  · show ((s.th.set t .idle).map Pc.wake).countP _ = _; rw [cm _ rfl, c2, hnt]; simp [doSection]
  · show ((s.th.set t .idle).map Pc.wake).countP _ = _; rw [cm _ rfl]; show _ = if (2 : Nat) = 1 then 1 else 0; rw [if_neg (by decide)]; omega
  · refine h.cnt.same (fun _ => rfl) rfl rfl rfl rfl (fun u hu e => hu ?_)
    show ((s.th.set t .idle).map Pc.wake)[u]? = some .work
    have hut : t ≠ u := fun x => by subst x; rw [ht] at e; cases e
    rw [List.getElem?_map, List.getElem?_set_ne hut, e]; rfl
  · refine h.val.same (fun _ => rfl) rfl ?_ rfl (Or.inl rfl) ?_
    · show 2 = 0 ↔ s.phase = 0; omega
    · show ((s.th.set t .idle).map Pc.wake).countP _ = _; rw [cm _ rfl, c4]
  · intro i p hi
    obtain ⟨r, hr, rfl⟩ := hget i p hi
    rcases get_set ht i r hr with ⟨rfl, rfl⟩ | ⟨hne, hi⟩
    · trivial
    · have hgi := h.good i r hi
      cases r <;> simp only [Good, Pc.wake] at hgi ⊢
      case notify => exact Nat.le_trans hgi (enter_mono s t i _)
      case nlock => exact Nat.le_trans hgi (enter_mono s t i _)
      case test e =>
        rcases hgi with hgi | hgi
        · exact Or.inl ⟨hgi.1, by show 2 ≠ 3; omega⟩
        · exact Or.inr ⟨hgi.1, by show 2 ≠ 0; omega, Nat.le_trans hgi.2.2 (enter_mono s t i _)⟩
      case lock e => exact ⟨hgi.1, by show 2 ≠ 3; omega, hgi.2.2⟩
      case won k => exact hgi
      case dropG => exact ⟨hgi.1, fun u => Nat.le_trans (hgi.2 u) (enter_mono s t i _)⟩
      case got => exact ⟨hgi.1, fun u => Nat.le_trans (hgi.2 u) (enter_mono s t i _)⟩
  · intro i; exact Nat.le_trans (h.mine i) (enter_mono s t i _)
  · intro _
    exact Nat.le_trans (Nat.le_trans hg (enter_mono s t t _)) (le_join_right _ _ _)

theorem inv_test {s s' : State} (h : Inv s) {t ts : Nat} {k : Bool} {p p' : Pc} (ht : s.th[t]? = some p)
    (hp : (p = .idle ∧ k = false ∧ p' = .prep) ∨ (∃ e, p = .test e ∧ k = true ∧ p' = .lock e)) (hst : doTest s t ts k p' = some s') : Inv s' := by
  unfold doTest at hst
  split at hst
  · cases hst
  · rename_i v m hm
    cases hst
    obtain ⟨y, L, rfl⟩ := load_facts hm
    generalize hq : (if y.val = 0 then Pc.won k else p') = q
    have e1 : p.isWork = q.isWork := by rcases hp with ⟨rfl, rfl, rfl⟩ | ⟨e, rfl, rfl, rfl⟩ <;> subst hq <;> split <;> rfl
    have e2 : p.isNotify = q.isNotify := by rcases hp with ⟨rfl, rfl, rfl⟩ | ⟨e, rfl, rfl, rfl⟩ <;> subst hq <;> split <;> rfl
    have e3 : p.isNlock = q.isNlock := by rcases hp with ⟨rfl, rfl, rfl⟩ | ⟨e, rfl, rfl, rfl⟩ <;> subst hq <;> split <;> rfl
    have e4 : p.hasKey = q.hasKey := by rcases hp with ⟨rfl, rfl, rfl⟩ | ⟨e, rfl, rfl, rfl⟩ <;> subst hq <;> split <;> rfl
    have c4 := count_set (q := q) Pc.hasKey ht
    rw [e4] at c4
    refine ⟨h.q.move ht e1 e2 e3, ?_, ?_, ?_, ?_, h.lockV, h.seen, h.race⟩
    · exact h.cnt.same (fun k => by show m.msg _ _ = _; rw [L.msg]) rfl rfl rfl L.log (work_set ht e1)
    · exact h.val.same (fun k => by show m.msg _ _ = _; rw [L.msg]) rfl Iff.rfl rfl (Or.inl rfl) (by show (s.th.set t q).countP _ = _; omega)
    · intro i r hi
      rcases get_set ht i r hi with ⟨rfl, rfl⟩ | ⟨hne, hi⟩
      · by_cases hv : y.val = 0
        · rw [if_pos hv] at hq; subst hq
          have htop := h.cnt.zero ts y L.src hv
          obtain ⟨z, k1, k2, k3⟩ := h.cnt.last
          rw [← htop, L.src] at k1; cases k1
          have hcv : s.cv = 0 := by omega
          refine ⟨hcv, fun u => ?_⟩
          show m.log _ ≤ m.acq i _
          rw [L.log]
          refine Nat.le_trans (k3 u (fun hu => ?_)) (L.acqv _)
          have := pos_of (f := Pc.isWork) hu rfl
          rw [← h.q.cvEq] at this; omega
        · rw [if_neg hv] at hq; subst hq
          rcases hp with ⟨rfl, rfl, rfl⟩ | ⟨e, rfl, rfl, rfl⟩
          · trivial
          · have hgi := h.good i _ ht
            have hfc : s.fired = true ∨ s.cv ≠ 0 := by
              refine Classical.byContradiction fun hn => ?_
              have hn1 : s.fired = false := by cases e : s.fired with | false => rfl | true => exact absurd (Or.inl e) hn
              have hn2 : s.cv = 0 := Classical.byContradiction fun e => hn (Or.inr e)
              have h0 := h.cnt.init hn1 hn2
              have hle := h.cnt.le ts y L.src
              obtain ⟨z, k1, k2, _⟩ := h.cnt.last
              have : ts = s.topC := by omega
              rw [← this, L.src] at k1; cases k1
              omega
            rcases hgi with hgi | hgi
            · exact ⟨hgi.1, hgi.2, hfc⟩
            · exfalso
              have hle := h.cnt.le ts y L.src
              have hmay := L.may
              have : ts = s.topC := Nat.le_antisymm hle (Nat.le_trans hgi.2.2 hmay)
              obtain ⟨z, k1, k2, _⟩ := h.cnt.last
              rw [← this, L.src] at k1; cases k1
              have := h.q.fire (h.q.ph hgi.2.1)
              omega
      · exact (h.good i r hi).frame rfl rfl rfl rfl rfl L.log (L.mono i) (L.acqMono i)
    · intro i; show m.log _ ≤ _; rw [L.log]; exact Nat.le_trans (h.mine i) (L.mono i _)

theorem inv_lock {s s' : State} (h : Inv s) {t e ts : Nat} (ht : s.th[t]? = some (.lock e)) (hst : doLock s t e ts = some s') : Inv s' := by
  unfold doLock at hst
  split at hst
  · cases hst
  · rename_i v m hm
    cases hst
    obtain ⟨y, L, rfl⟩ := load_facts hm
    have hmono : ∀ u l, s.m.cur u l ≤ m.cur u l := fun u l => Nat.le_trans (enter_mono s t u l) (L.mono u l)
    have hlog : m.log = s.m.log := L.log
    have hmsg : m.msg = s.m.msg := L.msg
    have hsrc : s.m.msg .val ts = some y := L.src
    generalize hq : (if y.val / E = e then Pc.sleep else .drop) = q
    have e1 : (Pc.lock e).isWork = q.isWork := by subst hq; split <;> rfl
    have e2 : (Pc.lock e).isNotify = q.isNotify := by subst hq; split <;> rfl
    have e3 : (Pc.lock e).isNlock = q.isNlock := by subst hq; split <;> rfl
    have e4 : (Pc.lock e).hasKey = q.hasKey := by subst hq; split <;> rfl
    have c4 := count_set (q := q) Pc.hasKey ht
    rw [e4] at c4
    have hgt := h.good t _ ht
    refine ⟨h.q.move ht e1 e2 e3, ?_, ?_, ?_, ?_, ?_, h.seen, h.race⟩
    · exact h.cnt.same (fun k => by show m.msg _ _ = _; rw [hmsg]) rfl rfl rfl hlog (work_set ht e1)
    · exact h.val.same (fun k => by show m.msg _ _ = _; rw [hmsg]) rfl Iff.rfl rfl (Or.inl rfl) (by show (s.th.set t q).countP _ = _; omega)
    · intro i r hi
      rcases get_set ht i r hi with ⟨rfl, rfl⟩ | ⟨hne, hi⟩
      · by_cases hv : y.val / E = e
        · rw [if_pos hv] at hq; subst hq
          refine ⟨hgt.2.1, fun hp2 => ?_, hgt.2.2⟩
          have hp2 : s.phase = 2 := hp2
          have h1 := h.lockV hp2
          have h2 : s.nAt ≤ ts := Nat.le_trans h1 (Nat.le_trans (enter_ge s i .val) L.may)
          have h3 := h.val.ep ts y hsrc
          rw [if_pos ⟨by omega, h2⟩] at h3
          have := hgt.1
          omega
        · rw [if_neg hv] at hq; subst hq; trivial
      · exact (h.good i r hi).frame rfl rfl rfl rfl rfl hlog (hmono i) (L.acqMono i)
    · intro i; show m.log _ ≤ _; rw [hlog]; exact Nat.le_trans (h.mine i) (hmono i _)
    · intro e; exact Nat.le_trans (h.lockV e) (le_join_left _ _ _)

theorem inv_finish {s : State} (h : Inv s) {t : Nat} (ht : s.th[t]? = some .woke) : Inv (doFinish s t) := by
  have c4 := count_set (q := .drop) Pc.hasKey ht
  simp [Pc.hasKey] at c4
  refine ⟨h.q.move ht rfl rfl rfl, h.cnt.same (fun _ => rfl) rfl rfl rfl rfl (work_set ht rfl), h.val.same (fun _ => rfl) rfl Iff.rfl rfl (Or.inl rfl) c4, ?_, ?_, ?_, h.seen, h.race⟩
  · intro i r hi
    rcases get_set ht i r hi with ⟨rfl, rfl⟩ | ⟨hne, hi⟩
    · trivial
    · exact (h.good i r hi).frame rfl rfl rfl rfl rfl rfl (enter_mono s t i) (fun _ => Nat.le_refl _)
  · intro i; exact Nat.le_trans (h.mine i) (enter_mono s t i _)
  · intro e; exact Nat.le_trans (h.lockV e) (le_join_left _ _ _)

theorem inv_fence {c : Cfg} (hc : Strong c) {s : State} (h : Inv s) {t : Nat} {k : Bool} (ht : s.th[t]? = some (.won k)) : Inv (doFence c s t k) := by
  have hmono : ∀ u l, s.m.cur u l ≤ (s.m.fence t).cur u l := by
    intro u l
    show _ ≤ upd s.m.cur t _ u l
    by_cases e : u = t
    · subst e; rw [upd_same]; exact le_join_left _ _ _
    · rw [upd_ne _ _ e]; exact Nat.le_refl _
  have hdef : doFence c s t k = { s with m := s.m.fence t, th := s.th.set t (if k then .dropG else .got) } := by simp [doFence, hc.fence]
  rw [hdef]
  have hg := h.good t _ ht
  have c4 := count_set (q := if k then .dropG else .got) Pc.hasKey ht
  have e4 : (Pc.won k).hasKey = (if k then Pc.dropG else .got).hasKey := by cases k <;> rfl
  rw [e4] at c4
  have e1 : (Pc.won k).isWork = (if k then Pc.dropG else .got).isWork := by cases k <;> rfl
  have hgood : ∀ (i : Nat) (r : Pc), (s.th.set t (if k then Pc.dropG else .got))[i]? = some r → Good { s with m := s.m.fence t, th := s.th.set t (if k then .dropG else .got) } i r := by
    intro i r hi
    rcases get_set ht i r hi with ⟨rfl, rfl⟩ | ⟨hne, hi⟩
    · have : s.cv = 0 ∧ ∀ u, (s.m.fence i).log (.data u) ≤ (s.m.fence i).cur i (.data u) := by
        refine ⟨hg.1, fun u => Nat.le_trans (hg.2 u) ?_⟩
        show _ ≤ upd s.m.cur i _ i _
        rw [upd_same]; exact le_join_right _ _ _
      cases k <;> exact this
    · exact (h.good i r hi).frame rfl rfl rfl rfl rfl rfl (hmono i) (fun _ => Nat.le_refl _)
  refine ⟨h.q.move ht e1 (by cases k <;> rfl) (by cases k <;> rfl), h.cnt.same (fun _ => rfl) rfl rfl rfl rfl (work_set ht e1),
    h.val.same (fun _ => rfl) rfl Iff.rfl rfl (Or.inl rfl) (by show (s.th.set t _).countP _ = _; omega), hgood, ?_, h.lockV, h.seen, h.race⟩
  intro i; exact Nat.le_trans (h.mine i) (hmono i _)

theorem inv_read {s : State} (h : Inv s) {t : Nat} (ht : s.th[t]? = some .got) : Inv (doRead s t) := by
  have hg := h.good t _ ht
  have hc : (List.range s.th.length).all (fun u => s.m.clear t (.data u)) = true := List.all_eq_true.2 (fun u _ => decide_eq_true (hg.2 u))
  exact ⟨h.q, h.cnt.same (fun _ => rfl) rfl rfl rfl rfl (fun _ h => h), h.val.same (fun _ => rfl) rfl Iff.rfl rfl (Or.inl rfl) rfl,
    fun i r hi => (h.good i r hi).frame rfl rfl rfl rfl rfl rfl (fun _ => Nat.le_refl _) (fun _ => Nat.le_refl _), h.mine, h.lockV, fun _ => hg.1,
    by simp only [doRead, h.race, hc]; rfl⟩

theorem inv_leave {s : State} (h : Inv s) {t : Nat} (ht : s.th[t]? = some .got) : Inv { s with th := s.th.set t .idle } := by
  have c4 := count_set (q := .idle) Pc.hasKey ht
  simp [Pc.hasKey] at c4
  refine ⟨h.q.move ht rfl rfl rfl, h.cnt.same (fun _ => rfl) rfl rfl rfl rfl (work_set ht rfl), h.val.same (fun _ => rfl) rfl Iff.rfl rfl (Or.inl rfl) c4, ?_, h.mine, h.lockV, h.seen, h.race⟩
  intro i r hi
  rcases get_set ht i r hi with ⟨rfl, rfl⟩ | ⟨hne, hi⟩
  · trivial
  · exact (h.good i r hi).frame rfl rfl rfl rfl rfl rfl (fun _ => Nat.le_refl _) (fun _ => Nat.le_refl _)

theorem inv_step {c : Cfg} (hc : Strong c) (s : State) (a : Act) (s' : State) (h : Inv s) (hst : step c s a = some s') : Inv s' := by
  cases a with
  | write t => simp only [step] at hst; split at hst <;> cases hst; exact inv_write h ‹_›
  | add t u ts =>
    simp only [step] at hst
    split at hst
    · rename_i hh; exact inv_add h hh.1 hh.2 hst
    · cases hst
  | dec t ts => simp only [step] at hst; split at hst; exact inv_dec hc h ‹_› hst; cases hst
  | notify t ts => simp only [step] at hst; split at hst; exact inv_notify hc h ‹_› hst; cases hst
  | «section» t => simp only [step] at hst; split at hst <;> cases hst; exact inv_section h ‹_›
  | test0 t ts => simp only [step] at hst; split at hst; exact inv_test h ‹_› (Or.inl ⟨rfl, rfl, rfl⟩) hst; cases hst
  | prep t ts => simp only [step] at hst; split at hst; exact inv_prep hc h ‹_› hst; cases hst
  | test t ts =>
    simp only [step] at hst
    split at hst
    · exact inv_test h ‹_› (Or.inr ⟨_, rfl, rfl, rfl⟩) hst
    · cases hst
  | lock t ts =>
    simp only [step] at hst
    split at hst
    · exact inv_lock h ‹_› hst
    · cases hst
  | finish t => simp only [step] at hst; split at hst <;> cases hst; exact inv_finish h ‹_›
  | drop t ts =>
    simp only [step] at hst
    split at hst
    · exact inv_drop h ‹_› (Or.inl ⟨rfl, rfl⟩) hst
    · exact inv_drop h ‹_› (Or.inr ⟨rfl, rfl⟩) hst
    · cases hst
  | fence t =>
    simp only [step] at hst
    split at hst
    · cases hst; exact inv_fence hc h ‹_›
    · cases hst
  | read t => simp only [step] at hst; split at hst <;> cases hst; exact inv_read h ‹_›
  | leave t => simp only [step] at hst; split at hst <;> cases hst; exact inv_leave h ‹_›

theorem inv_init (s : State) (h : Init s) : Inv s := by
  obtain ⟨n, k, hn, rfl⟩ := h
  have z : ∀ f : Pc → Bool, f .idle = false → f .work = false → (startOf n k).th.countP f = 0 := by
    intro f h1 h2
    refine List.countP_eq_zero.2 fun p hp => ?_
    rcases List.mem_append.1 hp with hp | hp <;> rw [List.eq_of_mem_replicate hp] <;> simp [h1, h2]
  have zw : (startOf n k).th.countP Pc.isWork = n := by
    show (List.replicate n Pc.work ++ List.replicate k Pc.idle).countP _ = n
    rw [List.countP_append, List.countP_replicate, List.countP_replicate]
    simp [Pc.isWork]
  have hmsg : ∀ l ts y, (startOf n k).m.msg l ts = some y → ts = 0 ∧ y = ⟨if l = .cnt then n else 0, zero⟩ := by
    intro l ts y hy
    have hy : (if ts = 0 then some (⟨if l = .cnt then n else 0, RelAcq.zero⟩ : Msg Loc) else none) = some y := hy
    split at hy
    · rename_i e; cases hy; exact ⟨e, rfl⟩
    · cases hy
  refine ⟨⟨?_, ?_, nofun, nofun, Nat.zero_le _, ?_, ?_⟩, ⟨?_, ?_, ?_, ?_, fun _ _ => rfl⟩, ⟨?_, ?_, ?_, ?_, nofun⟩, ?_, fun _ => Nat.zero_le _, nofun, nofun, rfl⟩
  · simpa [startOf] using hn
  · rw [zw]; rfl
  · rw [z _ rfl rfl]; rfl
  · rw [z _ rfl rfl]; rfl
  · intro ts hts
    have : ts = 0 := Nat.le_zero.1 hts
    subst this; nofun
  · intro ts y hy; have := (hmsg _ _ _ hy).1; subst this; exact Nat.le_refl _
  · exact ⟨⟨n, zero⟩, rfl, rfl, fun _ _ => Nat.zero_le _⟩
  · intro ts y hy _; exact (hmsg _ _ _ hy).1
  · intro ts hts
    have : ts = 0 := Nat.le_zero.1 hts
    subst this; nofun
  · intro ts y hy; have := (hmsg _ _ _ hy).1; subst this; exact Nat.le_refl _
  · exact ⟨⟨0, zero⟩, rfl, by rw [z _ rfl rfl]; rfl⟩
  · intro ts y hy
    obtain ⟨_, rfl⟩ := hmsg _ _ _ hy
    show (if Loc.val = .cnt then n else 0) / E = _
    rw [if_neg (show ¬ Loc.val = .cnt by nofun), Nat.zero_div]
    exact (if_neg (fun x => x.1 rfl)).symm
  · intro t p hp
    have hp := List.mem_of_getElem? hp
    rcases List.mem_append.1 hp with hp | hp <;> rw [List.eq_of_mem_replicate hp] <;> trivial

end Verif.BlockRA
