import Verif.FutRA.Model
/-! The invariant of a future. -/
namespace Verif.FutRA
open Verif.Common Verif.RelAcq

/-- A fence where it is needed. -/
def Strong (c : Cfg) : Prop := c.getFence = true ∧ (c.timed = true → c.forFence = true)

def CPc.isWin : CPc → Bool | .won _ | .got | .fin => true | _ => false
def CPc.isFin : CPc → Bool | .fin => true | _ => false

/-- Who has what, for all orders. -/
structure Base (s : State) : Prop where
  win : s.th.countP CPc.isWin = if s.taken then 1 else 0
  fin : s.th.countP CPc.isFin = if s.moved then 1 else 0
  early : s.prod ≠ .stored → s.taken = false ∧ ∀ i : Nat, s.th[i]? ≠ some .wonR
  ref : s.ref = true → s.taken = false
  noref : s.ref = false → ∀ i : Nat, s.th[i]? ≠ some .wonR
  ones : ∀ ts y, s.m.msg .has ts = some y → y.val = 1 → s.prod = .stored ∧ ts = s.pos
  free : s.prod ≠ .stored → ∀ ts y, s.m.msg .has ts = some y → ∀ k, k ≤ ts → s.m.msg .has k ≠ none
  next : s.taken = true → s.m.msg .has (s.pos + 1) ≠ none

/-- What the threads know of the value. -/
structure Data (c : Cfg) (s : State) : Prop where
  mine : s.prod ≠ .stored → s.m.log .data ≤ s.m.cur 0 .data
  pub : s.prod = .stored → s.moved = false → ∀ y, s.m.msg .has s.pos = some y → y.val = 1 → s.m.log .data ≤ y.view .data
  won : ∀ (i : Nat) (k : Bool), s.th[i]? = some (.won k) → s.m.log .data ≤ s.m.acq (i + 1) .data
  timed : ∀ (i : Nat), s.th[i]? = some (.won true) → c.timed = true
  got : ∀ i : Nat, s.th[i]? = some .got ∨ s.th[i]? = some .wonR → s.m.log .data ≤ s.m.cur (i + 1) .data
  race : s.race = false

theorem count_set {l : List CPc} {t : Nat} {p q : CPc} (f : CPc → Bool) (h : l[t]? = some p) :
    (l.set t q).countP f + (if f p then 1 else 0) = l.countP f + (if f q then 1 else 0) := by
  have ht := lt_of_get h
  have hp : l[t] = p := by rw [List.getElem?_eq_getElem ht] at h; simpa using h
  rw [List.countP_set ht, hp]
  have : (if f p then 1 else 0) ≤ l.countP f := by
    split
    · rename_i hf
      exact List.countP_pos_iff.2 ⟨p, by rw [← hp]; exact List.getElem_mem ht, hf⟩
    · exact Nat.zero_le _
  have e : (if f p = true then 1 else 0) = (if f p then 1 else 0) := rfl
  omega

theorem pos_of {l : List CPc} {i : Nat} {p : CPc} {f : CPc → Bool} (h : l[i]? = some p) (hf : f p = true) : 1 ≤ l.countP f :=
  List.countP_pos_iff.2 ⟨p, List.mem_of_getElem? h, hf⟩

theorem get_set {l : List CPc} {t : Nat} {p p' : CPc} (ht : l[t]? = some p) (i : Nat) (x : CPc) (hx : (l.set t p')[i]? = some x) :
    (i = t ∧ x = p') ∨ (i ≠ t ∧ l[i]? = some x) := by
  by_cases e : i = t
  · subst e; rw [List.getElem?_set_self (lt_of_get ht)] at hx; cases hx; exact Or.inl ⟨rfl, rfl⟩
  · rw [List.getElem?_set_ne (fun h => e h.symm)] at hx; exact Or.inr ⟨e, hx⟩

/-- Only one has won. -/
theorem two_of {l : List CPc} {i j : Nat} {p q : CPc} {f : CPc → Bool} (hi : l[i]? = some p) (hj : l[j]? = some q)
    (hp : f p = true) (hq : f q = true) (hij : i ≠ j) : 2 ≤ l.countP f := by
  by_cases hn : f .idle = true
  · have hd : (l.eraseIdx i).countP f + 1 = l.countP f := by
      have hlt := lt_of_get hi
      have e : l = l.take i ++ p :: l.drop (i + 1) := by
        have : l[i] = p := by rw [List.getElem?_eq_getElem hlt] at hi; simpa using hi
        rw [← this, ← List.drop_eq_getElem_cons hlt, List.take_append_drop]
      conv => rhs; rw [e]
      rw [List.eraseIdx_eq_take_drop_succ, List.countP_append, List.countP_append, List.countP_cons, hp]
      simp; omega
    have : 1 ≤ (l.eraseIdx i).countP f := by
      refine List.countP_pos_iff.2 ⟨q, ?_, hq⟩
      rw [List.mem_eraseIdx_iff_getElem?]
      exact ⟨j, fun h => hij h.symm, hj⟩
    omega
  · have c := count_set (q := .idle) f hi
    rw [hp] at c
    simp [hn] at c
    have := pos_of (l := l.set i .idle) (i := j) (p := q) (f := f) (by rw [List.getElem?_set_ne hij]; exact hj) hq
    omega

theorem win_le {s : State} (h : Base s) : s.th.countP CPc.isWin ≤ 1 := by rw [h.win]; split <;> omega

/-- A winner that has not finished: the value is there. -/
theorem not_moved {s : State} (h : Base s) {i : Nat} {p : CPc} (hi : s.th[i]? = some p) (hw : p.isWin = true) (hf : p.isFin = false) : s.moved = false := by
  cases e : s.moved with
  | false => rfl
  | true =>
    have h1 := h.fin
    rw [e] at h1
    obtain ⟨q, hq, hqf⟩ := List.countP_pos_iff.1 (by rw [h1]; exact Nat.one_pos)
    obtain ⟨j, hj⟩ := List.getElem?_of_mem hq
    have hne : i ≠ j := by
      rintro rfl
      rw [hi] at hj; cases hj
      rw [hf] at hqf; cases hqf
    have hqw : q.isWin = true := by cases q <;> first | rfl | cases hqf
    have := two_of (f := CPc.isWin) hi hj hw hqw hne
    have := win_le h
    omega

theorem touch_log (m : Mem Loc) (t : Nat) (l k : Loc) : (m.touch t l).log k = if k = l then m.log l + 1 else m.log k := rfl

theorem touch_self (m : Mem Loc) (t : Nat) (l : Loc) : (m.touch t l).log l ≤ (m.touch t l).cur t l := by
  rw [touch_log, if_pos rfl]
  unfold Mem.touch
  simp only [upd_same]
  have := le_join_right (m.cur t) (single l (m.log l + 1)) l
  rwa [single_same] at this

/-! ### Steps -/

theorem inv_set {c : Cfg} {s : State} (h : Base s) (hp : s.prod = .run) : Base (doSet s) ∧ (Data c s → Data c (doSet s)) := by
  have hns : s.prod ≠ .stored := by rw [hp]; nofun
  obtain ⟨e1, e2⟩ := h.early hns
  have hmv : s.th.countP CPc.isWin = 0 := by rw [h.win, e1]; rfl
  have nowin : ∀ (i : Nat) (p : CPc), s.th[i]? = some p → p.isWin = true → False := fun i p hi hw => by have := pos_of (f := CPc.isWin) hi hw; omega
  refine ⟨⟨h.win, h.fin, fun _ => ⟨e1, e2⟩, h.ref, h.noref, ?_, fun _ => h.free hns, h.next⟩, fun D => ⟨fun _ => touch_self _ _ _, nofun, ?_, ?_, ?_, ?_⟩⟩
  · intro ts y hy hv; exact absurd (h.ones ts y hy hv).1 hns
  · intro i k hi; exact (nowin i _ hi rfl).elim
  · intro i hi; exact (nowin i _ hi rfl).elim
  · rintro i (hi | hi)
    · exact (nowin i _ hi rfl).elim
    · exact absurd hi (e2 i)
  · have hc : s.m.clear 0 .data = true := decide_eq_true (D.mine hns)
    simp [doSet, D.race, hc]

theorem inv_publish {c : Cfg} {s s' : State} (h : Base s) (hp : s.prod = .wrote) {ts : Nat} (hst : doPublish s ts = some s') : Base s' ∧ (Data c s → Data c s') := by
  unfold doPublish at hst
  split at hst
  · cases hst
  rename_i m hm
  cases hst
  obtain ⟨w, L⟩ := store_facts hm
  have hns : s.prod ≠ .stored := by rw [hp]; nofun
  obtain ⟨e1, e2⟩ := h.early hns
  have hmv : s.th.countP CPc.isWin = 0 := by rw [h.win, e1]; rfl
  have nowin : ∀ (i : Nat) (p : CPc), s.th[i]? = some p → p.isWin = true → False := fun i p hi hw => by have := pos_of (f := CPc.isWin) hi hw; omega
  refine ⟨⟨h.win, h.fin, fun e => absurd rfl e, h.ref, h.noref, ?_, fun e => absurd rfl e, ?_⟩, fun D => ⟨fun e => absurd rfl e, ?_, ?_, ?_, ?_, D.race⟩⟩
  · intro k y hy hv
    refine ⟨rfl, ?_⟩
    show k = ts
    refine Classical.byContradiction fun e => ?_
    have hy : m.msg .has k = some y := hy
    rw [L.old _ _ (fun x => e x.2)] at hy
    exact hns (h.ones k y hy hv).1
  · intro e
    have e : s.taken = true := e
    rw [e1] at e; cases e
  · intro _ _ y hy _
    have hy : m.msg .has ts = some y := hy
    rw [L.new] at hy; cases hy
    show m.log .data ≤ _
    rw [L.log]
    rw [L.pub rfl]
    exact Nat.le_trans (D.mine hns) (L.mono 0 _)
  · intro i k hi; exact (nowin i _ hi rfl).elim
  · intro i hi; exact (nowin i _ hi rfl).elim
  · rintro i (hi | hi)
    · exact (nowin i _ hi rfl).elim
    · exact absurd hi (e2 i)

theorem inv_get {c : Cfg} {s s' : State} (h : Base s) {i ts : Nat} {k : Bool} (hr : s.ref = false) (hi : s.th[i]? = some .idle) (hk : k = true → c.timed = true)
    (hst : doGet s i k ts = some s') : Base s' ∧ (Data c s → Data c s') := by
  unfold doGet at hst
  split at hst
  · cases hst
  rename_i v m hm
  cases hst
  obtain ⟨y, w, L, rfl⟩ := rmw_facts hm
  have hold : ∀ k z, m.msg .has k = some z → z.val = 1 → s.m.msg .has k = some z ∧ k ≠ ts + 1 := by
    intro k z hz hv
    by_cases e : k = ts + 1
    · subst e; rw [L.new] at hz; cases hz; cases hv
    · rw [L.old _ _ (fun x => e x.2)] at hz; exact ⟨hz, e⟩
  have hkeep : ∀ k, s.m.msg .has k ≠ none → m.msg .has k ≠ none := by
    intro k hn
    by_cases e : k = ts + 1
    · subst e; rw [L.new]; nofun
    · rw [L.old _ _ (fun x => e x.2)]; exact hn
  by_cases hv : y.val = 1
  · obtain ⟨hst, hpos⟩ := h.ones ts y L.src hv
    have hnt : s.taken = false := by
      cases e : s.taken with
      | false => rfl
      | true => have := h.next e; rw [← hpos, L.free] at this; exact absurd rfl this
    have hw0 : s.th.countP CPc.isWin = 0 := by rw [h.win, hnt]; rfl
    have c1 := count_set (q := .won k) CPc.isWin hi
    have c2 := count_set (q := .won k) CPc.isFin hi
    simp [CPc.isWin, CPc.isFin] at c1 c2
    have nowin : ∀ (i : Nat) (p : CPc), s.th[i]? = some p → p.isWin = true → False := fun i p hi hw => by have := pos_of (f := CPc.isWin) hi hw; omega
    have hmv : s.moved = false := by
      cases e : s.moved with
      | false => rfl
      | true =>
        have h1 := h.fin
        rw [e] at h1
        obtain ⟨q, hq, hqf⟩ := List.countP_pos_iff.1 (by rw [h1]; exact Nat.one_pos)
        obtain ⟨j, hj⟩ := List.getElem?_of_mem hq
        exact (nowin j q hj (by cases q <;> first | rfl | cases hqf)).elim
    simp only [hv, if_true, decide_true, Bool.or_true]
    refine ⟨⟨?_, ?_, ?_, ?_, ?_, ?_, ?_, ?_⟩, fun D => ⟨?_, ?_, ?_, ?_, ?_, D.race⟩⟩
    · show (s.th.set i (.won k)).countP _ = 1; omega
    · show (s.th.set i (.won k)).countP _ = _; rw [c2]; exact h.fin
    · intro e; exact absurd hst e
    · intro e; have e : s.ref = true := e; rw [hr] at e; cases e
    · intro _ j hj
      rcases get_set hi j _ hj with ⟨_, e⟩ | ⟨_, hj⟩
      · cases e
      · exact h.noref hr j hj
    · intro j z hz hz1
      obtain ⟨a, b⟩ := hold j z hz hz1
      exact h.ones j z a hz1
    · intro e; exact absurd hst e
    · intro _
      show m.msg .has (s.pos + 1) ≠ none
      rw [← hpos, L.new]; nofun
    · intro e; exact absurd hst e
    · intro _ _ z hz hz1
      show m.log .data ≤ _
      rw [L.log]
      obtain ⟨a, b⟩ := hold _ z hz hz1
      exact D.pub hst hmv z a hz1
    · intro j k' hj
      show m.log .data ≤ m.acq (j + 1) .data
      rw [L.log]
      rcases get_set hi j _ hj with ⟨rfl, e⟩ | ⟨_, hj⟩
      · exact Nat.le_trans (D.pub hst hmv y (hpos ▸ L.src) hv) (L.acqv _)
      · exact (nowin j _ hj rfl).elim
    · intro j hj
      rcases get_set hi j _ hj with ⟨rfl, e⟩ | ⟨_, hj⟩
      · injection e with e; exact hk e.symm
      · exact (nowin j _ hj rfl).elim
    · intro j hj
      rcases hj with hj | hj <;> rcases get_set hi j _ hj with ⟨rfl, e⟩ | ⟨_, hj⟩
      · cases e
      · exact (nowin j _ hj rfl).elim
      · cases e
      · exact absurd hj (h.noref hr j)
  · have hth : s.th.set i .idle = s.th := by
      apply List.ext_getElem?
      intro j
      by_cases e : j = i
      · subst e; rw [List.getElem?_set_self (lt_of_get hi), hi]
      · rw [List.getElem?_set_ne (fun x => e x.symm)]
    simp only [hv, if_false, decide_false, Bool.or_false, hth]
    refine ⟨⟨h.win, h.fin, h.early, h.ref, h.noref, ?_, ?_, ?_⟩, fun D => ⟨?_, ?_, ?_, D.timed, ?_, D.race⟩⟩
    · intro j z hz hz1
      obtain ⟨a, b⟩ := hold j z hz hz1
      exact h.ones j z a hz1
    · intro hns j z hz k' hk'
      have hz : m.msg .has j = some z := hz
      by_cases e : j = ts + 1
      · by_cases e2 : k' = ts + 1
        · subst e2; show m.msg .has _ ≠ none; rw [L.new]; nofun
        · exact hkeep k' (h.free hns ts y L.src k' (by omega))
      · rw [L.old _ _ (fun x => e x.2)] at hz
        exact hkeep k' (h.free hns j z hz k' hk')
    · intro e; exact hkeep _ (h.next e)
    · intro e; show m.log _ ≤ _; rw [L.log]; exact Nat.le_trans (D.mine e) (L.mono 0 _)
    · intro e1 e2 z hz hz1
      show m.log .data ≤ _
      rw [L.log]
      obtain ⟨a, b⟩ := hold _ z hz hz1
      exact D.pub e1 e2 z a hz1
    · intro j k' hj; show m.log _ ≤ _; rw [L.log]; exact Nat.le_trans (D.won j k' hj) (L.acqMono _ _)
    · intro j hj; show m.log _ ≤ _; rw [L.log]; exact Nat.le_trans (D.got j hj) (L.mono _ _)

theorem inv_ref {c : Cfg} {s s' : State} (h : Base s) {i ts : Nat} (hr : s.ref = true) (hi : s.th[i]? = some .idle) (hst : doRef s i ts = some s') :
    Base s' ∧ (Data c s → Data c s') := by
  unfold doRef at hst
  split at hst
  · cases hst
  rename_i v m hm
  cases hst
  obtain ⟨y, L, rfl⟩ := load_facts hm
  have hnt := h.ref hr
  have hw0 : s.th.countP CPc.isWin = 0 := by rw [h.win, hnt]; rfl
  have nowin : ∀ (i : Nat) (p : CPc), s.th[i]? = some p → p.isWin = true → False := fun i p hi hw => by have := pos_of (f := CPc.isWin) hi hw; omega
  generalize hq : (if y.val = 1 then CPc.wonR else .idle) = q
  have c1 := count_set (q := q) CPc.isWin hi
  have c2 := count_set (q := q) CPc.isFin hi
  have q1 : q.isWin = false := by subst hq; split <;> rfl
  have q2 : q.isFin = false := by subst hq; split <;> rfl
  rw [q1] at c1
  rw [q2] at c2
  simp [CPc.isWin, CPc.isFin] at c1 c2
  have hone : q = .wonR → y.val = 1 := by
    intro e
    refine Classical.byContradiction fun hn => ?_
    rw [if_neg hn] at hq; rw [← hq] at e; cases e
  have hmv : s.moved = false := by
    cases e : s.moved with
    | false => rfl
    | true =>
      have h1 := h.fin
      rw [e] at h1
      obtain ⟨q, hq, hqf⟩ := List.countP_pos_iff.1 (by rw [h1]; exact Nat.one_pos)
      obtain ⟨j, hj⟩ := List.getElem?_of_mem hq
      exact (nowin j q hj (by cases q <;> first | rfl | cases hqf)).elim
  refine ⟨⟨?_, ?_, ?_, h.ref, ?_, ?_, ?_, ?_⟩, fun D => ⟨?_, ?_, ?_, ?_, ?_, D.race⟩⟩
  · show (s.th.set i q).countP _ = _; rw [c1]; exact h.win
  · show (s.th.set i q).countP _ = _; rw [c2]; exact h.fin
  · intro hns
    refine ⟨hnt, fun j hj => ?_⟩
    rcases get_set hi j _ hj with ⟨_, e⟩ | ⟨_, hj⟩
    · exact hns (h.ones ts y L.src (hone e.symm)).1
    · exact (h.early hns).2 j hj
  · intro e; have e : s.ref = false := e; rw [hr] at e; cases e
  · intro k z hz; have hz : m.msg .has k = some z := hz; rw [L.msg] at hz; exact h.ones k z hz
  · intro hns k z hz; have hz : m.msg .has k = some z := hz; rw [L.msg] at hz
    show ∀ k', _ → m.msg .has k' ≠ none
    rw [L.msg]; exact h.free hns k z hz
  · intro e; show m.msg _ _ ≠ _; rw [L.msg]; exact h.next e
  · intro e; show m.log _ ≤ _; rw [L.log]; exact Nat.le_trans (D.mine e) (L.mono 0 _)
  · intro e1 e2 z hz hz1
    show m.log .data ≤ _
    rw [L.log]
    have hz : m.msg .has s.pos = some z := hz
    rw [L.msg] at hz
    exact D.pub e1 e2 z hz hz1
  · intro j k hj
    rcases get_set hi j _ hj with ⟨_, e⟩ | ⟨_, hj⟩
    · rw [← e] at q1; cases q1
    · exact (nowin j _ hj rfl).elim
  · intro j hj
    rcases get_set hi j _ hj with ⟨_, e⟩ | ⟨_, hj⟩
    · rw [← e] at q1; cases q1
    · exact (nowin j _ hj rfl).elim
  · intro j hj
    show m.log .data ≤ m.cur (j + 1) .data
    rw [L.log]
    rcases hj with hj | hj <;> rcases get_set hi j _ hj with ⟨rfl, e⟩ | ⟨_, hj⟩
    · rw [← e] at q1; cases q1
    · exact (nowin j _ hj rfl).elim
    · obtain ⟨a, b⟩ := h.ones ts y L.src (hone e.symm)
      exact Nat.le_trans (D.pub a hmv y (b ▸ L.src) (hone e.symm)) (L.acq rfl _)
    · exact Nat.le_trans (D.got j (Or.inr hj)) (L.mono _ _)

theorem inv_fence {c : Cfg} {s : State} (h : Base s) {i : Nat} {k : Bool} (hi : s.th[i]? = some (.won k)) :
    Base (doFence c s i k) ∧ (Strong c → Data c s → Data c (doFence c s i k)) := by
  have c1 := count_set (q := .got) CPc.isWin hi
  have c2 := count_set (q := .got) CPc.isFin hi
  simp [CPc.isWin, CPc.isFin] at c1 c2
  have hmsg : (doFence c s i k).m.msg = s.m.msg := by show (if _ then _ else _ : Mem Loc).msg = _; split <;> rfl
  have hlog : (doFence c s i k).m.log = s.m.log := by show (if _ then _ else _ : Mem Loc).log = _; split <;> rfl
  have hacq : (doFence c s i k).m.acq = s.m.acq := by show (if _ then _ else _ : Mem Loc).acq = _; split <;> rfl
  have hmono : ∀ t l, s.m.cur t l ≤ (doFence c s i k).m.cur t l := by
    intro t l
    show _ ≤ (if _ then _ else _ : Mem Loc).cur t l
    split
    · show _ ≤ upd s.m.cur (i + 1) _ t l
      by_cases e : t = i + 1
      · subst e; rw [upd_same]; exact le_join_left _ _ _
      · rw [upd_ne _ _ e]; exact Nat.le_refl _
    · exact Nat.le_refl _
  have back : ∀ (j : Nat) (x : CPc), (s.th.set i .got)[j]? = some x → x ≠ .got → s.th[j]? = some x := by
    intro j x hj hx
    rcases get_set hi j x hj with ⟨_, e⟩ | ⟨_, hj⟩
    · exact absurd e hx
    · exact hj
  refine ⟨⟨?_, ?_, ?_, h.ref, ?_, ?_, ?_, ?_⟩, fun hc D => ⟨?_, ?_, ?_, ?_, ?_, D.race⟩⟩
  · show (s.th.set i .got).countP _ = _; rw [c1]; exact h.win
  · show (s.th.set i .got).countP _ = _; rw [c2]; exact h.fin
  · intro e; exact ⟨(h.early e).1, fun j hj => (h.early e).2 j (back j _ hj nofun)⟩
  · intro e j hj; exact h.noref e j (back j _ hj nofun)
  · rw [hmsg]; exact h.ones
  · rw [hmsg]; exact h.free
  · rw [hmsg]; exact h.next
  · intro e; rw [hlog]; exact Nat.le_trans (D.mine e) (hmono 0 _)
  · intro e1 e2; rw [hmsg, hlog]; exact D.pub e1 e2
  · intro j k' hj; rw [hlog, hacq]; exact D.won j k' (back j _ hj nofun)
  · intro j hj; exact D.timed j (back j _ hj nofun)
  · intro j hj
    rw [hlog]
    rcases hj with hj | hj
    · rcases get_set hi j _ hj with ⟨rfl, _⟩ | ⟨_, hj⟩
      · have hf : c.fences k = true := by
          cases k with
          | false => exact hc.1
          | true => exact hc.2 (D.timed j hi)
        show _ ≤ (if _ then _ else _ : Mem Loc).cur (j + 1) _
        rw [if_pos hf]
        show _ ≤ upd s.m.cur (j + 1) _ (j + 1) _
        rw [upd_same]
        exact Nat.le_trans (D.won j k hi) (le_join_right _ _ _)
      · exact Nat.le_trans (D.got j (Or.inl hj)) (hmono _ _)
    · exact Nat.le_trans (D.got j (Or.inr (back j _ hj nofun))) (hmono _ _)

theorem inv_take {c : Cfg} {s : State} (h : Base s) {i : Nat} (hi : s.th[i]? = some .got) : Base (doTake s i) ∧ (Data c s → Data c (doTake s i)) := by
  have c1 := count_set (q := .fin) CPc.isWin hi
  have c2 := count_set (q := .fin) CPc.isFin hi
  simp [CPc.isWin, CPc.isFin] at c1 c2
  have hmv := not_moved h hi rfl rfl
  have hf0 : s.th.countP CPc.isFin = 0 := by rw [h.fin, hmv]; rfl
  have htk : s.taken = true := by
    cases e : s.taken with
    | true => rfl
    | false => have := pos_of (f := CPc.isWin) hi rfl; rw [h.win, e] at this; cases this
  have hst : s.prod = .stored := Classical.byContradiction fun e => by rw [(h.early e).1] at htk; cases htk
  have hnr : s.ref = false := by
    cases e : s.ref with
    | false => rfl
    | true => rw [h.ref e] at htk; cases htk
  have other : ∀ (j : Nat) (p : CPc), p.isWin = true → s.th[j]? = some p → j = i := by
    intro j p hp hj
    refine Classical.byContradiction fun e => ?_
    have := two_of (f := CPc.isWin) hj hi hp rfl e
    have := win_le h
    omega
  have back : ∀ (j : Nat) (x : CPc), (s.th.set i .fin)[j]? = some x → x ≠ .fin → j ≠ i ∧ s.th[j]? = some x := by
    intro j x hj hx
    rcases get_set hi j x hj with ⟨_, e⟩ | ⟨hn, hj⟩
    · exact absurd e hx
    · exact ⟨hn, hj⟩
  refine ⟨⟨?_, ?_, fun e => absurd hst e, h.ref, fun e j hj => h.noref e j (back j _ hj nofun).2, h.ones, h.free, h.next⟩, fun D => ⟨fun e => absurd hst e, fun _ => nofun, ?_, ?_, ?_, ?_⟩⟩
  · show (s.th.set i .fin).countP _ = _; rw [c1]; exact h.win
  · show (s.th.set i .fin).countP _ = 1; omega
  · intro j k hj
    obtain ⟨a, b⟩ := back j _ hj nofun
    exact absurd (other j _ rfl b) a
  · intro j hj
    obtain ⟨a, b⟩ := back j _ hj nofun
    exact absurd (other j _ rfl b) a
  · rintro j (hj | hj)
    · obtain ⟨a, b⟩ := back j _ hj nofun
      exact absurd (other j _ rfl b) a
    · exact absurd (back j _ hj nofun).2 (h.noref hnr j)
  · have hc : s.m.clear (i + 1) .data = true := decide_eq_true (D.got i (Or.inl hi))
    simp [doTake, D.race, hc]

theorem inv_read {c : Cfg} {s : State} (h : Base s) {i : Nat} (hi : s.th[i]? = some .wonR) : Base (doRead s i) ∧ (Data c s → Data c (doRead s i)) := by
  refine ⟨⟨h.win, h.fin, h.early, h.ref, h.noref, h.ones, h.free, h.next⟩, fun D => ⟨D.mine, D.pub, D.won, D.timed, D.got, ?_⟩⟩
  have hc : s.m.clear (i + 1) .data = true := decide_eq_true (D.got i (Or.inr hi))
  simp [doRead, D.race, hc]

theorem inv_ev {c : Cfg} {s s' : State} (h : Base s) {t ts : Nat} {o : EvOp} (hst : doEv s t o ts = some s') : Base s' ∧ (Data c s → Data c s') := by
  unfold doEv at hst
  split at hst
  · cases hst
  rename_i v m hm
  cases hst
  obtain ⟨y, w, L, rfl⟩ := rmw_facts hm
  have hmsg : ∀ k, m.msg .has k = s.m.msg .has k := fun k => L.old _ _ (fun x => by cases x.1)
  refine ⟨⟨h.win, h.fin, h.early, h.ref, h.noref, ?_, ?_, ?_⟩, fun D => ⟨?_, ?_, ?_, D.timed, ?_, D.race⟩⟩
  · intro k z; show m.msg .has k = _ → _; rw [hmsg]; exact h.ones k z
  · intro e k z
    show m.msg .has k = _ → ∀ k', _ → m.msg .has k' ≠ _
    intro hz k' hk'
    rw [hmsg] at hz ⊢; exact h.free e k z hz k' hk'
  · show _ → m.msg .has _ ≠ _; rw [hmsg]; exact h.next
  · intro e; show m.log _ ≤ _; rw [L.log]; exact Nat.le_trans (D.mine e) (L.mono 0 _)
  · intro e1 e2 z hz hz1
    show m.log .data ≤ _
    rw [L.log]
    have hz : m.msg .has s.pos = some z := hz
    rw [hmsg] at hz
    exact D.pub e1 e2 z hz hz1
  · intro j k hj; show m.log _ ≤ _; rw [L.log]; exact Nat.le_trans (D.won j k hj) (L.acqMono _ _)
  · intro j hj; show m.log _ ≤ _; rw [L.log]; exact Nat.le_trans (D.got j hj) (L.mono _ _)

theorem inv_step2 (c : Cfg) (s : State) (a : Act) (s' : State) (h : Base s) (hst : step c s a = some s') : Base s' ∧ (Strong c → Data c s → Data c s') := by
  have drop : Base s' ∧ (Data c s → Data c s') → Base s' ∧ (Strong c → Data c s → Data c s') := fun h => ⟨h.1, fun _ => h.2⟩
  cases a with
  | set => simp only [step] at hst; split at hst <;> cases hst; exact drop (inv_set h ‹_›)
  | publish ts => simp only [step] at hst; split at hst; exact drop (inv_publish h ‹_› hst); cases hst
  | tryGet i k ts => simp only [step] at hst; split at hst; rename_i hk; exact drop (inv_get h hk.1 hk.2.1 hk.2.2 hst); cases hst
  | tryRef i ts => simp only [step] at hst; split at hst; rename_i hk; exact drop (inv_ref h hk.1 hk.2 hst); cases hst
  | fence i => simp only [step] at hst; split at hst <;> cases hst; exact inv_fence h ‹_›
  | take i => simp only [step] at hst; split at hst <;> cases hst; exact drop (inv_take h ‹_›)
  | read i => simp only [step] at hst; split at hst <;> cases hst; exact drop (inv_read h ‹_›)
  | ev t o ts => exact drop (inv_ev h hst)

theorem inv_init (c : Cfg) (s : State) (h : Init s) : Base s ∧ Data c s := by
  obtain ⟨r, n, rfl⟩ := h
  have hth : ∀ (i : Nat) (p : CPc), (startOf r n).th[i]? = some p → p = .idle := fun i p hp => List.eq_of_mem_replicate (List.mem_of_getElem? hp)
  have z : ∀ f : CPc → Bool, f .idle = false → (startOf r n).th.countP f = 0 := fun f hf => List.countP_eq_zero.2 fun p hp => by rw [List.eq_of_mem_replicate hp]; simp [hf]
  have hm : ∀ k y, (startOf r n).m.msg .has k = some y → k = 0 ∧ y.val = 0 := by
    intro k y hy
    have hy : (if k = 0 then some (⟨0, zero⟩ : Msg Loc) else none) = some y := hy
    split at hy
    · rename_i e; cases hy; exact ⟨e, rfl⟩
    · cases hy
  have nor : ∀ i : Nat, (startOf r n).th[i]? ≠ some .wonR := fun i hi => by have := hth i _ hi; cases this
  refine ⟨⟨z _ rfl, z _ rfl, fun _ => ⟨rfl, nor⟩, fun _ => rfl, fun _ => nor, ?_, ?_, fun e => ?_⟩,
    ⟨fun _ => Nat.zero_le _, fun e => ?_, fun _ _ _ => Nat.zero_le _, fun i hi => ?_, fun _ _ => Nat.zero_le _, rfl⟩⟩
  · intro k y hy hv; rw [(hm k y hy).2] at hv; cases hv
  · intro _ k y hy k' hk'
    have := (hm k y hy).1
    have : k' = 0 := by omega
    subst this; nofun
  · cases e
  · cases e
  · have := hth i _ hi; cases this

end Verif.FutRA
