import Verif.JoinRA.Model
/-! The invariant; only what the readers of the data know depends on the release in `Terminate`. -/
namespace Verif.JoinRA
open Verif.Common Verif.RelAcq

def JPc.owns : JPc → Bool | .own | .clr | .rel => true | _ => false
def JPc.waits : JPc → Bool | .own | .clr | .sleep => true | _ => false

def bitT (f : FPc) : Nat := if f = .run then 0 else 1
def bitB (f : FPc) : Nat := if f = .own ∨ f = .clr then 1 else 0

/-- Who has the lock. -/
structure Q (f : FPc) (th : List JPc) : Prop where
  one : bitB f + th.countP JPc.owns ≤ 1
  wait : ∀ (i : Nat) (p : JPc), th[i]? = some p → p.waits = true → f ≠ .clr ∧ f ≠ .done
  gone : ∀ (i : Nat) (p : JPc), th[i]? = some p → (p = .rel ∨ p = .ret) → f ≠ .run

/-- The last message of `flags_`. -/
structure Last (s : State) (y : Msg Loc) : Prop where
  val : y.val = bitT s.f + 2 * (bitB s.f + s.th.countP JPc.owns)
  q : s.f ≠ .clr → (∀ i : Nat, s.th[i]? ≠ some .clr) → s.m.log .q ≤ y.view .q
  fin : s.f = .done → s.m.log .data ≤ y.view .data

structure Inv (s : State) : Prop where
  w : Q s.f s.th
  all : ∀ ts, ts ≤ s.top → s.m.msg .flags ts ≠ none
  le : ∀ ts y, s.m.msg .flags ts = some y → ts ≤ s.top
  last : ∃ y, s.m.msg .flags s.top = some y ∧ Last s y
  mine : s.m.log .data ≤ s.m.cur 0 .data
  qf : s.f = .own ∨ s.f = .clr → s.m.log .q ≤ s.m.cur 0 .q
  qj : ∀ i : Nat, s.th[i]? = some .own ∨ s.th[i]? = some .clr → s.m.log .q ≤ s.m.cur (i + 1) .q
  seen : s.seen = true → s.f ≠ .run
  raceQ : s.raceQ = false

/-- What holds with release in `Terminate`. -/
structure Data (s : State) : Prop where
  pub : s.f ≠ .run → ∀ y, s.m.msg .flags s.top = some y → s.m.log .data ≤ y.view .data
  ret : ∀ i : Nat, s.th[i]? = some .rel ∨ s.th[i]? = some .ret → s.m.log .data ≤ s.m.cur (i + 1) .data
  race : s.race = false

theorem count_set {l : List JPc} {t : Nat} {p q : JPc} (f : JPc → Bool) (h : l[t]? = some p) :
    (l.set t q).countP f + (if f p then 1 else 0) = l.countP f + (if f q then 1 else 0) := by
  have ht := lt_of_get h
  have hp : l[t] = p := by rw [List.getElem?_eq_getElem ht] at h; simpa using h
  rw [List.countP_set ht, hp]
  have : (if f p then 1 else 0) ≤ l.countP f := by
    split
    · rename_i hf
      exact List.countP_pos_iff.2 ⟨p, by rw [← hp]; exact List.getElem_mem ht, hf⟩
    · exact Nat.zero_le _
  have e : (if f p = true then 1 else 0) = (if f p then 1 else 0) := rfl
  omega

theorem pos_of {l : List JPc} {i : Nat} {p : JPc} {f : JPc → Bool} (h : l[i]? = some p) (hf : f p = true) : 1 ≤ l.countP f :=
  List.countP_pos_iff.2 ⟨p, List.mem_of_getElem? h, hf⟩

theorem two_of {l : List JPc} {i j : Nat} {p q : JPc} {f : JPc → Bool} (hi : l[i]? = some p) (hj : l[j]? = some q)
    (hp : f p = true) (hq : f q = true) (hij : i ≠ j) : 2 ≤ l.countP f := by
  have hd : (l.eraseIdx i).countP f + 1 = l.countP f := by
    have hlt := lt_of_get hi
    have e : l = l.take i ++ p :: l.drop (i + 1) := by
      have : l[i] = p := by rw [List.getElem?_eq_getElem hlt] at hi; simpa using hi
      rw [← this, ← List.drop_eq_getElem_cons hlt, List.take_append_drop]
    conv => rhs; rw [e]
    rw [List.eraseIdx_eq_take_drop_succ, List.countP_append, List.countP_append, List.countP_cons, hp]
    simp; omega
  have : 1 ≤ (l.eraseIdx i).countP f := by
    refine List.countP_pos_iff.2 ⟨q, ?_, hq⟩
    rw [List.mem_eraseIdx_iff_getElem?]
    exact ⟨j, fun h => hij h.symm, hj⟩
  omega

theorem get_set {l : List JPc} {t : Nat} {p p' : JPc} (ht : l[t]? = some p) (i : Nat) (x : JPc) (hx : (l.set t p')[i]? = some x) :
    (i = t ∧ x = p') ∨ (i ≠ t ∧ l[i]? = some x) := by
  by_cases e : i = t
  · subst e; rw [List.getElem?_set_self (lt_of_get ht)] at hx; cases hx; exact Or.inl ⟨rfl, rfl⟩
  · rw [List.getElem?_set_ne (fun h => e h.symm)] at hx; exact Or.inr ⟨e, hx⟩

/-- A read-modify-write of `flags_` reads the last message. -/
theorem top_of {s : State} (h : Inv s) {m : Mem Loc} {t ts : Nat} {f : Nat → Nat} {a r : Bool} {y : Msg Loc} {w : View Loc} (L : Swapped s.m m t .flags f a r ts y w) :
    ts = s.top ∧ Last s y := by
  have h1 := h.le ts y L.src
  have hts : ts = s.top := by
    rcases Nat.eq_or_lt_of_le h1 with e | hlt
    · exact e
    · exact absurd L.free (h.all (ts + 1) hlt)
  obtain ⟨z, k1, k2⟩ := h.last
  rw [← hts, L.src] at k1; cases k1
  exact ⟨hts, k2⟩

/-- The messages of `flags_` after a read-modify-write. -/
theorem chain {s : State} (h : Inv s) {m : Mem Loc} {t ts : Nat} {f : Nat → Nat} {a r : Bool} {y : Msg Loc} {w : View Loc} (L : Swapped s.m m t .flags f a r ts y w) :
    (∀ k, k ≤ ts + 1 → m.msg .flags k ≠ none) ∧ (∀ k z, m.msg .flags k = some z → k ≤ ts + 1) := by
  obtain ⟨hts, _⟩ := top_of h L
  constructor
  · intro k hk
    by_cases e : k = ts + 1
    · rw [e, L.new]; nofun
    · rw [L.old _ _ (fun x => e x.2)]
      exact h.all k (by omega)
  · intro k z hz
    by_cases e : k = ts + 1
    · omega
    · rw [L.old _ _ (fun x => e x.2)] at hz
      have := h.le k z hz
      omega

theorem last_new {s : State} {m : Mem Loc} {t ts : Nat} {f : Nat → Nat} {a r : Bool} {y : Msg Loc} {w : View Loc} (L : Swapped s.m m t .flags f a r ts y w)
    {y' : Msg Loc} (h : m.msg .flags (ts + 1) = some y') : y' = ⟨f y.val, w⟩ := by
  rw [L.new] at h; cases h; rfl

theorem bits (f : FPc) : bitT f ≤ 1 ∧ bitB f ≤ 1 := by cases f <;> decide

/-! ### The fiber that ends -/

theorem inv_term {c : Cfg} {s s' : State} (h : Inv s) (hf : s.f = .run ∨ s.f = .spin) {ts : Nat} (hst : doTerm c s ts = some s') :
    Inv s' ∧ (c.termRel = true → Data s → Data s') := by
  unfold doTerm at hst
  split at hst
  · cases hst
  rename_i v m hm
  cases hst
  obtain ⟨y, w, L, rfl⟩ := rmw_facts hm
  obtain ⟨hts, hL⟩ := top_of h L
  obtain ⟨hc1, hc2⟩ := chain h L
  have hval := hL.val
  have hB : bitB s.f = 0 := by rcases hf with e | e <;> rw [e] <;> rfl
  have hone := h.w.one
  have hT := (bits s.f).1
  have hnc : s.f ≠ .clr := by rcases hf with e | e <;> rw [e] <;> nofun
  generalize hg : (if y.val / 2 % 2 = 0 then FPc.own else .spin) = g
  have gT : bitT g = 1 := by subst hg; split <;> rfl
  have gB : bitB g = if y.val / 2 % 2 = 0 then 1 else 0 := by subst hg; split <;> rfl
  have gr : g ≠ .run := by subst hg; split <;> nofun
  have gc : g ≠ .clr := by subst hg; split <;> nofun
  have gd : g ≠ .done := by subst hg; split <;> nofun
  refine ⟨⟨⟨?_, ?_, ?_⟩, hc1, hc2, ⟨_, L.new, ?_, ?_, fun e => absurd e gd⟩, ?_, ?_, ?_, fun _ => gr, h.raceQ⟩, fun hr D => ⟨?_, ?_, D.race⟩⟩
  · show bitB g + s.th.countP _ ≤ 1
    rw [gB]; split <;> omega
  · exact fun _ _ _ _ => ⟨gc, gd⟩
  · exact fun _ _ _ _ => gr
  · show orTB y.val = bitT g + 2 * (bitB g + s.th.countP _)
    rw [gT, gB]
    unfold orTB orB
    repeat' split
    all_goals omega
  · intro _ h2
    show m.log .q ≤ w .q
    rw [L.log]
    exact Nat.le_trans (hL.q hnc h2) (L.rel _)
  · show m.log _ ≤ _; rw [L.log]; exact Nat.le_trans h.mine (L.mono 0 _)
  · intro e
    show m.log .q ≤ m.cur 0 .q
    rw [L.log]
    have e : g = .own := by rcases e with e | e; exact e; exact absurd e gc
    have hv : y.val / 2 % 2 = 0 := by
      refine Classical.byContradiction fun hn => ?_
      rw [if_neg hn] at hg; rw [← hg] at e; cases e
    refine Nat.le_trans (hL.q hnc (fun i hi => ?_)) (L.acq rfl _)
    have := pos_of (f := JPc.owns) hi rfl
    omega
  · intro i hi
    show m.log .q ≤ _; rw [L.log]; exact Nat.le_trans (h.qj i hi) (L.mono _ _)
  · intro _ z hz
    have hz := last_new L hz
    subst hz
    show m.log .data ≤ w .data
    rw [L.log]
    exact Nat.le_trans h.mine (Nat.le_trans (L.mono 0 _) (L.pub hr _))
  · intro i hi
    show m.log .data ≤ _; rw [L.log]; exact Nat.le_trans (D.ret i hi) (L.mono _ _)

theorem inv_clr0 {s s' : State} (h : Inv s) (hf : s.f = .clr) {ts : Nat} (hst : doClr0 s ts = some s') : Inv s' ∧ (Data s → Data s') := by
  unfold doClr0 at hst
  split at hst
  · cases hst
  rename_i v m hm
  cases hst
  obtain ⟨y, w, L, rfl⟩ := rmw_facts hm
  obtain ⟨hts, hL⟩ := top_of h L
  obtain ⟨hc1, hc2⟩ := chain h L
  have hval := hL.val
  have hone := h.w.one
  have hB : bitB s.f = 1 := by rw [hf]; rfl
  have hT : bitT s.f = 1 := by rw [hf]; rfl
  have hnw : ∀ (i : Nat) (p : JPc), s.th[i]? = some p → p.waits = true → False := fun i p hi hp => (h.w.wait i p hi hp).1 hf
  refine ⟨⟨⟨?_, ?_, ?_⟩, hc1, hc2, ⟨_, L.new, ?_, ?_, fun _ => by show m.log _ ≤ _; rw [L.log]; exact Nat.le_trans h.mine (Nat.le_trans (L.mono 0 _) (L.pub rfl _))⟩, ?_, ?_, ?_, fun _ => nofun, h.raceQ⟩, fun D => ⟨?_, ?_, D.race⟩⟩
  · show 0 + s.th.countP _ ≤ 1; omega
  · exact fun i p hi hp => (hnw i p hi hp).elim
  · exact fun _ _ _ _ => nofun
  · show clearB y.val = 1 + 2 * (0 + s.th.countP _)
    unfold clearB
    split <;> omega
  · intro _ _
    show m.log .q ≤ w .q
    rw [L.log]
    exact Nat.le_trans (h.qf (Or.inr hf)) (Nat.le_trans (L.mono 0 _) (L.pub rfl _))
  · show m.log _ ≤ _; rw [L.log]; exact Nat.le_trans h.mine (L.mono 0 _)
  · rintro (e | e) <;> cases e
  · intro i hi
    show m.log .q ≤ _; rw [L.log]; exact Nat.le_trans (h.qj i hi) (L.mono _ _)
  · intro _ z hz
    have hz := last_new L hz
    subst hz
    show m.log .data ≤ w .data
    rw [L.log]
    exact Nat.le_trans (D.pub (by rw [hf]; nofun) y (hts ▸ L.src)) (L.rel _)
  · intro i hi
    show m.log .data ≤ _; rw [L.log]; exact Nat.le_trans (D.ret i hi) (L.mono _ _)

theorem touch_log (m : Mem Loc) (t : Nat) (l k : Loc) : (m.touch t l).log k = if k = l then m.log l + 1 else m.log k := rfl

theorem touch_mono (m : Mem Loc) (t u : Nat) (l k : Loc) : m.cur u k ≤ (m.touch t l).cur u k := by
  unfold Mem.touch
  simp only
  by_cases h : u = t
  · subst h; rw [upd_same]; exact le_join_left _ _ _
  · rw [upd_ne _ _ h]; exact Nat.le_refl _

theorem touch_self (m : Mem Loc) (t : Nat) (l : Loc) : (m.touch t l).log l ≤ (m.touch t l).cur t l := by
  rw [touch_log, if_pos rfl]
  unfold Mem.touch
  simp only [upd_same]
  have := le_join_right (m.cur t) (single l (m.log l + 1)) l
  rwa [single_same] at this

theorem touch_le {m : Mem Loc} {t u : Nat} {l k : Loc} (hk : k ≠ l) (h : m.log k ≤ m.cur u k) : (m.touch t l).log k ≤ (m.touch t l).cur u k := by
  rw [touch_log, if_neg hk]; exact Nat.le_trans h (touch_mono _ _ _ _ _)

theorem inv_write {s : State} (h : Inv s) (hf : s.f = .run) : Inv (doWrite s) ∧ (Data s → Data (doWrite s)) := by
  have hs : s.seen = false := by
    cases e : s.seen with
    | false => rfl
    | true => exact absurd hf (h.seen e)
  have hno : ∀ i : Nat, ¬ (s.th[i]? = some .rel ∨ s.th[i]? = some .ret) := by
    rintro i (hi | hi)
    · exact h.w.gone i _ hi (Or.inl rfl) hf
    · exact h.w.gone i _ hi (Or.inr rfl) hf
  obtain ⟨y, k1, k2⟩ := h.last
  refine ⟨⟨h.w, h.all, h.le, ⟨y, k1, k2.val, k2.q, fun e => by have e : s.f = .done := e; rw [hf] at e; cases e⟩, touch_self _ _ _, ?_, ?_, h.seen, h.raceQ⟩, fun D => ⟨fun e => absurd hf e, fun i hi => absurd hi (hno i), ?_⟩⟩
  · intro e; exact touch_le nofun (h.qf e)
  · intro i hi; exact touch_le nofun (h.qj i hi)
  · have hc : s.m.clear 0 .data = true := decide_eq_true h.mine
    simp [doWrite, D.race, hc, hs]

theorem inv_notify {s : State} (h : Inv s) (hf : s.f = .own) : Inv (doNotify s) ∧ (Data s → Data (doNotify s)) := by
  have hone := h.w.one
  have hB : bitB s.f = 1 := by rw [hf]; rfl
  have h0 : s.th.countP JPc.owns = 0 := by omega
  have hno : ∀ (i : Nat) (p : JPc), s.th[i]? = some p → p.owns = false := by
    intro i p hi
    cases e : p.owns with
    | false => rfl
    | true => have := pos_of (f := JPc.owns) hi e; omega
  have cm : (s.th.map JPc.wake).countP JPc.owns = s.th.countP JPc.owns := by
    rw [List.countP_map]; congr 1; funext p; cases p <;> rfl
  have hget : ∀ (i : Nat) (p : JPc), (s.th.map JPc.wake)[i]? = some p → ∃ r, s.th[i]? = some r ∧ p = r.wake := by
    intro i p hi
    rw [List.getElem?_map] at hi
    cases e : s.th[i]? with
    | none => rw [e] at hi; cases hi
    | some r => rw [e] at hi; cases hi; exact ⟨r, rfl, rfl⟩
  have hcur : ∀ u l, (s.m.touch 0 .q).cur u l ≤ (doNotify s).m.cur u l := by
    intro u l
    show _ ≤ (if u ≠ 0 ∧ s.th[u - 1]? = some .sleep then join ((s.m.touch 0 .q).cur u) ((s.m.touch 0 .q).cur 0) else (s.m.touch 0 .q).cur u) l
    split
    · exact le_join_left _ _ _
    · exact Nat.le_refl _
  have hlogd : (doNotify s).m.log .data = s.m.log .data := rfl
  obtain ⟨y, k1, k2⟩ := h.last
  refine ⟨⟨⟨?_, ?_, ?_⟩, h.all, h.le, ⟨y, k1, ?_, fun e => absurd rfl e, nofun⟩, ?_, ?_, ?_, fun _ => nofun, ?_⟩, fun D => ⟨?_, ?_, D.race⟩⟩
  · show 1 + (s.th.map JPc.wake).countP _ ≤ 1; rw [cm]; omega
  · intro i p hi hp
    obtain ⟨r, hr, rfl⟩ := hget i p hi
    have := hno i r hr
    cases r <;> first | (cases hp; done) | (cases this; done)
  · exact fun _ _ _ _ => nofun
  · show y.val = 1 + 2 * (1 + (s.th.map JPc.wake).countP _)
    rw [cm, k2.val, hf]; rfl
  · rw [hlogd]; exact Nat.le_trans h.mine (Nat.le_trans (touch_mono _ _ _ _ _) (hcur 0 _))
  · intro _; exact Nat.le_trans (touch_self s.m 0 .q) (hcur 0 _)
  · intro i hi
    exfalso
    rcases hi with hi | hi <;> obtain ⟨r, hr, e⟩ := hget i _ hi <;> have := hno i r hr <;> cases r <;> first | (cases e; done) | (cases this; done)
  · have hc : s.m.clear 0 .q = true := decide_eq_true (h.qf (Or.inl hf))
    simp [doNotify, h.raceQ, hc]
  · intro _ z hz
    exact D.pub (by rw [hf]; nofun) z hz
  · intro i hi
    rw [hlogd]
    rcases hi with hi | hi <;> obtain ⟨r, hr, e⟩ := hget i _ hi
    · have := hno i r hr
      cases r <;> first | (cases e; done) | (cases this; done)
    · by_cases hs : r = .sleep
      · subst hs
        show _ ≤ (if i + 1 ≠ 0 ∧ s.th[i + 1 - 1]? = some .sleep then join ((s.m.touch 0 .q).cur (i + 1)) ((s.m.touch 0 .q).cur 0) else (s.m.touch 0 .q).cur (i + 1)) .data
        rw [if_pos ⟨by omega, hr⟩]
        exact Nat.le_trans h.mine (Nat.le_trans (touch_mono _ _ _ _ _) (le_join_right _ _ _))
      · have hr2 : r = .ret := by cases r <;> first | rfl | exact absurd rfl hs | (cases e; done)
        subst hr2
        exact Nat.le_trans (D.ret i (Or.inr hr)) (Nat.le_trans (touch_mono _ _ _ _ _) (hcur _ _))

/-! ### The fibers that join -/

theorem inv_join {s s' : State} (h : Inv s) {i ts : Nat} (hi : s.th[i]? = some .idle) (hst : doJoin s i ts = some s') : Inv s' ∧ (Data s → Data s') := by
  unfold doJoin at hst
  split at hst
  · cases hst
  rename_i v m hm
  cases hst
  obtain ⟨y, w, L, rfl⟩ := rmw_facts hm
  obtain ⟨hts, hL⟩ := top_of h L
  obtain ⟨hc1, hc2⟩ := chain h L
  have hval := hL.val
  have hone := h.w.one
  have hb := bits s.f
  have c := count_set (q := afterOr y.val) JPc.owns hi
  have e1 : JPc.idle.owns = false := rfl
  have e2 : (afterOr y.val).owns = decide (y.val / 2 % 2 = 0) := by
    unfold afterOr
    by_cases ha : y.val % 2 = 1 <;> by_cases hb : y.val / 2 % 2 = 0 <;> simp [ha, hb, JPc.owns]
  rw [e1, e2] at c
  simp only [Bool.false_eq_true, if_false, decide_eq_true_eq, Nat.add_zero] at c
  have hne : afterOr y.val ≠ .clr := by unfold afterOr; repeat' split
                                        all_goals nofun
  have hns : afterOr y.val ≠ .sleep := by unfold afterOr; repeat' split
                                          all_goals nofun
  have ho : afterOr y.val = .own → y.val % 2 = 0 ∧ y.val / 2 % 2 = 0 := by
    unfold afterOr
    intro e
    split at e
    · split at e <;> cases e
    · split at e
      · constructor <;> omega
      · cases e
  have hg : afterOr y.val = .rel ∨ afterOr y.val = .ret → y.val % 2 = 1 := by
    unfold afterOr
    intro e
    split at e
    · assumption
    · split at e <;> rcases e with e | e <;> cases e
  have hrun : y.val % 2 = 1 → s.f ≠ .run := by intro e hr; rw [hr] at hval; simp only [bitT, if_true] at hval; omega
  have hclr : y.val / 2 % 2 = 0 → s.f ≠ .clr ∧ ∀ j : Nat, s.th[j]? ≠ some .clr := by
    intro e
    refine ⟨fun hr => ?_, fun j hj => ?_⟩
    · have : bitB s.f = 1 := by rw [hr]; rfl
      have : bitT s.f = 1 := by rw [hr]; rfl
      omega
    · have := pos_of (f := JPc.owns) hj rfl; omega
  refine ⟨⟨⟨?_, ?_, ?_⟩, hc1, hc2, ⟨_, L.new, ?_, ?_, fun e => by show m.log _ ≤ _; rw [L.log]; exact Nat.le_trans (hL.fin e) (L.rel _)⟩, ?_, ?_, ?_, h.seen, h.raceQ⟩, fun D => ⟨?_, ?_, D.race⟩⟩
  · show bitB s.f + (s.th.set i _).countP _ ≤ 1
    rw [c]; split <;> omega
  · intro j p hj hp
    rcases get_set hi j p hj with ⟨rfl, rfl⟩ | ⟨hn, hj⟩
    · have hown : afterOr y.val = .own := by
        generalize afterOr y.val = z at hp hne hns ⊢
        cases z <;> first | rfl | exact absurd rfl hne | exact absurd rfl hns | (cases hp; done)
      have := (ho hown).1
      have hr : bitT s.f = 0 := by omega
      have : s.f = .run := by
        refine Classical.byContradiction fun e => ?_
        unfold bitT at hr; rw [if_neg e] at hr; cases hr
      show s.f ≠ .clr ∧ s.f ≠ .done
      rw [this]; exact ⟨nofun, nofun⟩
    · exact h.w.wait j p hj hp
  · intro j p hj hp
    rcases get_set hi j p hj with ⟨rfl, rfl⟩ | ⟨hn, hj⟩
    · exact hrun (hg hp)
    · exact h.w.gone j p hj hp
  · show orB y.val = bitT s.f + 2 * (bitB s.f + (s.th.set i _).countP _)
    rw [c]
    unfold orB
    split <;> omega
  · intro h1 h2
    have h2 : ∀ j : Nat, (s.th.set i (afterOr y.val))[j]? ≠ some .clr := h2
    show m.log .q ≤ w .q
    rw [L.log]
    refine Nat.le_trans (hL.q h1 (fun j hj => ?_)) (L.rel _)
    by_cases e : j = i
    · subst e; rw [hi] at hj; cases hj
    · exact h2 j (by rw [List.getElem?_set_ne (fun x => e x.symm)]; exact hj)
  · show m.log _ ≤ _; rw [L.log]; exact Nat.le_trans h.mine (L.mono 0 _)
  · intro e; show m.log _ ≤ _; rw [L.log]; exact Nat.le_trans (h.qf e) (L.mono 0 _)
  · intro j hj
    show m.log .q ≤ m.cur (j + 1) .q
    rw [L.log]
    have : (j = i ∧ afterOr y.val = .own) ∨ (s.th[j]? = some .own ∨ s.th[j]? = some .clr) := by
      rcases hj with hj | hj <;> rcases get_set hi j _ hj with ⟨e1, e2⟩ | ⟨_, hj⟩
      · exact Or.inl ⟨e1, e2.symm⟩
      · exact Or.inr (Or.inl hj)
      · exact absurd e2.symm hne
      · exact Or.inr (Or.inr hj)
    rcases this with ⟨rfl, e⟩ | hj
    · obtain ⟨a, b⟩ := hclr (ho e).2
      exact Nat.le_trans (hL.q a b) (L.acq rfl _)
    · exact Nat.le_trans (h.qj j hj) (L.mono _ _)
  · intro hr z hz
    have hz := last_new L hz
    subst hz
    show m.log .data ≤ w .data
    rw [L.log]
    exact Nat.le_trans (D.pub hr y (hts ▸ L.src)) (L.rel _)
  · intro j hj
    show m.log .data ≤ m.cur (j + 1) .data
    rw [L.log]
    have : (j = i ∧ (afterOr y.val = .rel ∨ afterOr y.val = .ret)) ∨ (s.th[j]? = some .rel ∨ s.th[j]? = some .ret) := by
      rcases hj with hj | hj <;> rcases get_set hi j _ hj with ⟨e1, e2⟩ | ⟨_, hj⟩
      · exact Or.inl ⟨e1, Or.inl e2.symm⟩
      · exact Or.inr (Or.inl hj)
      · exact Or.inl ⟨e1, Or.inr e2.symm⟩
      · exact Or.inr (Or.inr hj)
    rcases this with ⟨rfl, e⟩ | hj
    · exact Nat.le_trans (D.pub (hrun (hg e)) y (hts ▸ L.src)) (L.acq rfl _)
    · exact Nat.le_trans (D.ret j hj) (L.mono _ _)

theorem inv_link {s : State} (h : Inv s) {i : Nat} (hi : s.th[i]? = some .own) : Inv (doLink s i) ∧ (Data s → Data (doLink s i)) := by
  have hone := h.w.one
  have c := count_set (q := .clr) JPc.owns hi
  simp [JPc.owns] at c
  have hpos := pos_of (f := JPc.owns) hi rfl
  have hB : bitB s.f = 0 := by omega
  have hw := h.w.wait i _ hi rfl
  obtain ⟨y, k1, k2⟩ := h.last
  refine ⟨⟨⟨?_, ?_, ?_⟩, h.all, h.le, ⟨y, k1, ?_, ?_, k2.fin⟩, touch_le nofun h.mine, ?_, ?_, h.seen, ?_⟩, fun D => ⟨D.pub, ?_, D.race⟩⟩
  · show bitB s.f + (s.th.set i .clr).countP _ ≤ 1; rw [c]; exact hone
  · intro j p hj hp
    rcases get_set hi j p hj with ⟨rfl, rfl⟩ | ⟨hn, hj⟩
    · exact hw
    · exact h.w.wait j p hj hp
  · intro j p hj hp
    rcases get_set hi j p hj with ⟨rfl, rfl⟩ | ⟨hn, hj⟩
    · rcases hp with hp | hp <;> cases hp
    · exact h.w.gone j p hj hp
  · show y.val = bitT s.f + 2 * (bitB s.f + (s.th.set i .clr).countP _); rw [c]; exact k2.val
  · intro _ h2
    exact absurd (List.getElem?_set_self (lt_of_get hi)) (h2 i)
  · intro e
    have : bitB s.f = 1 := by unfold bitB; exact if_pos e
    omega
  · intro j hj
    by_cases e : j = i
    · subst e; exact touch_self _ _ _
    · exfalso
      have hj' : s.th[j]? = some .own ∨ s.th[j]? = some .clr := by
        rcases hj with hj | hj <;> rcases get_set hi j _ hj with ⟨e1, _⟩ | ⟨_, hj⟩
        · exact absurd e1 e
        · exact Or.inl hj
        · exact absurd e1 e
        · exact Or.inr hj
      rcases hj' with hj | hj
      · have := two_of (f := JPc.owns) hj hi rfl rfl e; omega
      · have := two_of (f := JPc.owns) hj hi rfl rfl e; omega
  · have hc : s.m.clear (i + 1) .q = true := decide_eq_true (h.qj i (Or.inl hi))
    simp [doLink, h.raceQ, hc]
  · intro j hj
    refine touch_le nofun (D.ret j ?_)
    rcases hj with hj | hj <;> rcases get_set hi j _ hj with ⟨_, e⟩ | ⟨_, hj⟩
    · cases e
    · exact Or.inl hj
    · cases e
    · exact Or.inr hj

theorem inv_clr {s s' : State} (h : Inv s) {i ts : Nat} {r : Bool} {p p' : JPc} (hi : s.th[i]? = some p)
    (hp : (p = .clr ∧ r = true ∧ p' = .sleep) ∨ (p = .rel ∧ p' = .ret)) (hst : doClr s i ts r p' = some s') : Inv s' ∧ (Data s → Data s') := by
  unfold doClr at hst
  split at hst
  · cases hst
  rename_i v m hm
  cases hst
  obtain ⟨y, w, L, rfl⟩ := rmw_facts hm
  obtain ⟨hts, hL⟩ := top_of h L
  obtain ⟨hc1, hc2⟩ := chain h L
  have hval := hL.val
  have hone := h.w.one
  have hb := bits s.f
  have c := count_set (q := p') JPc.owns hi
  have k1 : p.owns = true := by rcases hp with ⟨rfl, _, _⟩ | ⟨rfl, _⟩ <;> rfl
  have k2 : p'.owns = false := by rcases hp with ⟨_, _, rfl⟩ | ⟨_, rfl⟩ <;> rfl
  rw [k1, k2] at c
  simp at c
  have hpos := pos_of (f := JPc.owns) hi k1
  have hB : bitB s.f = 0 := by omega
  refine ⟨⟨⟨?_, ?_, ?_⟩, hc1, hc2, ⟨_, L.new, ?_, ?_, fun e => by show m.log _ ≤ _; rw [L.log]; exact Nat.le_trans (hL.fin e) (L.rel _)⟩, ?_, ?_, ?_, h.seen, h.raceQ⟩, fun D => ⟨?_, ?_, D.race⟩⟩
  · show bitB s.f + (s.th.set i p').countP _ ≤ 1; omega
  · intro j x hj hx
    rcases get_set hi j x hj with ⟨rfl, rfl⟩ | ⟨hn, hj⟩
    · rcases hp with ⟨rfl, _, rfl⟩ | ⟨rfl, rfl⟩
      · exact h.w.wait j _ hi rfl
      · cases hx
    · exact h.w.wait j x hj hx
  · intro j x hj hx
    rcases get_set hi j x hj with ⟨rfl, rfl⟩ | ⟨hn, hj⟩
    · rcases hp with ⟨rfl, _, rfl⟩ | ⟨rfl, rfl⟩
      · rcases hx with hx | hx <;> cases hx
      · exact h.w.gone j _ hi (Or.inl rfl)
    · exact h.w.gone j x hj hx
  · show clearB y.val = bitT s.f + 2 * (bitB s.f + (s.th.set i p').countP _)
    unfold clearB
    split <;> omega
  · intro h1 h2
    have h2 : ∀ j : Nat, (s.th.set i p')[j]? ≠ some .clr := h2
    show m.log .q ≤ w .q
    rw [L.log]
    rcases hp with ⟨rfl, rfl, rfl⟩ | ⟨rfl, rfl⟩
    · exact Nat.le_trans (h.qj i (Or.inr hi)) (Nat.le_trans (L.mono _ _) (L.pub rfl _))
    · refine Nat.le_trans (hL.q h1 (fun j hj => ?_)) (L.rel _)
      by_cases e : j = i
      · subst e; rw [hi] at hj; cases hj
      · exact h2 j (by rw [List.getElem?_set_ne (fun x => e x.symm)]; exact hj)
  · show m.log _ ≤ _; rw [L.log]; exact Nat.le_trans h.mine (L.mono 0 _)
  · intro e; show m.log _ ≤ _; rw [L.log]; exact Nat.le_trans (h.qf e) (L.mono 0 _)
  · intro j hj
    show m.log .q ≤ m.cur (j + 1) .q
    rw [L.log]
    refine Nat.le_trans (h.qj j ?_) (L.mono _ _)
    rcases hj with hj | hj <;> rcases get_set hi j _ hj with ⟨_, e⟩ | ⟨_, hj⟩
    · rcases hp with ⟨_, _, rfl⟩ | ⟨_, rfl⟩ <;> cases e
    · exact Or.inl hj
    · rcases hp with ⟨_, _, rfl⟩ | ⟨_, rfl⟩ <;> cases e
    · exact Or.inr hj
  · intro hr z hz
    have hz := last_new L hz
    subst hz
    show m.log .data ≤ w .data
    rw [L.log]
    exact Nat.le_trans (D.pub hr y (hts ▸ L.src)) (L.rel _)
  · intro j hj
    show m.log .data ≤ m.cur (j + 1) .data
    rw [L.log]
    refine Nat.le_trans (D.ret j ?_) (L.mono _ _)
    rcases hj with hj | hj <;> rcases get_set hi j _ hj with ⟨rfl, e⟩ | ⟨_, hj⟩
    · rcases hp with ⟨_, _, rfl⟩ | ⟨_, rfl⟩ <;> cases e
    · exact Or.inl hj
    · rcases hp with ⟨_, _, rfl⟩ | ⟨rfl, rfl⟩
      · cases e
      · exact Or.inl hi
    · exact Or.inr hj

theorem inv_leave {s : State} (h : Inv s) {i : Nat} (hi : s.th[i]? = some .ret) : Inv { s with th := s.th.set i .idle } ∧ (Data s → Data { s with th := s.th.set i .idle }) := by
  have c := count_set (q := .idle) JPc.owns hi
  simp [JPc.owns] at c
  obtain ⟨y, k1, k2⟩ := h.last
  have back : ∀ (j : Nat) (x : JPc), x ≠ .idle → (s.th.set i .idle)[j]? = some x → s.th[j]? = some x := by
    intro j x hx hj
    rcases get_set hi j x hj with ⟨_, e⟩ | ⟨_, hj⟩
    · exact absurd e hx
    · exact hj
  refine ⟨⟨⟨?_, ?_, ?_⟩, h.all, h.le, ⟨y, k1, ?_, ?_, k2.fin⟩, h.mine, h.qf, ?_, h.seen, h.raceQ⟩, fun D => ⟨D.pub, ?_, D.race⟩⟩
  · show bitB s.f + (s.th.set i .idle).countP _ ≤ 1; rw [c]; exact h.w.one
  · intro j p hj hp
    exact h.w.wait j p (back j p (by rintro rfl; cases hp) hj) hp
  · intro j p hj hp
    exact h.w.gone j p (back j p (by rintro rfl; rcases hp with hp | hp <;> cases hp) hj) hp
  · show y.val = bitT s.f + 2 * (bitB s.f + (s.th.set i .idle).countP _); rw [c]; exact k2.val
  · intro h1 h2
    refine k2.q h1 (fun j hj => ?_)
    by_cases e : j = i
    · subst e; rw [hi] at hj; cases hj
    · exact h2 j (by show (s.th.set i .idle)[j]? = _; rw [List.getElem?_set_ne (fun x => e x.symm)]; exact hj)
  · intro j hj
    exact h.qj j (hj.imp (back j _ nofun) (back j _ nofun))
  · intro j hj
    exact D.ret j (hj.imp (back j _ nofun) (back j _ nofun))

theorem inv_read {s : State} (h : Inv s) {i : Nat} (hi : s.th[i]? = some .ret) : Inv (doRead s i) ∧ (Data s → Data (doRead s i)) := by
  obtain ⟨y, k1, k2⟩ := h.last
  refine ⟨⟨h.w, h.all, h.le, ⟨y, k1, k2.val, k2.q, k2.fin⟩, h.mine, h.qf, h.qj, fun _ => h.w.gone i _ hi (Or.inr rfl), h.raceQ⟩, fun D => ⟨D.pub, D.ret, ?_⟩⟩
  have hc : s.m.clear (i + 1) .data = true := decide_eq_true (D.ret i (Or.inr hi))
  simp [doRead, D.race, hc]

theorem inv_other {s s' : State} (h : Inv s) {t ts : Nat} (hst : doOther s t ts = some s') : Inv s' ∧ (Data s → Data s') := by
  unfold doOther at hst
  split at hst
  · cases hst
  rename_i v m hm
  cases hst
  obtain ⟨y, w, L, rfl⟩ := rmw_facts hm
  obtain ⟨hts, hL⟩ := top_of h L
  obtain ⟨hc1, hc2⟩ := chain h L
  refine ⟨⟨h.w, hc1, hc2, ⟨_, L.new, hL.val, ?_, fun e => by show m.log _ ≤ _; rw [L.log]; exact Nat.le_trans (hL.fin e) (L.rel _)⟩, ?_, ?_, ?_, h.seen, h.raceQ⟩, fun D => ⟨?_, ?_, D.race⟩⟩
  · intro h1 h2; show m.log .q ≤ w .q; rw [L.log]; exact Nat.le_trans (hL.q h1 h2) (L.rel _)
  · show m.log _ ≤ _; rw [L.log]; exact Nat.le_trans h.mine (L.mono 0 _)
  · intro e; show m.log _ ≤ _; rw [L.log]; exact Nat.le_trans (h.qf e) (L.mono 0 _)
  · intro j hj; show m.log _ ≤ _; rw [L.log]; exact Nat.le_trans (h.qj j hj) (L.mono _ _)
  · intro hr z hz
    have hz := last_new L hz
    subst hz
    show m.log .data ≤ w .data
    rw [L.log]
    exact Nat.le_trans (D.pub hr y (hts ▸ L.src)) (L.rel _)
  · intro j hj; show m.log _ ≤ _; rw [L.log]; exact Nat.le_trans (D.ret j hj) (L.mono _ _)

theorem inv_step2 (c : Cfg) (s : State) (a : Act) (s' : State) (h : Inv s) (hst : step c s a = some s') : Inv s' ∧ (c.termRel = true → Data s → Data s') := by
  have drop : Inv s' ∧ (Data s → Data s') → Inv s' ∧ (c.termRel = true → Data s → Data s') := fun h => ⟨h.1, fun _ => h.2⟩
  cases a with
  | write => simp only [step] at hst; split at hst <;> cases hst; exact drop (inv_write h ‹_›)
  | term ts => simp only [step] at hst; split at hst; exact inv_term h ‹_› hst; cases hst
  | notify => simp only [step] at hst; split at hst <;> cases hst; exact drop (inv_notify h ‹_›)
  | clr0 ts => simp only [step] at hst; split at hst; exact drop (inv_clr0 h ‹_› hst); cases hst
  | join i ts => simp only [step] at hst; split at hst; exact drop (inv_join h ‹_› hst); cases hst
  | link i => simp only [step] at hst; split at hst <;> cases hst; exact drop (inv_link h ‹_›)
  | clr i ts => simp only [step] at hst; split at hst; exact drop (inv_clr h ‹_› (Or.inl ⟨rfl, rfl, rfl⟩) hst); cases hst
  | rel i ts => simp only [step] at hst; split at hst; exact drop (inv_clr h ‹_› (Or.inr ⟨rfl, rfl⟩) hst); cases hst
  | read i => simp only [step] at hst; split at hst <;> cases hst; exact drop (inv_read h ‹_›)
  | leave i => simp only [step] at hst; split at hst <;> cases hst; exact drop (inv_leave h ‹_›)
  | other t ts => exact drop (inv_other h hst)

theorem inv_init (s : State) (h : Init s) : Inv s ∧ Data s := by
  obtain ⟨n, rfl⟩ := h
  have hth : ∀ (i : Nat) (p : JPc), (startOf n).th[i]? = some p → p = .idle := fun i p hp => List.eq_of_mem_replicate (List.mem_of_getElem? hp)
  have z : (startOf n).th.countP JPc.owns = 0 := List.countP_eq_zero.2 fun p hp => by rw [List.eq_of_mem_replicate hp]; simp [JPc.owns]
  refine ⟨⟨⟨?_, ?_, ?_⟩, ?_, ?_, ⟨⟨0, zero⟩, rfl, ?_, fun _ _ => Nat.zero_le _, nofun⟩, Nat.zero_le _, fun _ => Nat.zero_le _, fun _ _ => Nat.zero_le _, nofun, rfl⟩,
    ⟨fun _ _ _ => Nat.zero_le _, fun _ _ => Nat.zero_le _, rfl⟩⟩
  · rw [z]; show bitB .run + 0 ≤ 1; decide
  · intro i p hi hp; rw [hth i p hi] at hp; cases hp
  · intro i p hi hp; rw [hth i p hi] at hp; rcases hp with hp | hp <;> cases hp
  · intro k hk
    have : k = 0 := Nat.le_zero.1 hk
    subst this; nofun
  · intro k y hy
    have hy : (if k = 0 then some (⟨0, zero⟩ : Msg Loc) else none) = some y := hy
    split at hy
    · rename_i e; subst e; exact Nat.le_refl _
    · cases hy
  · rw [z]; rfl

end Verif.JoinRA
