import Verif.Sched.Logs

/-! # Timed waits and the history -/
namespace Verif.Sched

open Verif.Common

/-- A wait in progress: its deadline, what ended it first, whether it was notified. -/
structure Cur where
  d : Nat
  w : Option Bool
  n : Bool

def curStep (f : Nat) (c : Option Cur) : Ev → Option Cur
  | .wait g d => if g = f then some ⟨d, none, false⟩ else c
  | .fired g _ => if g = f then c.map (fun c => { c with w := some (c.w.getD true) }) else c
  | .notify g r =>
    if g = f then c.map (fun c => { c with n := true, w := if r then c.w else some (c.w.getD false) }) else c
  | .ret g _ => if g = f then none else c
  | _ => c

def cur (f : Nat) (log : List Ev) : Option Cur := log.foldl (curStep f) none

theorem cur_snoc (f : Nat) (l : List Ev) (e : Ev) : cur f (l ++ [e]) = curStep f (cur f l) e := by
  simp [cur]

def okT (T : Nat) (log : List Ev) : Ev → Prop
  | .fired f t => ∀ c, cur f log = some c → c.d ≤ t
  | .ret f b => ∃ c, cur f log = some c ∧ (c.d < T → (b = true ↔ c.w = some true)) ∧
      (c.d = T → b = true) ∧ (b = false → c.n = true) ∧ c.d ≤ T
  | _ => True

/-- The timers, given the waits in progress `c`. -/
structure TI (now T : Nat) (sl : List Nat) (tp : Nat → Nat) (pend : Nat → Pend) (reg : Nat → Bool)
    (remote : List Nat) (c : Nat → Option Cur) : Prop where
  nowT : now < T
  sorted : sl.Pairwise (fun f g => tp f ≤ tp g)
  slp : ∀ f, f ∈ sl → pend f = .timed (tp f) ∨ pend f = .none
  pT : ∀ f d, pend f = .timed d → d ≤ T ∧ (tp f = d ∨ tp f = T)
  none : ∀ f, (∀ d, pend f ≠ .timed d) → c f = .none
  cd : ∀ f d, pend f = .timed d → ∃ x, c f = some x ∧ x.d = d
  cw : ∀ f d x, pend f = .timed d → c f = some x → d < T → (tp f = T ↔ x.w = some true)
  cs : ∀ f x, c f = some x → f ∈ sl → x.w = .none
  cr : ∀ f x, c f = some x → reg f = true → f ∈ sl ∨ x.w = some true
  cn : ∀ f d x, pend f = .timed d → c f = some x → tp f = d → d < T → f ∉ sl → x.n = true
  cq : ∀ f x, c f = some x → f ∈ remote → x.n = true

def STI (s : St) : Prop :=
  TI s.now s.T s.sl s.tp s.pend s.reg s.remote (fun f => cur f s.log) ∧ WF (okT s.T) s.log

theorem sorted_insSleep (tp : Nat → Nat) (f : Nat) (l : List Nat)
    (h : l.Pairwise (fun f g => tp f ≤ tp g)) :
    (insSleep tp f l).Pairwise (fun f g => tp f ≤ tp g) := by
  induction l with
  | nil => simp [insSleep]
  | cons a l ih =>
    have hm := mem_insSleep tp f
    rw [List.pairwise_cons] at h
    unfold insSleep
    split
    · rw [List.pairwise_cons, List.pairwise_cons]
      refine ⟨?_, h⟩
      intro x hx
      rcases List.mem_cons.1 hx with rfl | hx
      · omega
      · have := h.1 x hx; omega
    · rw [List.pairwise_cons]
      refine ⟨?_, ih h.2⟩
      intro x hx
      rcases (hm x l).1 hx with rfl | hx
      · omega
      · exact h.1 x hx

theorem sorted_upd (tp : Nat → Nat) (f v : Nat) (l : List Nat) (hf : f ∉ l)
    (h : l.Pairwise (fun f g => tp f ≤ tp g)) :
    l.Pairwise (fun a b => upd tp f v a ≤ upd tp f v b) := by
  refine List.Pairwise.imp_of_mem ?_ h
  intro a b ha hb hab
  rw [upd_ne _ _ (by rintro rfl; exact hf ha), upd_ne _ _ (by rintro rfl; exact hf hb)]
  exact hab

/-- An event that says nothing about waits. -/
def quiet : Ev → Prop
  | .ready .. => True
  | .run _ => True
  | _ => False

theorem cur_quiet (f : Nat) (l : List Ev) (e : Ev) (h : quiet e) : cur f (l ++ [e]) = cur f l := by
  rw [cur_snoc]; cases e <;> simp_all [quiet, curStep]

theorem okT_quiet (T : Nat) (l : List Ev) (e : Ev) (h : quiet e) : okT T l e := by
  cases e <;> simp_all [quiet, okT]

/-- A step that leaves the timers alone. -/
theorem STI.frame {s s' : St} (h : STI s) (e : Ev) (he : quiet e)
    (h1 : s'.now = s.now) (h2 : s'.T = s.T) (h3 : s'.sl = s.sl) (h4 : s'.tp = s.tp)
    (h5 : s'.pend = s.pend) (h6 : s'.reg = s.reg) (h7 : s'.remote = s.remote)
    (h8 : s'.log = s.log ++ [e]) : STI s' := by
  unfold STI
  rw [h1, h2, h3, h4, h5, h6, h7, h8]
  refine ⟨?_, WF_snoc h.2 (okT_quiet _ _ _ he)⟩
  have : (fun f => cur f (s.log ++ [e])) = (fun f => cur f s.log) := by
    funext f; exact cur_quiet f _ _ he
  rw [this]
  exact h.1

theorem switchTo_STI (s : St) (f : Nat) (h : STI s) : STI (switchTo s f) :=
  h.frame (.run f) trivial rfl rfl rfl rfl rfl rfl rfl rfl

theorem preempt_STI (s : St) (h : STI s) (hb : (preempt s).bad = false) : STI (preempt s) := by
  unfold preempt at *
  split at hb
  · exact switchTo_STI s 0 h
  · unfold switchNext at *
    split at hb
    · simp at hb
    · exact switchTo_STI _ _ h

/-- `AddReady` of a fiber that does not sleep. -/
theorem addReady_STI (s : St) (f : Nat) (b : Bool) (h : STI s) (hf : f ∉ s.sl) :
    STI (addReady s f b) := by
  refine h.frame (.ready f (s.prio f == .background) b) trivial ?_ ?_ ?_ ?_ ?_ ?_ ?_ ?_
  all_goals
    unfold addReady push
    cases s.prio f <;> simp [List.erase_of_not_mem hf]

/-- Waking a fiber that has been notified. -/
theorem wake_STI (s : St) (f : Nat) (h : STI s) (hi : s.sl.Nodup)
    (hn : ∀ x, cur f s.log = some x → x.n = true) (hr : s.reg f = false) : STI (wake s f) := by
  unfold wake
  split
  · exact h
  · rename_i hl
    rw [addReady_eq _ _ _ (by simpa using hl)]
    have hm : ∀ g, g ∈ s.sl.erase f ↔ g ≠ f ∧ g ∈ s.sl := fun g => hi.mem_erase_iff
    have hq : (fun g => cur g (s.log ++ [.ready f (s.prio f == .background) (toFront s f)])) =
        (fun g => cur g s.log) := by
      funext g; exact cur_quiet g _ _ trivial
    refine ⟨?_, WF_snoc h.2 (okT_quiet _ _ _ trivial)⟩
    dsimp only
    rw [hq]
    obtain ⟨⟨h1, h2, h3, h4, h5, h6, h7, h8, h9, h10, h11⟩, -⟩ := h
    constructor
    · exact h1
    · exact h2.sublist List.erase_sublist
    all_goals grind

theorem pull1_STI (a : Option Nat) (s : St) (f : Nat) (h : STI s) (hi : Inv s) (hf : f ∈ s.remote) :
    STI (pull1 a s f) := by
  unfold pull1
  dsimp only
  have h' : STI { s with remote := s.remote.erase f } := by
    have hm : ∀ g, g ∈ s.remote.erase f ↔ g ≠ f ∧ g ∈ s.remote := fun g => hi.ndR.mem_erase_iff
    refine ⟨?_, h.2⟩
    obtain ⟨⟨h1, h2, h3, h4, h5, h6, h7, h8, h9, h10, h11⟩, -⟩ := h
    constructor
    all_goals first | assumption | skip
    dsimp only
    grind
  split
  · exact h'
  · exact wake_STI _ f h' hi.ndS (fun x hx => h.1.cq f x hx hf) (hi.qR f hf)

theorem processRemote_STI (a : Option Nat) (s : St) (h : STI s) (hi : Inv s)
    (ha : (s.act = 0 ∧ a = none) ∨ a = some s.act) : STI (processRemote a s) := by
  refine (processRemote_induct a (fun x => STI x ∧ Inv x ∧ x.act = s.act) ?_ s ⟨h, hi, rfl⟩ hi.ndR).1.1
  intro x f hx hf _
  exact ⟨pull1_STI a x f hx.1 hx.2.1 hf, pull1_inv a x f hx.2.1 hf (by rw [hx.2.2]; exact ha),
    (pull1_frame a x f).1.trans hx.2.2⟩

theorem fire1_STI (s : St) (f : Nat) (h : STI s) (hi : Inv s) (hf : f ∈ s.sl) (ht : s.tp f ≤ s.now) :
    STI (fire1 s f) := by
  have hl : linked s f = false := by
    have h1 := linked_iff s f
    have h2 := hi.nS f
    have h3 := hi.bS f
    have h4 := hi.lT f
    have h5 := hi.lS f
    grind
  rw [fire1_eq s f hl]
  clear hl
  have hm : ∀ g, g ∈ s.sl.erase f ↔ g ≠ f ∧ g ∈ s.sl := fun g => hi.ndS.mem_erase_iff
  have hq : ∀ g, cur g (s.log ++ [.fired f s.now, .ready f (s.prio f == .background) false]) =
      curStep g (cur g s.log) (.fired f s.now) := by
    intro g
    rw [show s.log ++ [.fired f s.now, .ready f (s.prio f == .background) false] =
      (s.log ++ [.fired f s.now]) ++ [.ready f (s.prio f == .background) false] by simp,
      cur_quiet g _ (.ready f _ false) trivial, cur_snoc]
  refine ⟨?_, ?_⟩
  · dsimp only
    obtain ⟨⟨h1, h2, h3, h4, h5, h6, h7, h8, h9, h10, h11⟩, -⟩ := h
    have hns : f ∉ s.sl.erase f := by simp [hm]
    have hs2 := sorted_upd s.tp f s.T (s.sl.erase f) hns (h2.sublist List.erase_sublist)
    constructor
    · exact h1
    · exact hs2
    all_goals simp only [upd_apply, hq, curStep]
    all_goals grind
  · dsimp only
    rw [show s.log ++ [.fired f s.now, .ready f (s.prio f == .background) false] =
      (s.log ++ [.fired f s.now]) ++ [.ready f (s.prio f == .background) false] by simp]
    refine WF_snoc (WF_snoc h.2 ?_) (okT_quiet _ _ _ trivial)
    intro c hc
    rcases h.1.slp f hf with hp | hp
    · obtain ⟨x, hx, hd⟩ := h.1.cd f _ hp
      have hcx : c = x := by
        have : some c = some x := by rw [← hc, ← hx]
        exact Option.some.inj this
      rw [hcx, hd]; exact ht
    · have := h.1.none f (by simp [hp])
      rw [hc] at this; cases this

theorem processSleep_STI (s : St) (h : STI s) (hi : Inv s) : STI (processSleep s) :=
  (processSleep_induct (fun s => STI s ∧ Inv s) (fun s f h hf ht =>
    ⟨fire1_STI s f h.1 h.2 hf ht, fire1_inv s f h.2 hf⟩) s ⟨h, hi⟩ hi.ndS).1

theorem notify_STI (s : St) (f : Nat) (h : STI s) (hi : Inv s) (hr : s.reg f = true) :
    STI (wake { s with reg := upd s.reg f false, log := s.log ++ [.notify f false] } f) := by
  have hm : ∀ g, g ∈ s.sl.erase f ↔ g ≠ f ∧ g ∈ s.sl := fun g => hi.ndS.mem_erase_iff
  have hp := hi.rP f hr
  have hlive := hi.lP f hp
  have hnt : f ∉ s.term := fun c => by have := hi.lT f c; grind
  have hq : ∀ g, cur g (s.log ++ [.notify f false]) = curStep g (cur g s.log) (.notify f false) :=
    fun g => cur_snoc _ _ _
  have hwf : WF (okT s.T) (s.log ++ [.notify f false]) := WF_snoc h.2 trivial
  unfold wake
  split
  · rename_i hl
    rw [linked_iff] at hl
    dsimp only at hl
    refine ⟨?_, hwf⟩
    have hns : f ∉ s.sl := by
      have h1 := hi.nS f
      have h2 := hi.bS f
      grind
    obtain ⟨⟨h1, h2, h3, h4, h5, h6, h7, h8, h9, h10, h11⟩, -⟩ := h
    clear hi
    constructor
    · exact h1
    · exact h2
    all_goals simp only [upd_apply, hq, curStep]
    all_goals grind
  · rename_i hl
    rw [addReady_eq _ _ _ (by simpa using hl)]
    refine ⟨?_, WF_snoc hwf (okT_quiet _ _ _ trivial)⟩
    have hq2 : ∀ g b, cur g (s.log ++ [.notify f false] ++ [.ready f (s.prio f == .background) b]) =
        curStep g (cur g s.log) (.notify f false) := by
      intro g b
      rw [cur_quiet g _ (.ready f _ b) trivial, hq]
    have hw : ∀ x, cur f s.log = some x → f ∉ s.sl → x.w = some true :=
      fun x hx hs => (h.1.cr f x hx hr).resolve_left hs
    obtain ⟨⟨h1, h2, h3, h4, h5, h6, h7, h8, h9, h10, h11⟩, -⟩ := h
    clear hi hl
    dsimp only
    generalize toFront _ f = b
    constructor
    · exact h1
    · exact h2.sublist List.erase_sublist
    all_goals try simp only [upd_apply, hq2, curStep]
    all_goals grind

theorem wait_STI (s : St) (d : Nat) (h : STI s) (hi : Inv s) (he : s.pend s.act = .none) (hd : d ≤ s.T) :
    STI { s with
      pend := upd s.pend s.act (.timed d), reg := upd s.reg s.act true, tp := upd s.tp s.act d,
      sl := insSleep (upd s.tp s.act d) s.act s.sl, log := s.log ++ [.wait s.act d] } := by
  have hm := mem_insSleep (upd s.tp s.act d) s.act
  have hq : ∀ g, cur g (s.log ++ [.wait s.act d]) = curStep g (cur g s.log) (.wait s.act d) :=
    fun g => cur_snoc _ _ _
  refine ⟨?_, WF_snoc h.2 trivial⟩
  have haS := hi.aS
  have haR : s.act ∉ s.remote := fun c => hi.qP _ c he
  have hso := sorted_insSleep (upd s.tp s.act d) s.act s.sl (sorted_upd _ _ _ _ haS h.1.sorted)
  obtain ⟨⟨h1, h2, h3, h4, h5, h6, h7, h8, h9, h10, h11⟩, -⟩ := h
  clear hi
  constructor
  · exact h1
  · exact hso
  all_goals try simp only [upd_apply, hq, curStep, hm]
  case cd =>
    intro f d' hp
    by_cases e : f = s.act
    · subst e
      simp only [if_true, Pend.timed.injEq] at hp ⊢
      exact ⟨_, rfl, hp⟩
    · simp only [e, Ne.symm e, if_false] at hp ⊢
      exact h6 f d' hp
  all_goals grind

theorem ysleep_STI (s : St) (t : Nat) (h : STI s) (hi : Inv s) (he : s.pend s.act = .none) :
    STI { s with tp := upd s.tp s.act t, sl := insSleep (upd s.tp s.act t) s.act s.sl } := by
  have hm := mem_insSleep (upd s.tp s.act t) s.act
  refine ⟨?_, h.2⟩
  have haS := hi.aS
  have haR : s.act ∉ s.remote := fun c => hi.qP _ c he
  have hso := sorted_insSleep (upd s.tp s.act t) s.act s.sl (sorted_upd _ _ _ _ haS h.1.sorted)
  obtain ⟨⟨h1, h2, h3, h4, h5, h6, h7, h8, h9, h10, h11⟩, -⟩ := h
  clear hi
  constructor
  · exact h1
  · exact hso
  all_goals try simp only [upd_apply, hm]
  all_goals grind

theorem suspend_STI (s : St) (h : STI s) (hi : Inv s) (he : s.pend s.act = .none) :
    STI { s with pend := upd s.pend s.act .plain, reg := upd s.reg s.act true } := by
  refine ⟨?_, h.2⟩
  have haS := hi.aS
  obtain ⟨⟨h1, h2, h3, h4, h5, h6, h7, h8, h9, h10, h11⟩, -⟩ := h
  clear hi
  constructor
  · exact h1
  · exact h2
  all_goals simp only [upd_apply]
  all_goals grind

theorem finish_STI (s : St) (h : STI s) (hi : Inv s) (hr : s.act ∉ s.remote) (l : List Ev)
    (hl : l = match s.pend s.act with
        | .timed _ => [Ev.ret s.act (s.tp s.act == s.T)]
        | _ => []) :
    STI { s with pend := upd s.pend s.act .none, reg := upd s.reg s.act false, log := s.log ++ l } := by
  have haS := hi.aS
  cases hp : s.pend s.act with
  | timed d =>
    rw [hp] at hl
    subst hl
    have hq : ∀ g, cur g (s.log ++ [.ret s.act (s.tp s.act == s.T)]) =
        curStep g (cur g s.log) (.ret s.act (s.tp s.act == s.T)) := fun g => cur_snoc _ _ _
    refine ⟨?_, WF_snoc h.2 ?_⟩
    · obtain ⟨⟨h1, h2, h3, h4, h5, h6, h7, h8, h9, h10, h11⟩, -⟩ := h
      clear hi
      constructor
      · exact h1
      · exact h2
      all_goals simp only [upd_apply, hq, curStep]
      all_goals grind
    · obtain ⟨x, hx, hd⟩ := h.1.cd _ _ hp
      have h4 := h.1.pT _ _ hp
      have h7 := h.1.cw _ _ x hp hx
      have h10 := h.1.cn _ _ x hp hx
      refine ⟨x, hx, ?_, ?_, ?_, ?_⟩
      · rw [beq_iff_eq, hd]; exact h7
      · rw [beq_iff_eq]; rw [hd]; intro c
        rcases h4.2 with e | e
        · rw [e, c]
        · exact e
      · intro c
        have c' : s.tp s.act ≠ s.T := by simpa using c
        have : s.tp s.act = d := h4.2.resolve_right c'
        exact h10 this (by omega) haS
      · rw [hd]; exact h4.1
  | plain =>
    rw [hp] at hl
    subst hl
    rw [List.append_nil]
    refine ⟨?_, h.2⟩
    obtain ⟨⟨h1, h2, h3, h4, h5, h6, h7, h8, h9, h10, h11⟩, -⟩ := h
    clear hi
    constructor
    · exact h1
    · exact h2
    all_goals simp only [upd_apply]
    all_goals grind
  | none =>
    rw [hp] at hl
    subst hl
    rw [List.append_nil]
    refine ⟨?_, h.2⟩
    obtain ⟨⟨h1, h2, h3, h4, h5, h6, h7, h8, h9, h10, h11⟩, -⟩ := h
    clear hi
    constructor
    · exact h1
    · exact h2
    all_goals simp only [upd_apply]
    all_goals grind

theorem notifyRemote_STI (s : St) (f : Nat) (h : STI s) (hr : s.reg f = true) :
    STI { s with
      reg := upd s.reg f false, remote := s.remote ++ [f], log := s.log ++ [.notify f true] } := by
  have hq : ∀ g, cur g (s.log ++ [.notify f true]) = curStep g (cur g s.log) (.notify f true) :=
    fun g => cur_snoc _ _ _
  refine ⟨?_, WF_snoc h.2 trivial⟩
  obtain ⟨⟨h1, h2, h3, h4, h5, h6, h7, h8, h9, h10, h11⟩, -⟩ := h
  constructor
  · exact h1
  · exact h2
  all_goals simp only [upd_apply, hq, curStep]
  all_goals grind

theorem step_STI (s s' : St) (a : Act) (h : Inv s) (hT : STI s) (hal : Allowed s a)
    (hs : step s a = some s') : STI s' := by
  have hi' := step_inv s s' a h hal hs
  unfold step at hs
  rw [if_neg (by rw [h.nbad, h.ncrash]; simp)] at hs
  cases a with
  | yield =>
    simp only [stepUser, Option.ite_none_right_eq_some, Option.some.injEq, user_iff] at hs
    obtain ⟨hu, rfl⟩ := hs
    exact preempt_STI _ (addReady_STI s s.act false hT h.aS) hi'.nbad
  | yieldKeep =>
    simp only [stepUser, Option.ite_none_right_eq_some, Option.some.injEq] at hs
    obtain ⟨hu, rfl⟩ := hs
    exact hT
  | yieldSleep t =>
    simp only [stepUser, Option.ite_none_right_eq_some, Option.some.injEq, Bool.and_eq_true,
      user_iff] at hs
    obtain ⟨hu, rfl⟩ := hs
    exact preempt_STI _ (ysleep_STI s t hT h hu.1.2) hi'.nbad
  | suspend =>
    simp only [stepUser, Option.ite_none_right_eq_some, Option.some.injEq, user_iff] at hs
    obtain ⟨hu, rfl⟩ := hs
    exact preempt_STI _ (suspend_STI s hT h hu.2) hi'.nbad
  | waitUntil d =>
    simp only [stepUser, Option.ite_none_right_eq_some, Option.some.injEq, Bool.and_eq_true,
      user_iff, decide_eq_true_eq] at hs
    obtain ⟨hu, rfl⟩ := hs
    exact preempt_STI _ (wait_STI s d hT h hu.1.2 hu.2) hi'.nbad
  | finish =>
    simp only [stepUser, Option.ite_none_right_eq_some, Option.some.injEq] at hs
    obtain ⟨hu, rfl⟩ := hs
    split
    · have hp := processRemote_inv (some s.act) s h (Or.inr rfl)
      refine finish_STI _ (processRemote_STI _ s hT h (Or.inr rfl)) hp.1 (by rw [hp.2.2.1]; simp) _ ?_
      obtain ⟨_, e1, _, e2, e3, e4, _, _⟩ := hp
      rw [e1, e2, e3, e4]
      rfl
    · rename_i hc
      exact finish_STI s hT h (by simpa using hc) _ rfl
  | terminate =>
    simp only [stepUser, Option.ite_none_right_eq_some, Option.some.injEq, Bool.and_eq_true,
      user_iff] at hs
    obtain ⟨hu, rfl⟩ := hs
    exact preempt_STI _ hT hi'.nbad
  | migrate =>
    simp only [stepUser, Option.ite_none_right_eq_some, Bool.and_eq_true, user_iff] at hs
    obtain ⟨hu, hs⟩ := hs
    have hl : linked s 0 = true := (linked_iff s 0).2 (Or.inl (h.disp hu.1.1 hal))
    rw [if_pos hl] at hs
    cases hs
    exact switchTo_STI _ _ hT
  | post f p =>
    simp only [stepBoth, Option.ite_none_right_eq_some, Option.some.injEq] at hs
    obtain ⟨hu, rfl⟩ := hs
    exact addReady_STI _ f _ hT (fun c => by have := h.lS f c; rw [hu.2] at this; cases this)
  | dispatch f p =>
    simp only [stepBoth, Option.ite_none_right_eq_some, Option.some.injEq] at hs
    obtain ⟨hu, rfl⟩ := hs
    exact switchTo_STI _ f (addReady_STI (create s f p) s.act false hT h.aS)
  | notify f =>
    simp only [stepBoth, Option.ite_none_right_eq_some, Option.some.injEq, user_iff] at hs
    obtain ⟨hu, rfl⟩ := hs
    exact notify_STI s f hT h hu.2
  | remoteReady =>
    simp only [stepDisp, Option.ite_none_right_eq_some, Option.some.injEq] at hs
    obtain ⟨hu, rfl⟩ := hs
    exact processRemote_STI none s hT h (Or.inl ⟨hu, rfl⟩)
  | sleepers =>
    simp only [stepDisp, Option.ite_none_right_eq_some, Option.some.injEq] at hs
    obtain ⟨hu, rfl⟩ := hs
    exact processSleep_STI s hT h
  | runNormal =>
    simp only [stepDisp, Option.ite_none_right_eq_some] at hs
    obtain ⟨hu, hs⟩ := hs
    split at hs
    · cases hs
    · rename_i f l hl
      cases hs
      exact switchTo_STI _ f (addReady_STI _ 0 false hT h.s0)
  | runBackground =>
    simp only [stepDisp, Option.ite_none_right_eq_some] at hs
    obtain ⟨hu, hs⟩ := hs
    split at hs
    · cases hs
    · rename_i f l hl
      cases hs
      exact switchTo_STI _ f hT
  | destroy =>
    simp only [stepDisp, Option.ite_none_right_eq_some, Option.some.injEq] at hs
    obtain ⟨hu, rfl⟩ := hs
    exact hT
  | attach f p =>
    simp only [stepDisp, Option.ite_none_right_eq_some, Option.some.injEq] at hs
    obtain ⟨hu, rfl⟩ := hs
    exact addReady_STI _ f _ hT (fun c => by
      have := h.lS f c
      rcases hu.2.1 with e | e <;> rw [e] at this <;> cases this)
  | notifyRemote f =>
    simp only [stepDisp, Option.ite_none_right_eq_some, Option.some.injEq] at hs
    obtain ⟨hu, rfl⟩ := hs
    exact notifyRemote_STI s f hT hu
  | tick t =>
    simp only [stepDisp, Option.ite_none_right_eq_some, Option.some.injEq] at hs
    obtain ⟨hu, rfl⟩ := hs
    obtain ⟨⟨h1, h2, h3, h4, h5, h6, h7, h8, h9, h10, h11⟩, h12⟩ := hT
    exact ⟨⟨hu.2, h2, h3, h4, h5, h6, h7, h8, h9, h10, h11⟩, h12⟩

theorem reach_STI (s : St) (h : ReachA s) : STI s := by
  induction h with
  | init hi =>
    obtain ⟨h1, h2, h3, h4, h5, h6, h7, h8, h9, h10, h11, h12, h13, h14, h15⟩ := hi
    refine ⟨?_, ?_⟩
    · constructor <;> simp_all [cur, curStep]
    · rw [h15]; exact WF_snoc (l := []) (WF_nil _) trivial
  | step hr ha hs ih => exact step_STI _ _ _ (reach_inv _ hr) ih ha hs

/-- Timers go off at times before `time_point::max()`. -/
theorem fired_lt (s s' : St) (a : Act) (h : Inv s) (hT : s.now < s.T) (ha : Allowed s a)
    (hs : step s a = some s') (ih : ∀ g u, Ev.fired g u ∈ s.log → u < s.T) :
    ∀ g u, Ev.fired g u ∈ s'.log → u < s'.T := by
  have hi' := step_inv s s' a h ha hs
  let P : St → Prop := fun x => ∀ g u, Ev.fired g u ∈ x.log → u < x.T
  have hsw : ∀ x f, P x → P (switchTo x f) := by
    intro x f hx g u hu; exact hx g u (by simpa [switchTo] using hu)
  have hpre : ∀ x, P x → P (preempt x) := by
    intro x hx
    unfold preempt switchNext
    split
    · exact hsw x 0 hx
    · split
      · exact hx
      · exact hsw _ _ hx
  have hadd : ∀ x f b, P x → P (addReady x f b) := by
    intro x f b hx g u
    unfold addReady push
    cases x.prio f <;> simp <;> exact hx g u
  have hwake : ∀ x f, P x → P (wake x f) := by
    intro x f hx; unfold wake; split
    · exact hx
    · exact hadd x f _ hx
  have hrem : ∀ a, P (processRemote a s) := by
    intro a
    refine (processRemote_induct a P ?_ s ih h.ndR).1
    intro x f hx _ _
    unfold pull1
    dsimp only
    split
    · exact hx
    · exact hwake _ f hx
  unfold step at hs
  rw [if_neg (by rw [h.nbad, h.ncrash]; simp)] at hs
  change P s'
  cases a with
  | yield =>
    simp only [stepUser, Option.ite_none_right_eq_some, Option.some.injEq] at hs
    obtain ⟨hu, rfl⟩ := hs
    exact hpre _ (hadd _ _ _ ih)
  | yieldKeep =>
    simp only [stepUser, Option.ite_none_right_eq_some, Option.some.injEq] at hs
    obtain ⟨hu, rfl⟩ := hs
    exact ih
  | yieldSleep t =>
    simp only [stepUser, Option.ite_none_right_eq_some, Option.some.injEq] at hs
    obtain ⟨hu, rfl⟩ := hs
    exact hpre _ ih
  | suspend =>
    simp only [stepUser, Option.ite_none_right_eq_some, Option.some.injEq] at hs
    obtain ⟨hu, rfl⟩ := hs
    exact hpre _ ih
  | waitUntil d =>
    simp only [stepUser, Option.ite_none_right_eq_some, Option.some.injEq] at hs
    obtain ⟨hu, rfl⟩ := hs
    refine hpre _ ?_
    intro g u hgu
    exact ih g u (by simpa using hgu)
  | finish =>
    simp only [stepUser, Option.ite_none_right_eq_some, Option.some.injEq] at hs
    obtain ⟨hu, rfl⟩ := hs
    have key : ∀ (x : St) (l : List Ev), P x → (∀ e ∈ l, ∃ g c, e = .ret g c) →
        ∀ g u, Ev.fired g u ∈ x.log ++ l → u < x.T := by
      intro x l hx hl g u hm
      rcases List.mem_append.1 hm with h | h
      · exact hx g u h
      · obtain ⟨g, c, e⟩ := hl _ h; cases e
    refine key _ _ ?_ ?_
    · split
      · exact hrem _
      · exact ih
    · split
      · intro e he; exact ⟨_, _, List.mem_singleton.1 he⟩
      · intro e he; cases he
  | terminate =>
    simp only [stepUser, Option.ite_none_right_eq_some, Option.some.injEq] at hs
    obtain ⟨hu, rfl⟩ := hs
    exact hpre _ ih
  | migrate =>
    simp only [stepUser, Option.ite_none_right_eq_some] at hs
    obtain ⟨hu, hs⟩ := hs
    split at hs
    · cases hs; exact hsw _ _ ih
    · cases hs; exact ih
  | post f p =>
    simp only [stepBoth, Option.ite_none_right_eq_some, Option.some.injEq] at hs
    obtain ⟨hu, rfl⟩ := hs
    exact hadd _ _ _ ih
  | dispatch f p =>
    simp only [stepBoth, Option.ite_none_right_eq_some, Option.some.injEq] at hs
    obtain ⟨hu, rfl⟩ := hs
    exact hsw _ _ (hadd _ _ _ ih)
  | notify f =>
    simp only [stepBoth, Option.ite_none_right_eq_some, Option.some.injEq] at hs
    obtain ⟨hu, rfl⟩ := hs
    refine hwake _ _ ?_
    intro g u hgu
    exact ih g u (by simpa using hgu)
  | remoteReady =>
    simp only [stepDisp, Option.ite_none_right_eq_some, Option.some.injEq] at hs
    obtain ⟨hu, rfl⟩ := hs
    exact hrem _
  | sleepers =>
    simp only [stepDisp, Option.ite_none_right_eq_some, Option.some.injEq] at hs
    obtain ⟨hu, rfl⟩ := hs
    refine (processSleep_induct (fun x => P x ∧ x.now < x.T) ?_ s ⟨ih, hT⟩ h.ndS).1
    intro x f hx _ _
    have hfr := fire1_frame x f
    refine ⟨?_, by rw [hfr.2.2.2.1, hfr.2.2.2.2.1]; exact hx.2⟩
    intro g u
    rw [hfr.2.2.2.2.1]
    have h1 := hx.1 g u
    have h2 := hx.2
    unfold fire1 push
    cases x.prio f <;> simp <;> grind
  | runNormal =>
    simp only [stepDisp, Option.ite_none_right_eq_some] at hs
    obtain ⟨hu, hs⟩ := hs
    split at hs
    · cases hs
    · cases hs
      exact hsw _ _ (hadd _ _ _ ih)
  | runBackground =>
    simp only [stepDisp, Option.ite_none_right_eq_some] at hs
    obtain ⟨hu, hs⟩ := hs
    split at hs
    · cases hs
    · cases hs
      exact hsw _ _ ih
  | destroy =>
    simp only [stepDisp, Option.ite_none_right_eq_some, Option.some.injEq] at hs
    obtain ⟨hu, rfl⟩ := hs
    exact ih
  | attach f p =>
    simp only [stepDisp, Option.ite_none_right_eq_some, Option.some.injEq] at hs
    obtain ⟨hu, rfl⟩ := hs
    exact hadd _ _ _ ih
  | notifyRemote f =>
    simp only [stepDisp, Option.ite_none_right_eq_some, Option.some.injEq] at hs
    obtain ⟨hu, rfl⟩ := hs
    intro g u hgu
    exact ih g u (by simpa using hgu)
  | tick t =>
    simp only [stepDisp, Option.ite_none_right_eq_some, Option.some.injEq] at hs
    obtain ⟨hu, rfl⟩ := hs
    exact ih

/-! ## Reading the history -/

theorem cur_mid (f : Nat) (pre mid : List Ev) (d : Nat) (h : noWait f mid) :
    ∃ x, cur f (pre ++ .wait f d :: mid) = some x ∧ x.d = d ∧ x.w = firstWake f mid ∧
      (x.n = true ↔ notified f mid) := by
  have gen : ∀ (c : Cur), ∃ x, mid.foldl (curStep f) (some c) = some x ∧ x.d = c.d ∧
      x.w = (c.w.or (firstWake f mid)) ∧ (x.n = true ↔ c.n = true ∨ notified f mid) := by
    induction mid with
    | nil => intro c; exact ⟨c, rfl, rfl, by simp [firstWake], by simp [notified]⟩
    | cons e mid ih =>
      intro c
      have hno : noWait f mid := ⟨fun d c => h.1 d (by simp [c]), fun b c => h.2 b (by simp [c])⟩
      have hsame : ∀ (hs : curStep f (some c) e = some c) (hfw : firstWake f (e :: mid) = firstWake f mid)
          (hnn : notified f (e :: mid) ↔ notified f mid), ∃ x,
          (e :: mid).foldl (curStep f) (some c) = some x ∧ x.d = c.d ∧
          x.w = (c.w.or (firstWake f (e :: mid))) ∧ (x.n = true ↔ c.n = true ∨ notified f (e :: mid)) := by
        intro hs hfw hnn
        rw [List.foldl_cons, hs, hfw, hnn]
        exact ih hno c
      cases e with
      | ready g b fr => exact hsame rfl rfl (by simp [notified])
      | run g => exact hsame rfl rfl (by simp [notified])
      | wait g d =>
        have : g ≠ f := by rintro rfl; exact h.1 d (by simp)
        exact hsame (by simp [curStep, this]) rfl (by simp [notified])
      | ret g b =>
        have : g ≠ f := by rintro rfl; exact h.2 b (by simp)
        exact hsame (by simp [curStep, this]) rfl (by simp [notified])
      | fired g t =>
        by_cases hg : g = f
        · subst hg
          rw [List.foldl_cons]
          simp only [curStep, if_true, Option.map_some]
          obtain ⟨x, h1, h2, h3, h4⟩ := ih hno { c with w := some (c.w.getD true) }
          refine ⟨x, h1, h2, ?_, ?_⟩
          · rw [h3]; cases hc : c.w <;> simp [firstWake]
          · rw [h4]; simp [notified]
        · exact hsame (by simp [curStep, hg]) (by simp [firstWake, hg]) (by simp [notified])
      | notify g r =>
        by_cases hg : g = f
        · subst hg
          rw [List.foldl_cons]
          simp only [curStep, if_true, Option.map_some]
          obtain ⟨x, h1, h2, h3, h4⟩ :=
            ih hno { c with n := true, w := if r then c.w else some (c.w.getD false) }
          refine ⟨x, h1, h2, ?_, ?_⟩
          · rw [h3]; cases r <;> cases hc : c.w <;> simp [firstWake]
          · rw [h4]
            simp only [true_or, true_iff]
            exact Or.inr ⟨r, by simp⟩
        · exact hsame (by simp [curStep, hg]) (by cases r <;> simp [firstWake, hg]) (by
            simp only [notified, List.mem_cons]
            constructor
            · rintro ⟨r', h | h⟩
              · exact absurd (by injection h with h1 _; exact h1.symm) hg
              · exact ⟨r', h⟩
            · rintro ⟨r', h⟩; exact ⟨r', Or.inr h⟩)
  obtain ⟨x, h1, h2, h3, h4⟩ := gen ⟨d, none, false⟩
  refine ⟨x, ?_, h2, by simpa using h3, by simpa using h4⟩
  have : cur f (pre ++ .wait f d :: mid) =
      mid.foldl (curStep f) (curStep f (cur f pre) (.wait f d)) := by simp [cur]
  rw [this]
  simpa [curStep] using h1

end Verif.Sched
