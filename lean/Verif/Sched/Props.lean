import Verif.Sched.Time

/-!
# C33: fibers made ready run in order, sleepers wake in order and never early; C34: a timed wait reports
a timeout exactly when its timer ended it

`ReachA` are the states of a thread in which `Launch::dispatch` is used only between fibers of the same
ready queue and no background fiber migrates. `C33_dispatch_…` and `C33_migrate_…` show what happens
otherwise.
-/
namespace Verif.Sched

open Verif.Common

/-- A thread with its main fiber running; `time_point::max()` is 1000 here. -/
def s0 : St :=
  { now := 0, T := 1000, prio := fun _ => .normal, rn := [0], rb := [], sl := [], tp := fun _ => 0,
    act := 1, term := [], remote := [], life := fun f => if f = 0 ∨ f = 1 then .live else .fresh,
    pend := fun _ => .none, reg := fun _ => false, bad := false, crash := false,
    log := [.ready 0 false false] }

theorem s0_init : init s0 :=
  ⟨by decide, rfl, rfl, rfl, rfl, rfl, rfl, rfl, rfl, fun _ => rfl, fun _ => rfl, fun _ => rfl, rfl, rfl,
    rfl⟩

theorem reach_exec {s s' : St} (h : ReachA s) : ∀ acts : List Act,
    (∀ pre a post x, acts = pre ++ a :: post → Common.exec step s pre = some x → Allowed x a) →
    Common.exec step s acts = some s' → ReachA s' := by
  intro acts
  induction acts generalizing s with
  | nil => intro _ he; simp only [Common.exec, Option.some.injEq] at he; exact he ▸ h
  | cons a acts ih =>
    intro hal he
    simp only [Common.exec] at he
    cases hs : step s a with
    | none => simp [hs] at he
    | some s1 =>
      simp only [hs] at he
      refine ih (.step h (hal [] a acts s rfl rfl) hs) ?_ he
      intro pre b post x hacts hx
      refine hal (a :: pre) b post x (by simp [hacts]) ?_
      simp only [Common.exec, hs]
      exact hx

/-- Moves that are always allowed. -/
def plainAct : Act → Bool
  | .dispatch .. => false
  | .migrate => false
  | _ => true

theorem reach_plain {s s' : St} (h : ReachA s) (acts : List Act) (hp : acts.all plainAct = true)
    (he : Common.exec step s acts = some s') : ReachA s' := by
  refine reach_exec h acts ?_ he
  intro pre a post x hacts _
  have : plainAct a = true := by
    rw [List.all_eq_true] at hp; exact hp a (by simp [hacts])
  cases a <;> simp_all [plainAct, Allowed]

/-! ## C33 -/

/-- Every fiber is in at most one place, and there once: running, in one of the two ready queues,
asleep, or terminated. -/
theorem C33_one_place (s : St) (h : ReachA s) :
    ([s.act] ++ s.rn ++ s.rb ++ s.sl ++ s.term).Nodup := by
  have hi := reach_inv s h
  have haT : s.act ∉ s.term := fun c => by have := hi.lT _ c; rw [hi.lA] at this; cases this
  have hnT : ∀ f ∈ s.rn, f ∉ s.term := fun f c d => by
    have := hi.lT _ d; rw [hi.lN f c] at this; cases this
  have hbT : ∀ f ∈ s.rb, f ∉ s.term := fun f c d => by
    have := hi.lT _ d; rw [hi.lB f c] at this; cases this
  have hsT : ∀ f ∈ s.sl, f ∉ s.term := fun f c d => by
    have := hi.lT _ d; rw [hi.lS f c] at this; cases this
  have h1 := hi.nB
  have h2 := hi.nS
  have h3 := hi.bS
  have h4 := hi.aN
  have h5 := hi.aB
  have h6 := hi.aS
  simp only [List.nodup_append, hi.ndN, hi.ndB, hi.ndS, hi.ndT]
  simp only [List.mem_append, List.mem_singleton]
  grind

/-- A fiber is only ever in the ready queue of its priority. -/
theorem C33_right_queue (s : St) (h : ReachA s) :
    (∀ f ∈ s.rn, s.prio f ≠ .background) ∧ (∀ f ∈ s.rb, s.prio f = .background) :=
  ⟨(reach_inv s h).pN, (reach_inv s h).pB⟩

/-- No intrusive hook is linked twice, no empty queue is popped, no fiber is resumed while it runs, and
no check fails.

Partial: it needs the restriction on `Launch::dispatch` and `Migrate` that `ReachA` makes. -/
theorem C33_no_ub_partial (s : St) (h : ReachA s) : s.bad = false ∧ s.crash = false :=
  ⟨(reach_inv s h).nbad, (reach_inv s h).ncrash⟩

/-- Without the restriction: a background fiber starts a normal one with `Launch::dispatch`. When the
new fiber first suspends, the dispatcher is in no queue and `Preempt` takes the front of an empty list. -/
theorem C33_dispatch_from_background_ub :
    ∃ acts s', exec step s0 acts = some s' ∧ s'.bad = true :=
  ⟨[.post 2 .background, .suspend, .runBackground, .dispatch 3 .normal, .suspend], _, rfl, rfl⟩

/-- Without the restriction: a normal fiber starts a background one with `Launch::dispatch`. The
background fiber returns straight to the dispatcher, which is still in the ready queue, and the
dispatcher then resumes itself. -/
theorem C33_dispatch_to_background_ub :
    ∃ acts s', exec step s0 acts = some s' ∧ s'.bad = true :=
  ⟨[.dispatch 2 .background, .yield, .runNormal], _, rfl, rfl⟩

/-- Without the restriction: `Migrate` from a background fiber always fails a `CHECK`, because the
dispatcher is in no queue while background fibers run. -/
theorem C33_migrate_from_background_crashes (s s' : St) (h : ReachA s) (hb : s.prio s.act = .background)
    (hs : step s .migrate = some s') : s'.crash = true := by
  have hi := reach_inv s h
  have h0 : linked s 0 = false := by
    have h1 := linked_iff s 0
    have h2 := hi.dbg hb
    have h3 : 0 ∉ s.rb := fun c => hi.p0 (hi.pB 0 c)
    have h4 : 0 ∉ s.term := fun c => by have := hi.lT 0 c; rw [hi.l0] at this; cases this
    grind
  unfold step at hs
  rw [if_neg (by rw [hi.nbad, hi.ncrash]; simp)] at hs
  simp only [stepUser, h0, Bool.false_eq_true, if_false] at hs
  split at hs
  · cases hs; rfl
  · cases hs

example : ∃ s s', ReachA s ∧ s.prio s.act = .background ∧ step s .migrate = some s' :=
  ⟨_, _, reach_plain (.init s0_init) [.post 2 .background, .suspend, .runBackground] rfl rfl, rfl, rfl⟩

/-- First in, first out within a priority. Whenever `f` becomes ready and then `g` becomes ready at the
back of the same queue, `g` does not run before `f` does. (The dispatcher, fiber 0, may be resumed out
of turn.) -/
theorem C33_fifo (s : St) (h : ReachA s) (f g : Nat) (bg fr : Bool) (pre mid mid' post : List Ev)
    (hlog : s.log = pre ++ .ready f bg fr :: mid ++ .ready g bg false :: mid' ++ .run g :: post)
    (hfg : f ≠ g) (hg : g ≠ 0) (hfirst : Ev.run g ∉ mid') : Ev.run f ∈ mid ∨ Ev.run f ∈ mid' := by
  refine Classical.byContradiction fun hc => ?_
  rw [not_or] at hc
  have hwf := (reach_LI s h).wf
  rw [hlog] at hwf
  exact hfirst (fifo_log bg fr f g pre mid mid' post hg hwf hfg hc.1 hc.2)

theorem addReady_log (s : St) (f : Nat) (b : Bool) :
    (addReady s f b).log = s.log ++ [.ready f (s.prio f == .background) b] := by
  unfold addReady push
  cases s.prio f <;> rfl

/-- Only high-priority fibers are put at the front. -/
theorem C33_front_is_high (s s' : St) (a : Act) (f : Nat) (b : Bool) (h : ReachA s) (ha : Allowed s a)
    (hs : step s a = some s') (he : Ev.ready f b true ∈ s'.log) :
    Ev.ready f b true ∈ s.log ∨ s'.prio f = .high := by
  have hfront : ∀ (x : St) g, (Ev.ready f b true ∈ x.log → x.prio f = .high) →
      Ev.ready f b true ∈ (wake x g).log → x.prio f = .high := by
    intro x g hl
    unfold wake
    split
    · exact hl
    · rw [addReady_log]
      intro hm
      rcases List.mem_append.1 hm with hm | hm
      · exact hl hm
      · simp only [List.mem_singleton, Ev.ready.injEq, toFront] at hm
        rw [hm.1]
        simpa using hm.2.2.symm
  have hi := reach_inv s h
  by_cases hin : Ev.ready f b true ∈ s.log
  · exact Or.inl hin
  right
  have hpre : ∀ x : St, Ev.ready f b true ∈ (preempt x).log → Ev.ready f b true ∈ x.log := by
    intro x
    unfold preempt switchNext switchTo
    split
    · simp
    · split <;> simp
  have hadd : ∀ (x : St) g, Ev.ready f b true ∈ (addReady x g false).log → Ev.ready f b true ∈ x.log := by
    intro x g
    unfold addReady push
    cases x.prio g <;> simp
  have hrem : ∀ a, Ev.ready f b true ∈ (processRemote a s).log →
      (processRemote a s).prio f = .high := by
    intro a
    refine (processRemote_induct a (fun x => Ev.ready f b true ∈ x.log → x.prio f = .high) ?_ s
      (fun c => absurd c hin) hi.ndR).1
    intro x g hx _ _
    unfold pull1
    dsimp only
    split
    · exact hx
    · rw [(wake_frame _ _).2.2.2.2.2.2.2.1]
      exact hfront { x with remote := x.remote.erase g } g hx
  have hfire : Ev.ready f b true ∈ (processSleep s).log → Ev.ready f b true ∈ s.log := by
    refine processSleep_induct (fun x => Ev.ready f b true ∈ x.log → Ev.ready f b true ∈ s.log) ?_ s
      id hi.ndS
    intro x g hx _ _
    unfold fire1 push
    cases x.prio g <;> simp <;> exact hx
  unfold step at hs
  rw [if_neg (by rw [hi.nbad, hi.ncrash]; simp)] at hs
  cases a with
  | yield =>
    simp only [stepUser, Option.ite_none_right_eq_some, Option.some.injEq] at hs
    obtain ⟨hu, rfl⟩ := hs
    exact absurd (hadd _ _ (hpre _ he)) hin
  | yieldKeep =>
    simp only [stepUser, Option.ite_none_right_eq_some, Option.some.injEq] at hs
    obtain ⟨hu, rfl⟩ := hs
    exact absurd he hin
  | yieldSleep t =>
    simp only [stepUser, Option.ite_none_right_eq_some, Option.some.injEq] at hs
    obtain ⟨hu, rfl⟩ := hs
    exact absurd (hpre _ he) hin
  | suspend =>
    simp only [stepUser, Option.ite_none_right_eq_some, Option.some.injEq] at hs
    obtain ⟨hu, rfl⟩ := hs
    exact absurd (hpre _ he) hin
  | waitUntil d =>
    simp only [stepUser, Option.ite_none_right_eq_some, Option.some.injEq] at hs
    obtain ⟨hu, rfl⟩ := hs
    have := hpre _ he
    simp at this
    exact absurd this hin
  | finish =>
    simp only [stepUser, Option.ite_none_right_eq_some, Option.some.injEq] at hs
    obtain ⟨hu, rfl⟩ := hs
    have key : ∀ (x : St) (l : List Ev), (∀ e ∈ l, ∃ g c, e = .ret g c) →
        Ev.ready f b true ∈ x.log ++ l → Ev.ready f b true ∈ x.log := by
      intro x l hl hm
      rcases List.mem_append.1 hm with h | h
      · exact h
      · obtain ⟨g, c, e⟩ := hl _ h; cases e
    have hm := key _ _ (by
      split
      · intro e he; exact ⟨_, _, List.mem_singleton.1 he⟩
      · intro e he; cases he) he
    dsimp only
    split at hm
    · rename_i hc
      rw [if_pos hc]; exact hrem _ hm
    · exact absurd hm hin
  | terminate =>
    simp only [stepUser, Option.ite_none_right_eq_some, Option.some.injEq] at hs
    obtain ⟨hu, rfl⟩ := hs
    exact absurd (hpre _ he) hin
  | migrate =>
    simp only [stepUser, Option.ite_none_right_eq_some] at hs
    obtain ⟨hu, hs⟩ := hs
    split at hs
    · cases hs
      simp [switchTo] at he
      exact absurd he hin
    · cases hs; exact absurd he hin
  | post g p =>
    simp only [stepBoth, Option.ite_none_right_eq_some, Option.some.injEq] at hs
    obtain ⟨hu, rfl⟩ := hs
    unfold addReady push toFront create at *
    simp only [upd_same] at he ⊢
    cases p <;> simp_all
  | dispatch g p =>
    simp only [stepBoth, Option.ite_none_right_eq_some, Option.some.injEq] at hs
    obtain ⟨hu, rfl⟩ := hs
    have : Ev.ready f b true ∈ (addReady (create s g p) (create s g p).act false).log := by
      simpa [switchTo] using he
    exact absurd (hadd _ _ this) hin
  | notify g =>
    simp only [stepBoth, Option.ite_none_right_eq_some, Option.some.injEq] at hs
    obtain ⟨hu, rfl⟩ := hs
    rw [(wake_frame _ _).2.2.2.2.2.2.2.1]
    refine hfront _ g (fun c => ?_) he
    rcases List.mem_append.1 c with c | c
    · exact absurd c hin
    · cases List.mem_singleton.1 c
  | remoteReady =>
    simp only [stepDisp, Option.ite_none_right_eq_some, Option.some.injEq] at hs
    obtain ⟨hu, rfl⟩ := hs
    exact hrem _ he
  | sleepers =>
    simp only [stepDisp, Option.ite_none_right_eq_some, Option.some.injEq] at hs
    obtain ⟨hu, rfl⟩ := hs
    exact absurd (hfire he) hin
  | runNormal =>
    simp only [stepDisp, Option.ite_none_right_eq_some] at hs
    obtain ⟨hu, hs⟩ := hs
    split at hs
    · cases hs
    · rename_i x l hl
      cases hs
      have : Ev.ready f b true ∈ (addReady { s with rn := l } 0 false).log := by
        simpa [switchTo] using he
      exact absurd (hadd _ _ this) hin
  | runBackground =>
    simp only [stepDisp, Option.ite_none_right_eq_some] at hs
    obtain ⟨hu, hs⟩ := hs
    split at hs
    · cases hs
    · cases hs
      exact absurd (by simpa [switchTo] using he) hin
  | destroy =>
    simp only [stepDisp, Option.ite_none_right_eq_some, Option.some.injEq] at hs
    obtain ⟨hu, rfl⟩ := hs
    exact absurd he hin
  | attach g p =>
    simp only [stepDisp, Option.ite_none_right_eq_some, Option.some.injEq] at hs
    obtain ⟨hu, rfl⟩ := hs
    exact absurd (hadd _ _ he) hin
  | notifyRemote g =>
    simp only [stepDisp, Option.ite_none_right_eq_some, Option.some.injEq] at hs
    obtain ⟨hu, rfl⟩ := hs
    exact absurd (by simpa using he) hin
  | tick t =>
    simp only [stepDisp, Option.ite_none_right_eq_some, Option.some.injEq] at hs
    obtain ⟨hu, rfl⟩ := hs
    exact absurd he hin

/-- No runnable fiber is lost: a fiber that is not terminated and not on another thread is running, in a
ready queue, asleep, still registered with its waker, or on its way from another thread. -/
theorem C33_nothing_lost (s : St) (h : ReachA s) (f : Nat) (hf : f ≠ 0) (hl : s.life f = .live) :
    f = s.act ∨ f ∈ s.rn ∨ f ∈ s.rb ∨ f ∈ s.sl ∨ s.reg f = true ∨ f ∈ s.remote :=
  (reach_inv s h).lost f hf hl

/-- The dispatcher gets its turn: while a fiber of the normal queue runs, the dispatcher is in that
queue, and a background fiber that gives up the processor returns to the dispatcher. -/
theorem C33_dispatcher_kept (s : St) (h : ReachA s) (ha : s.act ≠ 0) :
    (s.prio s.act ≠ .background → 0 ∈ s.rn) ∧
    (s.prio s.act = .background → ∀ s', step s .suspend = some s' → s'.act = 0) := by
  have hi := reach_inv s h
  refine ⟨hi.disp ha, fun hp s' hs => ?_⟩
  unfold step at hs
  rw [if_neg (by rw [hi.nbad, hi.ncrash]; simp)] at hs
  simp only [stepUser, Option.ite_none_right_eq_some, Option.some.injEq] at hs
  obtain ⟨hu, rfl⟩ := hs
  simp only [preempt, hp, switchTo]

/-- A sleeping fiber is not woken by the timer before its deadline. -/
theorem C33_not_early (s : St) (h : ReachA s) (f d t : Nat) (pre mid post : List Ev)
    (hlog : s.log = pre ++ .wait f d :: mid ++ .fired f t :: post) (hm : noWait f mid) : d ≤ t := by
  have hwf := (reach_STI s h).2
  obtain ⟨x, hx, hd, -⟩ := cur_mid f pre mid d hm
  have := hwf (pre ++ .wait f d :: mid) (.fired f t) post (by simp [hlog]) x hx
  omega

/-- The list of fibers whose timers one pass of `ProcessSleep` fires. -/
theorem processSleep_log (s : St) :
    ∃ bg : Nat → Bool, (processSleep s).log =
      s.log ++ (due s).flatMap (fun f => [.fired f s.now, .ready f (bg f) false]) := by
  unfold processSleep
  generalize due s = l
  suffices ∀ (l : List Nat) (x : St), x.now = s.now → x.prio = s.prio →
      (l.foldl fire1 x).log = x.log ++ l.flatMap
        (fun f => [.fired f s.now, .ready f (s.prio f == .background) false]) from
    ⟨_, this l s rfl rfl⟩
  intro l
  induction l with
  | nil => intro x _ _; simp
  | cons f l ih =>
    intro x h1 h2
    have hfr := fire1_frame x f
    rw [List.foldl_cons, ih _ (by rw [hfr.2.2.2.1, h1]) (by rw [hfr.2.2.2.2.2.2.2.1, h2])]
    have : (fire1 x f).log = x.log ++ [.fired f s.now, .ready f (s.prio f == .background) false] := by
      unfold fire1 push
      rw [← h1, ← h2]
      cases x.prio f <;> simp
    rw [this]; simp

theorem fold_fire_sl (l : List Nat) (s : St) : (l.foldl fire1 s).sl = l.foldl List.erase s.sl := by
  induction l generalizing s with
  | nil => rfl
  | cons f l ih => simp only [List.foldl_cons]; rw [ih, (fire1_frame s f).2.2.2.2.2.2.2.2]

theorem erase_takeWhile (p : Nat → Bool) (l : List Nat) :
    (l.takeWhile p).foldl List.erase l = l.dropWhile p := by
  induction l with
  | nil => rfl
  | cons a l ih =>
    rw [List.takeWhile_cons, List.dropWhile_cons]
    split
    · simp only [List.foldl_cons, List.erase_cons_head]; exact ih
    · rfl

theorem dropWhile_sorted (tp : Nat → Nat) (now : Nat) (l : List Nat)
    (h : l.Pairwise (fun f g => tp f ≤ tp g)) :
    ∀ f ∈ l.dropWhile (fun f => decide (tp f ≤ now)), now < tp f := by
  induction l with
  | nil => simp
  | cons a l ih =>
    rw [List.pairwise_cons] at h
    rw [List.dropWhile_cons]
    split
    · exact ih h.2
    · rename_i hp
      have ha : now < tp a := by simpa using hp
      intro f hf
      rcases List.mem_cons.1 hf with rfl | hf
      · exact ha
      · have := h.1 f hf; omega

/-- One pass of the timer: it fires timers in the order of their deadlines; the deadline of every fiber
it wakes has passed; every fiber that stays asleep has its deadline ahead; and nobody disappears. A
sleeping fiber's deadline `tp` is the one it passed to `WaitUntil`, or the one a background fiber that
yields was given. -/
theorem C33_deadline_order (s s' : St) (h : ReachA s) (hs : step s .sleepers = some s') :
    ∃ (woken : List Nat) (bg : Nat → Bool),
      s'.log = s.log ++ woken.flatMap (fun f => [.fired f s.now, .ready f (bg f) false]) ∧
      woken.Pairwise (fun f g => s.tp f ≤ s.tp g) ∧
      (∀ f ∈ woken, f ∈ s.sl ∧ s.tp f ≤ s.now) ∧
      (∀ f ∈ s'.sl, f ∈ s.sl ∧ s.now < s.tp f) ∧
      (∀ f ∈ s.sl, f ∈ woken ∨ f ∈ s'.sl) ∧
      (∀ f ∈ s.sl, s.pend f = .timed (s.tp f) ∨ s.pend f = .none) := by
  have hi := reach_inv s h
  have ht := (reach_STI s h).1
  unfold step at hs
  rw [if_neg (by rw [hi.nbad, hi.ncrash]; simp)] at hs
  simp only [stepDisp, Option.ite_none_right_eq_some, Option.some.injEq] at hs
  obtain ⟨hu, rfl⟩ := hs
  obtain ⟨bg, hlog⟩ := processSleep_log s
  have hsl : (processSleep s).sl = s.sl.dropWhile (fun f => decide (s.tp f ≤ s.now)) := by
    unfold processSleep due
    rw [fold_fire_sl, erase_takeWhile]
  refine ⟨due s, bg, hlog, ht.sorted.sublist (List.takeWhile_sublist _), due_mem s, ?_, ?_, ht.slp⟩
  · intro f hf
    rw [hsl] at hf
    exact ⟨(List.dropWhile_sublist _).subset hf, dropWhile_sorted s.tp s.now s.sl ht.sorted f hf⟩
  · intro f hf
    rw [hsl]
    rw [← List.takeWhile_append_dropWhile (p := fun f => decide (s.tp f ≤ s.now)) (l := s.sl)] at hf
    exact List.mem_append.1 hf

/-- Two fibers asleep, one of them due: the pass wakes that one. -/
example : ∃ s s', ReachA s ∧ s.sl = [2, 1] ∧ step s .sleepers = some s' ∧ s'.sl = [1] :=
  ⟨_, _, reach_plain (.init s0_init)
    [.post 2 .normal, .waitUntil 20, .runNormal, .waitUntil 10, .tick 15] rfl rfl, rfl, rfl, rfl⟩

/-- Waking a fiber early takes it off the timer queue and makes it ready. -/
theorem C33_early_wake (s s' : St) (h : ReachA s) (f : Nat) (hs : step s (.notify f) = some s') :
    f ∉ s'.sl ∧ (f ∈ s'.rn ∨ f ∈ s'.rb) := by
  have hi := reach_inv s h
  have hi' := step_inv s s' (.notify f) hi trivial hs
  have key : f ∈ s'.rn ∨ f ∈ s'.rb := by
    unfold step at hs
    rw [if_neg (by rw [hi.nbad, hi.ncrash]; simp)] at hs
    simp only [stepBoth, Option.ite_none_right_eq_some, Option.some.injEq] at hs
    obtain ⟨hu, rfl⟩ := hs
    have hlive := hi.lP f (hi.rP f hu.2)
    have hnt : f ∉ s.term := fun c => by have := hi.lT f c; rw [hlive] at this; cases this
    unfold wake
    split
    · rename_i hl
      rw [linked_iff] at hl
      rcases hl with hl | hl | hl
      · exact Or.inl hl
      · exact Or.inr hl
      · exact absurd hl hnt
    · rename_i hl
      rw [addReady_eq _ _ _ (by simpa using hl)]
      dsimp only
      generalize toFront _ f = b
      by_cases hp : s.prio f = .background
      · right; rw [if_pos hp]; split <;> simp
      · left; rw [if_neg hp]; split <;> simp
  refine ⟨?_, key⟩
  rcases key with k | k
  · exact hi'.nS f k
  · exact hi'.bS f k

/-- The same for fibers woken from other threads, when the dispatcher processes them. -/
theorem C33_early_wake_remote (s s' : St) (h : ReachA s) (f : Nat) (hf : f ∈ s.remote)
    (hs : step s .remoteReady = some s') : f ∉ s'.sl ∧ (f ∈ s'.rn ∨ f ∈ s'.rb) := by
  have hi := reach_inv s h
  have hi' := step_inv s s' .remoteReady hi trivial hs
  have key : f ∈ s'.rn ∨ f ∈ s'.rb := by
    unfold step at hs
    rw [if_neg (by rw [hi.nbad, hi.ncrash]; simp)] at hs
    simp only [stepDisp, Option.ite_none_right_eq_some, Option.some.injEq] at hs
    obtain ⟨hu, rfl⟩ := hs
    have hlive := hi.lP f (hi.qP f hf)
    have hd : f ∉ s.term := fun c => by have := hi.lT f c; rw [hlive] at this; cases this
    have hres := processRemote_induct none
      (fun x => Inv x ∧ x.act = 0 ∧ f ∉ x.term ∧ (f ∈ x.remote ∨ f ∈ x.rn ∨ f ∈ x.rb)) ?_ s
      ⟨hi, hu, hd, Or.inl hf⟩ hi.ndR
    · rcases hres.1.2.2.2 with h | h | h
      · rw [hres.2] at h; cases h
      · exact Or.inl h
      · exact Or.inr h
    · intro x g hx hg _
      have hfr := pull1_frame none x g
      refine ⟨pull1_inv none x g hx.1 hg (Or.inl ⟨hx.2.1, rfl⟩), hfr.1.trans hx.2.1, ?_, ?_⟩
      · rw [hfr.2.2.2.2.2.2.2.2.2]; exact hx.2.2.1
      · rw [hfr.2.2.1]
        have hmono : ∀ y, (y ∈ x.rn ∨ y ∈ x.rb) → (y ∈ (pull1 none x g).rn ∨ y ∈ (pull1 none x g).rb) := by
          intro y hy
          unfold pull1 wake
          dsimp only
          simp only [reduceCtorEq, if_false]
          split
          · exact hy
          · rename_i hl
            rw [addReady_eq _ _ _ (by simpa using hl)]
            dsimp only
            generalize toFront _ g = b
            rcases hy with hy | hy
            · left; split
              · exact hy
              · split <;> simp [hy]
            · right; split
              · split <;> simp [hy]
              · exact hy
        by_cases hgf : f = g
        · right
          subst hgf
          unfold pull1 wake
          dsimp only
          simp only [reduceCtorEq, if_false]
          split
          · rename_i hl
            rw [linked_iff] at hl
            rcases hl with hl | hl | hl
            · exact Or.inl hl
            · exact Or.inr hl
            · exact absurd hl hx.2.2.1
          · rename_i hl
            rw [addReady_eq _ _ _ (by simpa using hl)]
            dsimp only
            generalize toFront _ f = b
            by_cases hp : x.prio f = .background
            · right; rw [if_pos hp]; split <;> simp
            · left; rw [if_neg hp]; split <;> simp
        · rcases hx.2.2.2 with h | h
          · exact Or.inl ((List.mem_erase_of_ne hgf).2 h)
          · exact Or.inr (hmono f h)
  refine ⟨?_, key⟩
  rcases key with k | k
  · exact hi'.nS f k
  · exact hi'.bS f k

/-! ## C34 -/

/-- A timed wait reports a timeout iff its timer went off before any fiber of its thread notified it.

Partial: the deadline must not be `time_point::max()` (see `C34_max_always_timeout`), and
notifications from other threads only count when the dispatcher gets to them (see
`C34_remote_notify_lost`). -/
theorem C34_timeout_iff_partial (s : St) (h : ReachA s) (f d : Nat) (b : Bool) (pre mid post : List Ev)
    (hlog : s.log = pre ++ .wait f d :: mid ++ .ret f b :: post) (hm : noWait f mid) (hd : d < s.T) :
    b = true ↔ firstWake f mid = some true := by
  have hwf := (reach_STI s h).2
  obtain ⟨x, hx, hxd, hw, -⟩ := cur_mid f pre mid d hm
  obtain ⟨c, hc, h1, -⟩ := hwf (pre ++ .wait f d :: mid) (.ret f b) post (by simp [hlog])
  have : c = x := by
    have : some c = some x := by rw [← hc, ← hx]
    exact Option.some.inj this
  subst this
  rw [h1 (by omega), hw]

/-- A wait that reports no timeout was notified. -/
theorem C34_no_timeout_notified (s : St) (h : ReachA s) (f d : Nat) (pre mid post : List Ev)
    (hlog : s.log = pre ++ .wait f d :: mid ++ .ret f false :: post) (hm : noWait f mid) :
    notified f mid := by
  have hwf := (reach_STI s h).2
  obtain ⟨x, hx, hxd, -, hn⟩ := cur_mid f pre mid d hm
  obtain ⟨c, hc, -, -, h3, -⟩ := hwf (pre ++ .wait f d :: mid) (.ret f false) post (by simp [hlog])
  have : c = x := by
    have : some c = some x := by rw [← hc, ← hx]
    exact Option.some.inj this
  subst this
  exact hn.1 (h3 rfl)

theorem firstWake_fired (f : Nat) (mid : List Ev) (h : firstWake f mid = some true) :
    ∃ m1 t m2, mid = m1 ++ .fired f t :: m2 := by
  induction mid with
  | nil => simp [firstWake] at h
  | cons e mid ih =>
    have rest : firstWake f mid = some true → ∃ m1 t m2, e :: mid = m1 ++ .fired f t :: m2 := by
      intro hh
      obtain ⟨m1, t, m2, rfl⟩ := ih hh
      exact ⟨e :: m1, t, m2, rfl⟩
    cases e with
    | fired g t =>
      by_cases hg : g = f
      · subst hg; exact ⟨[], t, mid, rfl⟩
      · simp only [firstWake, hg, if_false] at h; exact rest h
    | notify g r =>
      cases r
      · by_cases hg : g = f
        · simp [firstWake, hg] at h
        · simp only [firstWake, hg, if_false] at h; exact rest h
      · exact rest (by simpa [firstWake] using h)
    | ready g b c => exact rest (by simpa [firstWake] using h)
    | run g => exact rest (by simpa [firstWake] using h)
    | wait g d => exact rest (by simpa [firstWake] using h)
    | ret g b => exact rest (by simpa [firstWake] using h)

/-- A wait that reports a timeout has seen its deadline pass (unless that was `time_point::max()`). -/
theorem C34_timeout_expired (s : St) (h : ReachA s) (f d : Nat) (pre mid post : List Ev)
    (hlog : s.log = pre ++ .wait f d :: mid ++ .ret f true :: post) (hm : noWait f mid) (hd : d < s.T) :
    ∃ t, Ev.fired f t ∈ mid ∧ d ≤ t := by
  have := (C34_timeout_iff_partial s h f d true pre mid post hlog hm hd).1 rfl
  obtain ⟨m1, t, m2, rfl⟩ := firstWake_fired f mid this
  refine ⟨t, by simp, ?_⟩
  exact C33_not_early s h f d t pre m1 (m2 ++ .ret f true :: post) (by simp [hlog])
    ⟨fun d c => hm.1 d (by simp [c]), fun b c => hm.2 b (by simp [c])⟩

/-- With the deadline `time_point::max()`, `WaitUntil` always reports a timeout, although that timer
never goes off. -/
theorem C34_max_always_timeout (s : St) (h : ReachA s) (f : Nat) (b : Bool) (pre mid post : List Ev)
    (hlog : s.log = pre ++ .wait f s.T :: mid ++ .ret f b :: post) (hm : noWait f mid) :
    b = true ∧ ∀ t, Ev.fired f t ∉ mid := by
  have hwf := (reach_STI s h).2
  obtain ⟨x, hx, hxd, -⟩ := cur_mid f pre mid s.T hm
  obtain ⟨c, hc, -, h2, -⟩ := hwf (pre ++ .wait f s.T :: mid) (.ret f b) post (by simp [hlog])
  have : c = x := by
    have : some c = some x := by rw [← hc, ← hx]
    exact Option.some.inj this
  subst this
  refine ⟨h2 hxd, fun t ht => ?_⟩
  obtain ⟨m1, m2, rfl⟩ := List.append_of_mem ht
  have h1 := C33_not_early s h f s.T t pre m1 (m2 ++ .ret f b :: post) (by simp [hlog])
    ⟨fun d c => hm.1 d (by simp [c]), fun b c => hm.2 b (by simp [c])⟩
  have h2 : ∀ s, ReachA s → ∀ g u, Ev.fired g u ∈ s.log → u < s.T := by
    intro s hs
    induction hs with
    | init hi =>
      obtain ⟨-, -, -, -, -, -, -, -, -, -, -, -, -, -, hl⟩ := hi
      intro g u hu; rw [hl] at hu; simp at hu
    | @step s a s' hr ha hst ih => exact fired_lt s s' a (reach_inv s hr) (reach_STI s hr).1.nowT ha hst ih
  have := h2 s h f t (by rw [hlog]; simp)
  omega

/-- The history of an execution from `s0`. -/
def history (acts : List Act) : Option (List Ev) := (exec step s0 acts).map (·.log)

/-- A fiber that waits with the deadline `time_point::max()`, is notified by another fiber of its thread
and reports a timeout. -/
theorem C34_max_refuted :
    history [.post 2 .normal, .waitUntil 1000, .runNormal, .notify 1, .suspend, .runNormal, .finish] =
      some [.ready 0 false false, .ready 2 false false, .wait 1 1000, .run 0, .ready 0 false false,
        .run 2, .notify 1 false, .ready 1 false false, .run 0, .ready 0 false false, .run 1,
        .ret 1 true] := rfl

/-- A fiber waiting until time 10 is notified from another thread at time 5; the timer is processed at
time 10 before the notification is, and the wait reports a timeout. -/
theorem C34_remote_notify_lost :
    history [.waitUntil 10, .tick 5, .notifyRemote 1, .tick 10, .sleepers, .remoteReady, .runNormal,
      .finish] =
      some [.ready 0 false false, .wait 1 10, .run 0, .notify 1 true, .fired 1 10, .ready 1 false false,
        .ready 0 false false, .run 1, .ret 1 true] := rfl

/-- A wait notified in time, and one that times out. -/
example :
    history [.post 2 .normal, .waitUntil 10, .runNormal, .notify 1, .suspend, .runNormal, .finish,
      .waitUntil 20, .tick 30, .sleepers, .runNormal, .finish] =
      some [.ready 0 false false, .ready 2 false false, .wait 1 10, .run 0, .ready 0 false false, .run 2,
        .notify 1 false, .ready 1 false false, .run 0, .ready 0 false false, .run 1, .ret 1 false,
        .wait 1 20, .run 0, .fired 1 30, .ready 1 false false, .ready 0 false false, .run 1,
        .ret 1 true] := rfl

end Verif.Sched
