import Verif.EventCount.Await
/-!
# C19: `EventCount` loses no wake-up

Fibers run `await(cond k)` and `await_until(cond k)` on one event count, for arbitrary conditions over an arbitrary
shared state, while fibers update that state and call `notify` / `notifyAll` afterwards. Every interleaving of the
atomic steps of these operations is an execution; timers fire at any moment.
-/
namespace Verif.EventCount
open Verif.Common

section
variable {G κ : Type} {cond : κ → G → Bool} {oa : Bool}

/-- Any shared state, any number of fibers, nothing started. -/
def AInit : State G (APc κ) → Prop := Init (fun _ => True) (fun l => l = .idle)

/-- Fiber `t` is blocked in `await(cond k)` or `await_until(cond k)`. -/
def Blocked (s : State G (APc κ)) (t : Nat) (k : κ) : Prop :=
  ∃ x i tm tm', s.th[t]? = some x ∧ x.ep = .asleep i tm ∧ x.cl = .wait k tm'

/-- Fiber `u` has updated the shared state and its notification is still to come or is not finished. -/
def Notifying (s : State G (APc κ)) (u : Nat) : Prop := ∃ x all, s.th[u]? = some x ∧ x.cl = .owe all

/-- Fiber `t` is between the start and the end of the slow path of `await` / `await_until`. -/
def Awaiting (s : State G (APc κ)) (t : Nat) : Prop :=
  ∃ x k, s.th[t]? = some x ∧ (∃ tm, x.cl = .prep k tm ∨ x.cl = .chk1 k tm ∨ x.cl = .wait k tm ∨ x.cl = .dropL k tm ∨ x.cl = .dropX k tm)

/-- At most one fiber waits at a time. -/
def OneWaiter (s : State G (APc κ)) : Prop := ∀ t t', Awaiting s t → Awaiting s t' → t = t'

theorem await_ix {Q : State G (APc κ) → Prop} (hQ : ∀ s, Q s → s.th.length < 2 ^ 32) {s : State G (APc κ)}
    (h : Reach AInit (step (awaitClient G κ cond oa)) Q s) {t : Nat} {x : Th (APc κ)} (hx : s.th[t]? = some x) :
    (∀ j, waitIx x.ep = some j → j = 0) ∧ (∀ j, notIx x.ep = some j → j = 0 ∧ ∃ all, x.cl = .owe all) := by
  have hC := cinv_reach hQ h t x hx
  constructor
  · intro j hj
    obtain ⟨tm, h1⟩ := hC.1 j hj
    cases hcl : x.cl <;> rw [hcl] at h1 <;> simp [awaitClient] at h1
    exact h1.1.symm
  · intro j hj
    obtain ⟨all, h1⟩ := hC.2.2 j hj
    cases hcl : x.cl <;> rw [hcl] at h1 <;> simp [awaitClient] at h1
    exact ⟨h1.1.symm, _, rfl⟩

theorem await_key {Q : State G (APc κ) → Prop} (hQ : ∀ s, Q s → s.th.length < 2 ^ 32) {s : State G (APc κ)}
    (h : Reach AInit (step (awaitClient G κ cond oa)) Q s) {t : Nat} {k : Key} (hk : s.key t = some k) : Awaiting s t := by
  obtain ⟨x, hx, hk'⟩ : ∃ x, s.th[t]? = some x ∧ x.key = some k := by
    simp only [State.key, Option.bind_eq_some_iff] at hk; exact hk
  have := keydisc_reach hQ (await_keydisc cond oa) (by intro l h; subst h; rfl) h (lcl_of hx)
  rw [hk] at this
  cases hcl : x.cl <;> rw [hcl] at this <;> simp [aKey] at this <;> (rename_i kk tm; exact ⟨x, kk, hx, tm, by simp [hcl]⟩)

theorem await_w_all {s : State G (APc κ)} (h : Reach AInit (step (awaitClient G κ cond true)) NoWrap s) :
    s.W (awaitClient G κ cond true) 0 (aCond cond) aObl :=
  w_reach (await_sound cond true) (fun _ h => h) h
    (fun s h => oneOk_all (fun _ h => h.1) (by intro l; cases l <;> simp [awaitClient]) h)

theorem await_w_one {s : State G (APc κ)}
    (h : Reach AInit (step (awaitClient G κ cond oa)) (fun s => NoWrap s ∧ OneWaiter s) s) :
    s.W (awaitClient G κ cond oa) 0 (aCond cond) aObl :=
  w_reach (await_sound cond oa) (fun _ h => h.1) h
    (fun s h => .inr (fun t t' k k' h1 _ h2 _ => h.q.2 t t' (await_key (fun _ h => h.1.1) h h1) (await_key (fun _ h => h.1.1) h h2)))

theorem lost_aux {Q : State G (APc κ) → Prop} (hQ : ∀ s, Q s → s.th.length < 2 ^ 32) {s : State G (APc κ)}
    (h : Reach AInit (step (awaitClient G κ cond oa)) Q s) (hW : s.W (awaitClient G κ cond oa) 0 (aCond cond) aObl)
    {t : Nat} {k : κ} (hb : Blocked s t k) (hc : cond k s.g = true) : ∃ u, u ≠ t ∧ Notifying s u := by
  obtain ⟨x, i, tm, tm', hx, he, hl⟩ := hb
  have := (await_ix hQ h hx).1 i (by rw [he]; rfl)
  subst this
  obtain ⟨u, hut, hu⟩ := no_lost (await_sound cond oa) (einv_reach hQ h) hW (t := t) (l := .wait k tm') (tm := tm)
    (by rw [ep_of hx, he]) (by rw [lcl_of hx, hl]) hc
  refine ⟨u, hut, ?_⟩
  rcases hu with ⟨m, hm, ho, -⟩ | ⟨p, hp, hpi⟩
  · simp only [State.lcl, Option.map_eq_some_iff] at hm
    obtain ⟨y, hy, rfl⟩ := hm
    cases hcl : y.cl <;> rw [hcl] at ho <;> simp [aObl] at ho
    exact ⟨y, _, hy, hcl⟩
  · simp only [State.ep, Option.map_eq_some_iff] at hp
    obtain ⟨y, hy, rfl⟩ := hp
    obtain ⟨-, all, h1⟩ := (await_ix hQ h hy).2 0 hpi
    exact ⟨y, all, hy, h1⟩

theorem quiet_aux {Q : State G (APc κ) → Prop} (hQ : ∀ s, Q s → s.th.length < 2 ^ 32) {s : State G (APc κ)}
    (h : Reach AInit (step (awaitClient G κ cond oa)) Q s) (hW : s.W (awaitClient G κ cond oa) 0 (aCond cond) aObl)
    (hst : ∀ u all, Notifying s u → (∃ x, s.th[u]? = some x ∧ x.cl = .owe all) → False)
    {t : Nat} {k : κ} (hb : Blocked s t k) : cond k s.g = false := by
  cases hc : cond k s.g with
  | false => rfl
  | true =>
    obtain ⟨u, -, x, all, hx, hl⟩ := lost_aux hQ h hW hb hc
    exact (hst u all ⟨x, all, hx, hl⟩ ⟨x, hx, hl⟩).elim

/-- Every notification is `notifyAll`: whenever a fiber is blocked in `await(cond k)` although `cond k` holds, some
other fiber is before the end of a notification that follows an update. -/
theorem C19_no_lost_wakeup {s : State G (APc κ)} (h : Reach AInit (step (awaitClient G κ cond true)) NoWrap s)
    {t : Nat} {k : κ} (hb : Blocked s t k) (hc : cond k s.g = true) : ∃ u, u ≠ t ∧ Notifying s u :=
  lost_aux (fun _ h => h.1) h (await_w_all h) hb hc

/-- The same with `notify`, when there is only one waiter at a time. -/
theorem C19_no_lost_wakeup_single {s : State G (APc κ)}
    (h : Reach AInit (step (awaitClient G κ cond oa)) (fun s => NoWrap s ∧ OneWaiter s) s)
    {t : Nat} {k : κ} (hb : Blocked s t k) (hc : cond k s.g = true) : ∃ u, u ≠ t ∧ Notifying s u :=
  lost_aux (fun _ h => h.1.1) h (await_w_one h) hb hc

/-- A notification in progress never gets stuck: as long as one is pending, some fiber can take a step inside an event
count operation or start its notification (the spinlock is never left held by a sleeping fiber). -/
theorem C19_notification_progress {s : State G (APc κ)} (h : Reach AInit (step (awaitClient G κ cond oa)) NoWrap s)
    {u : Nat} (hn : Notifying s u) (c : ACh G κ cond) :
    ∃ v x, s.th[v]? = some x ∧ (∀ k tm, x.ep ≠ .asleep k tm) ∧ x.cl ≠ .idle ∧
      (step (awaitClient G κ cond oa) s (.go v c)).isSome = true := by
  have hE := einv_reach (fun _ h => h.1) h
  obtain ⟨x, all, hx, hl⟩ := hn
  have hC := cinv_reach (fun _ h => h.1) h
  have fin : ∀ v y, s.th[v]? = some y → y.ep ≠ .cl → (∀ k tm, y.ep ≠ .asleep k tm) →
      step (awaitClient G κ cond oa) s (.go v c) ≠ none → ∃ v x, s.th[v]? = some x ∧ (∀ k tm, x.ep ≠ .asleep k tm) ∧
        x.cl ≠ .idle ∧ (step (awaitClient G κ cond oa) s (.go v c)).isSome = true := by
    intro v y hy h1 h2 h3
    refine ⟨v, y, hy, h2, ?_, ?_⟩
    · intro hi
      have hCv := hC v y hy
      rw [hi] at hCv
      cases he : y.ep <;> rw [he] at hCv <;> simp [waitIx, isPull, notIx, awaitClient] at hCv
      exact h1 he
    · rw [Option.isSome_iff_ne_none]; exact h3
  by_cases he : x.ep = .cl
  · refine ⟨u, x, hx, by simp [he], by simp [hl], ?_⟩
    simp only [step, hx, he, if_true, stepCall, hl, awaitClient]
    split <;> rfl
  · have hCu := hC u x hx
    have hep := ep_of hx
    cases hn : notIx x.ep with
    | none =>
      exfalso
      rw [hl] at hCu
      cases h0 : x.ep <;> rw [h0] at hCu hn <;> simp [waitIx, isPull, notIx, awaitClient] at hCu hn
      exact he h0
    | some j =>
      have hlk : ∀ v q j', s.ep v = some q → holdsLock q = some j' → ∃ v x, s.th[v]? = some x ∧ (∀ k tm, x.ep ≠ .asleep k tm) ∧
          x.cl ≠ .idle ∧ (step (awaitClient G κ cond oa) s (.go v c)).isSome = true := by
        intro v q j' hv hq
        have h3 := holder_live (P := awaitClient G κ cond oa) hE hv hq c
        simp only [State.ep, Option.map_eq_some_iff] at hv
        obtain ⟨y, hy, rfl⟩ := hv
        exact fin v y hy (by intro h; rw [h] at hq; simp [holdsLock] at hq) (by intro k tm h; rw [h] at hq; simp [holdsLock] at hq) h3
      cases hh : holdsLock x.ep with
      | some j' => exact hlk u _ j' hep hh
      | none =>
        cases hp : x.ep <;> rw [hp] at hn hh <;> simp [notIx] at hn <;> simp [holdsLock] at hh
        rename_i j0 all0
        cases hl2 : (s.ec j0).lock with
        | some v =>
          obtain ⟨q, h1, h2⟩ := hE.a.lockO j0 v hl2
          exact hlk v q _ h1 h2
        | none =>
          refine fin u x hx he (by simp [hp]) ?_
          simp [step, hx, hp, stepEp, hl2]

/-- When every fiber is idle, has returned or is blocked, no blocked fiber's condition holds. -/
theorem C19_quiescent {s : State G (APc κ)} (h : Reach AInit (step (awaitClient G κ cond true)) NoWrap s)
    (hq : ∀ (u : Nat) (x : Th (APc κ)), s.th[u]? = some x → x.cl = .idle ∨ ∃ k, Blocked s u k) {t : Nat} {k : κ} (hb : Blocked s t k) :
    cond k s.g = false := by
  refine quiet_aux (fun _ h => h.1) h (await_w_all h) ?_ hb
  rintro u all - ⟨x, hx, hl⟩
  rcases hq u x hx with h1 | ⟨k', y, i, tm, tm', hy, _, h1⟩
  · rw [hl] at h1; simp at h1
  · rw [hx] at hy; simp only [Option.some.injEq] at hy; subst hy
    rw [hl] at h1; simp at h1

/-- A fiber leaves `await` (or `await_until` without reporting a timeout) only after seeing its condition true. -/
theorem C19_await_result {s s' : State G (APc κ)} (h : Reach AInit (step (awaitClient G κ cond oa)) NoWrap s)
    {a : Act (ACh G κ cond)} (hs : step (awaitClient G κ cond oa) s a = some s') {t : Nat} {x' : Th (APc κ)} {k : κ}
    (hx' : s'.th[t]? = some x') (hf : x'.cl = .fin k true ∨ x'.cl = .dropX k true)
    (hx : ∀ x, s.th[t]? = some x → x.cl ≠ .fin k true ∧ x.cl ≠ .dropX k true) : cond k s.g = true := by
  have hl' := lcl_of hx'
  have hx2 : ∀ l, s.lcl t = some l → l ≠ .fin k true ∧ l ≠ .dropX k true := by
    intro l hl
    simp only [State.lcl, Option.map_eq_some_iff] at hl
    obtain ⟨x, h1, rfl⟩ := hl
    exact hx x h1
  rcases (step_client (einv_reach (fun _ h => h.1) h) (cinv_reach (fun _ h => h.1) h) hs).1 with ⟨h1, h2, h3⟩ |
    ⟨u, l, c, g', l', h1, -, h2, h3, h4, h5, h6⟩ | ⟨u, l, b, h1, h2, h3, h4, h5⟩
  · rw [h2] at hl'; have := hx2 _ hl'; grind
  · rw [h5] at hl'
    by_cases e : t = u
    · subst e
      simp only [upd_same, Option.some.injEq] at hl'
      cases l <;> cases c <;> grind [awaitClient]
    · rw [upd_ne _ _ e] at hl'; have := hx2 _ hl'; grind
  · rw [h4] at hl'
    by_cases e : t = u
    · subst e
      simp only [upd_same, Option.some.injEq] at hl'
      have := hx2 _ h1
      cases l <;> grind [awaitClient]
    · rw [upd_ne _ _ e] at hl'; have := hx2 _ hl'; grind

/-- No CHECK of the wait and notify code fails and no fiber is activated twice. -/
theorem C19_no_crash {s : State G (APc κ)} (h : Reach AInit (step (awaitClient G κ cond oa)) NoWrap s) : s.bad = false :=
  (einv_reach (fun _ h => h.1) h).bad

end

/-! ## Concrete executions -/

/-- Two fibers, one condition: "the shared flag is set". -/
abbrev flag : Unit → Bool → Bool := fun _ g => g
abbrev aw : ACh Bool Unit flag := .await () false
abbrev setIt (all : Bool) : ACh Bool Unit flag := .set (fun _ => true) all

def start (n : Nat) : State Bool (APc Unit) := { g := false, ec := fun _ => {}, th := List.replicate n { cl := .idle } }

theorem start_init (n : Nat) : AInit (start n) := by
  refine ⟨trivial, fun _ => rfl, ?_, rfl, rfl⟩
  intro x hx
  simp only [start, List.mem_replicate] at hx
  simp [hx.2]

/-- Fiber `t` runs `await` up to its sleep. -/
def toSleep (t : Nat) : List (Act (ACh Bool Unit flag)) :=
  [.go t aw, .go t aw, .go t aw, .go t aw, .go t aw, .go t aw, .go t aw]

theorem not_notifying {s : State Bool (APc Unit)} (h : s.th.all (fun x => match x.cl with | .owe _ => false | _ => true) = true) :
    ∀ u, ¬ Notifying s u := by
  rintro u ⟨x, all, hx, hl⟩
  have := List.all_eq_true.1 h x (List.mem_of_getElem? hx)
  simp [hl] at this

/-- A fiber really blocks, with its condition false. -/
example : ∃ s, Reachable AInit (step (awaitClient Bool Unit flag true)) s ∧ Blocked s 0 () ∧ s.g = false := by
  refine ⟨_, Reachable.exec (.init (start_init 2) trivial) (toSleep 0) rfl, ⟨_, 0, false, false, rfl, rfl, rfl⟩, rfl⟩

/-- The state in which a blocked fiber's condition holds and the notification is pending is reachable; when the
notification is over the fiber is awake and `await` returns. -/
example : ∃ s, Reachable AInit (step (awaitClient Bool Unit flag true)) s ∧ Blocked s 0 () ∧ s.g = true ∧ Notifying s 1 := by
  refine ⟨_, Reachable.exec (.init (start_init 2) trivial) (toSleep 0 ++ [.go 1 (setIt true)]) rfl,
    ⟨_, 0, false, false, rfl, rfl, rfl⟩, rfl, ⟨_, true, rfl, rfl⟩⟩

example : ∃ s x, Reachable AInit (step (awaitClient Bool Unit flag true)) s ∧ s.th[0]? = some x ∧ x.cl = .fin () true := by
  refine ⟨_, _, Reachable.exec (.init (start_init 2) trivial) (toSleep 0 ++ List.replicate 6 (.go 1 (setIt true)) ++
    [.go 0 aw, .go 0 aw, .go 0 aw, .go 0 aw, .go 0 aw, .go 0 aw]) rfl, rfl, rfl⟩

/-- `notify` with two waiters for the same condition: one of them stays blocked although the condition holds and no
notification is pending. So `notifyAll` (or a single waiter) is needed. -/
theorem C19_notify_one_two_waiters : ∃ s, Reachable AInit (step (awaitClient Bool Unit flag false)) s ∧
    Blocked s 1 () ∧ s.g = true ∧ ∀ u, ¬ Notifying s u := by
  refine ⟨_, Reachable.exec (.init (start_init 3) trivial) (toSleep 0 ++ toSleep 1 ++ List.replicate 6 (.go 2 (setIt false))) rfl,
    ⟨_, 0, false, false, rfl, rfl, rfl⟩, rfl, not_notifying rfl⟩

/-- Fiber 0 is between `prepareWait` and `wait`; the packed word is `v` and there were `n` notifications. -/
def wrapSt (b : Bool) (v n : Nat) : State Bool (APc Unit) where
  g := b
  ec := upd (fun _ => {}) 0 { val := v, ntf := n }
  th := [{ cl := .wait () false, key := some ⟨0, 0, 0⟩ }, { cl := .idle }]

/-- The state after the wrap: fiber 0 asleep, fiber 1 idle. -/
def wrapEnd : State Bool (APc Unit) where
  g := true
  ec := upd (fun _ => {}) 0 { val := 1, ntf := 2 ^ 32, queue := [0] }
  th := [{ cl := .wait () false, ep := .asleep 0 false, key := some ⟨0, 0, 0⟩ }, { cl := .idle }]

/-- One round of "update, notifyAll" by fiber 1. -/
theorem wrap_round (b : Bool) (v n : Nat) (hv : ¬ v % 2 ^ 32 = 0) :
    exec (step (awaitClient Bool Unit flag true)) (wrapSt b v n) (List.replicate 4 (.go 1 (setIt true))) =
      some (wrapSt true ((v + 2 ^ 32) % 2 ^ 64) (n + 1)) := by
  have hu : ∀ (f : Nat → EC) a b, upd (upd f 0 a) 0 b = upd f 0 b := by
    intro f a b; funext j; by_cases e : j = 0 <;> simp [upd, e]
  simp only [wrapSt, List.replicate, exec, step, stepCall, stepEp, awaitClient, List.getElem?_cons_succ, List.getElem?_cons_zero,
    if_true, Option.map_some, State.put, State.setEc, List.set_cons_succ, List.set_cons_zero, upd_same, hv, hu, if_false, reduceCtorEq]

theorem wrap_rounds (n : Nat) : ∀ b m, ∃ acts, exec (step (awaitClient Bool Unit flag true))
    (wrapSt b ((m * 2 ^ 32 + 1) % 2 ^ 64) m) acts =
    some (wrapSt (b || decide (0 < n)) (((m + n) * 2 ^ 32 + 1) % 2 ^ 64) (m + n)) := by
  induction n with
  | zero => intro b m; exact ⟨[], by simp [exec]⟩
  | succ n ih =>
    intro b m
    obtain ⟨acts, h⟩ := ih true (m + 1)
    refine ⟨List.replicate 4 (.go 1 (setIt true)) ++ acts, ?_⟩
    have h2 : ((m * 2 ^ 32 + 1) % 2 ^ 64 + 2 ^ 32) % 2 ^ 64 = ((m + 1) * 2 ^ 32 + 1) % 2 ^ 64 := by omega
    have h3 : m + 1 + n = m + (n + 1) := by omega
    rw [exec_append, wrap_round _ _ _ (by omega), h2]
    simp only [Option.bind_some, h, Bool.true_or, h3, Nat.succ_pos, decide_true, Bool.or_true]

/-- The hypothesis `NoWrap` is needed: the epoch is compared modulo 2^32. If exactly 2^32 notifications fall between a
fiber's `prepareWait` and its `wait`, it goes to sleep although its condition holds, and nobody is going to notify. -/
theorem C19_epoch_wrap : ∃ s, Reachable AInit (step (awaitClient Bool Unit flag true)) s ∧
    Blocked s 0 () ∧ s.g = true ∧ ∀ u, ¬ Notifying s u := by
  have h0 : Reachable AInit (step (awaitClient Bool Unit flag true)) (wrapSt false 1 0) := by
    have : exec (step (awaitClient Bool Unit flag true)) (start 2) [.go 0 aw, .go 0 aw, .go 0 aw, .go 0 aw] = some (wrapSt false 1 0) := by
      simp only [start, wrapSt, exec, step, stepCall, awaitClient, List.replicate, List.getElem?_cons_zero, if_true, Option.map_some,
        State.put, State.setEc, List.set_cons_zero]
      rfl
    exact Reachable.exec (.init (start_init 2) trivial) _ this
  obtain ⟨acts, h1⟩ := wrap_rounds (2 ^ 32) false 0
  have e1 : (0 * 2 ^ 32 + 1) % 2 ^ 64 = 1 := by decide
  have e3 : (false || decide (0 < 2 ^ 32)) = true := by decide
  rw [e1, e3, Nat.zero_add] at h1
  have h2 := Reachable.exec h0 acts h1
  have h3 : exec (step (awaitClient Bool Unit flag true)) (wrapSt true 1 (2 ^ 32))
      [.go 0 aw, .go 0 aw, .go 0 aw] = some wrapEnd := by
    have hu : ∀ (f : Nat → EC) a b, upd (upd f 0 a) 0 b = upd f 0 b := by
      intro f a b; funext j; by_cases e : j = 0 <;> simp [upd, e]
    have e4 : (1 / 2 ^ 32 = 0) := by decide
    simp only [wrapSt, wrapEnd, exec, step, stepCall, stepEp, awaitClient, State.put, State.setEc, hu, List.getElem?_cons_zero,
      List.set_cons_zero, upd_same, if_true, e4, reduceCtorEq, if_false, Bool.false_and, Bool.or_false, List.nil_append]
  refine ⟨_, Reachable.exec h2 _ h3, ⟨_, 0, false, false, rfl, rfl, rfl⟩, rfl, ?_⟩
  exact not_notifying rfl

end Verif.EventCount
