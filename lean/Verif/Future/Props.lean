import Verif.Future.Model
/-!
# C26: `Future` and `Done`: every waiter observes the result
-/
namespace Verif.Future
open Verif.Common Verif.EventCount

section future
variable {α : Type} {ref : Bool}

abbrev FSt (α : Type) := State (Blk α) (MPc Unit Unit)

/-- A fresh future (future.h 18). -/
def FFresh (b : Blk α) : Prop := b = {}

/-- Reachable with the counters of the event count not exhausted. -/
abbrev FR (ref : Bool) (s : FSt α) : Prop := Reach (MInit FFresh) (step (monClient (futMon α ref))) NoWrap s
/-- Also at most one fiber waits in a getter at a time. -/
abbrev FR1 (ref : Bool) (s : FSt α) : Prop :=
  Reach (MInit FFresh) (step (monClient (futMon α ref))) (fun s => NoWrap s ∧ MOneWaiter s) s

theorem futOk : MonOk (futMon α ref) := by
  constructor
  · intro k g r g' ht k' h
    simp only [futMon, fTest] at *
    grind
  · intro o g g' ho k' h
    simp only [futMon, fTest, fOp] at *
    cases o <;> simp only at ho <;> grind
  · intro k r g k' h
    simp only [futMon, fTest, fPost] at *
    grind

/-- `l` is the state of a fiber whose test succeeded and that has not read the value yet. -/
def Won (l : MPc Unit Unit) : Prop := l = .fin () (some ()) ∨ l = .dropX () (some ())

structure FInv (ref : Bool) (g : Blk α) (F : Nat → Option (MPc Unit Unit)) : Prop where
  args : ∀ v, v ∈ g.log → ∃ a, v = some a ∧ g.args = [a]
  alen : g.args = [] ∨ ∃ a, g.args = [a]
  has : g.has = true → g.pub = true
  pub : g.pub = true → ∃ a, g.args = [a]
  npub : g.pub = false → g.log = [] ∧ ∀ t l, F t = some l → ¬ Won l
  val : ∀ a, g.args = [a] → (ref = true ∨ g.log = []) → g.value = some a
  one : ref = false → ∀ t u l m, F t = some l → F u = some m → Won l → Won m → t = u
  won : ref = false → ∀ t l, F t = some l → Won l → g.log = [] ∧ g.has = false
  hasl : ref = false → g.has = true → g.log = []
  len : ref = false → g.log.length ≤ 1

theorem finv {s : FSt α} {Q : FSt α → Prop} (hQ : ∀ s, Q s → s.th.length < 2 ^ 32)
    (h : Reach (MInit FFresh) (step (monClient (futMon α ref))) Q s) : FInv ref s.g s.lcl := by
  refine client_reach hQ (R := fun g F _ => FInv ref g F) ?_ ?_ ?_ h
  · intro s hi _
    have hF : ∀ t l, s.lcl t = some l → l = .idle := by
      intro t l hl
      simp only [State.lcl, Option.map_eq_some_iff] at hl
      obtain ⟨x, hx, rfl⟩ := hl
      exact (hi.2.2.1 x (List.mem_of_getElem? hx)).1
    have hg : s.g = {} := hi.1
    rw [hg]
    constructor <;> grind [Won]
  · intro g F K t l c g' l' hR hF hc hs
    have h0 := hR.alen; have h1 := hR.args; have h2 := hR.has; have h3 := hR.pub; have h4 := hR.npub; have h5 := hR.val
    have h6 := hR.one; have h7 := hR.won; have h8 := hR.hasl; have h9 := hR.len
    have hwon : ∀ t l, F t = some l → Won l → ∃ a, g.args = [a] ∧ g.value = some a := by
      intro t l hl hw
      have hp : g.pub = true := by
        cases hp : g.pub
        · exact absurd hw ((h4 hp).2 t l hl)
        · rfl
      obtain ⟨a, ha⟩ := h3 hp
      refine ⟨a, ha, h5 a ha ?_⟩
      cases hr : ref
      · exact .inr (h7 hr t l hl hw).1
      · exact .inl rfl
    have hlog : g.args = [] → g.log = [] ∧ g.pub = false := by
      intro h
      constructor
      · cases hl : g.log
        · rfl
        · obtain ⟨a, -, h'⟩ := h1 _ (by rw [hl]; exact List.mem_cons_self)
          rw [h] at h'; simp at h'
      · cases hp : g.pub
        · rfl
        · obtain ⟨a, h'⟩ := h3 hp
          rw [h] at h'; simp at h'
    rcases c with _ | (v | _)
    all_goals cases l <;> simp only [monClient, mCall, mLoc, futMon, reduceCtorEq, mFin, fTest, fPost, fOp] at hc hs
    all_goals repeat' split at hs
    all_goals simp only [reduceCtorEq, Option.some.injEq, Prod.mk.injEq] at hs
    all_goals obtain ⟨rfl, rfl⟩ := hs
    all_goals try simp only [List.isEmpty_iff] at *
    all_goals constructor <;> (try simp only [upd_apply]) <;> first | assumption | grind [Won]
  · intro g F K K' t l b hR hF hc hs
    have hw : Won ((monClient (futMon α ref)).ret l b) → Won l := by
      cases l <;> simp only [monClient, mRet, Won] at * <;> grind
    have h0 := hR.alen; have h1 := hR.args; have h2 := hR.has; have h3 := hR.pub; have h4 := hR.npub; have h5 := hR.val
    have h6 := hR.one; have h7 := hR.won; have h8 := hR.hasl; have h9 := hR.len
    constructor <;> (try simp only [upd_apply]) <;> first | assumption | grind

/-- C26. Every value handed out by `Get`, `GetFor` or `GetRef` is the argument of `Resolve`. -/
theorem C26_future_value {s : FSt α} (h : FR ref s) {v : Option α} (hv : v ∈ s.g.log) : ∃ a, v = some a ∧ s.g.args = [a] :=
  (finv (fun _ h => h.1) h).args v hv

/-- C26. `Get` and `GetFor` hand the value out at most once. -/
theorem C26_future_once {s : FSt α} (h : FR false s) : s.g.log.length ≤ 1 := (finv (fun _ h => h.1) h).len rfl

/-- C26. A getter gets its outcome (other than a timeout) only after `Resolve` set the flag. -/
theorem C26_future_not_before {s s' : FSt α} (h : FR ref s) {a : Act (MCh Unit (FOp α))}
    (hs : step (monClient (futMon α ref)) s a = some s') {t : Nat} {x' : Th (MPc Unit Unit)} (hx' : s'.th[t]? = some x')
    (hf : Won x'.cl) (hx : ∀ x, s.th[t]? = some x → ¬ Won x.cl) : s.g.pub = true := by
  have ht := mon_result (fun _ h => h.1) h hs hx' hf (by intro x h; have := hx x h; unfold Won at this; grind)
  refine (finv (fun _ h => h.1) h).has ?_
  simp only [futMon, fTest] at ht
  grind

/-- C26. Only `GetFor` gives up. -/
theorem C26_future_timeout_only_timed {s s' : FSt α} (h : FR ref s) {a : Act (MCh Unit (FOp α))}
    (hs : step (monClient (futMon α ref)) s a = some s') {t : Nat} {x' : Th (MPc Unit Unit)} (hx' : s'.th[t]? = some x')
    (hf : x'.cl = .fin () none ∨ x'.cl = .dropX () none)
    (hx : ∀ x, s.th[t]? = some x → x.cl ≠ .fin () none ∧ x.cl ≠ .dropX () none) :
    ∃ x, s.th[t]? = some x ∧ x.cl = .wait () true :=
  mon_timeout (fun _ h => h.1) h hs hx' hf hx

/-- C26. One waiting consumer: if it is blocked although the value is there, then `Resolve` has not finished its `notify`. -/
theorem C26_future_single_waiter {s : FSt α} (h : FR1 ref s) {t : Nat} (hb : MBlocked s t ()) (hv : s.g.has = true) :
    ∃ u, u ≠ t ∧ MNotifying s u :=
  mon_lost futOk (fun _ h => h.1.1) h (mon_w_one futOk h) hb (by simp [futMon, fTest, hv])

/-- With `GetRef` consumers the flag stays set. -/
theorem ref_has {s : FSt α} {Q : FSt α → Prop} (hQ : ∀ s, Q s → s.th.length < 2 ^ 32)
    (h : Reach (MInit FFresh) (step (monClient (futMon α true))) Q s) : s.g.has = s.g.pub := by
  refine mon_inv hQ (fun g => g.has = g.pub) ?_ ?_ ?_ ?_ h
  · rintro g rfl; rfl
  · intro k g r g' hg ht; simp only [futMon, fTest] at ht; grind
  · intro o g g' b hg ho; simp only [futMon, fOp] at ho; cases o <;> simp only at ho <;> grind
  · intro k r g hg; exact hg

/-- C26. One waiting `GetRef` consumer at a time: when `Resolve` is done and everybody is idle or blocked, nobody is blocked. -/
theorem C26_getref_returns {s : FSt α} (h : FR1 true s) (hp : s.g.pub = true) (hq : MQuiet s) (t : Nat) : ¬ MBlocked s t () := by
  intro hb
  obtain ⟨u, -, hu⟩ := C26_future_single_waiter h hb (by rw [ref_has (fun _ h => h.1.1) h, hp])
  exact mon_quiet hq u hu

end future

theorem ffresh {α : Type} : FFresh (α := α) {} := rfl

abbrev getT (t k : Nat) : List (Act (MCh Unit (FOp Nat))) := List.replicate k (.go t (.await () false))
abbrev getForT (t k : Nat) : List (Act (MCh Unit (FOp Nat))) := List.replicate k (.go t (.await () true))
abbrev resolveT (t v k : Nat) : List (Act (MCh Unit (FOp Nat))) := .go t (.op (.write v)) :: List.replicate k (.go t (.op .publish))

/-- `Get` blocks, `Resolve(7)`, `Get` returns 7. -/
example : ∃ s : FSt Nat, FR false s ∧ s.g.log = [some 7] :=
  mon_ex (g := {}) ffresh 2 (getT 0 7 ++ resolveT 1 7 6 ++ getT 0 7) (fun s => s.g.log == [some 7])
    (fun s h => by simpa using h) (by decide +kernel)

/-- The hypotheses of `C26_future_single_waiter` are met: blocked, value there, notification pending. -/
example : ∃ s : FSt Nat, FR1 true s ∧ MBlocked s 0 () ∧ s.g.has = true ∧ MNotifying s 1 :=
  mon_ex1 (g := {}) ffresh 2 (getT 0 7 ++ resolveT 1 7 1) (fun s => mBlockedB s 0 () && (s.g.has && mNotifyingB s 1))
    (fun s h => by simp only [Bool.and_eq_true] at h; exact ⟨mBlocked_of h.1, h.2.1, mNotifying_of h.2.2⟩) (by decide +kernel)
    (by decide +kernel)

/-- `GetRef` blocks, `Resolve(7)`, everything finished: the getter has returned 7. -/
example : ∃ s : FSt Nat, FR1 true s ∧ s.g.pub = true ∧ MQuiet s ∧ s.g.log = [some 7] :=
  mon_ex1 (g := {}) ffresh 2 (getT 0 7 ++ resolveT 1 7 6 ++ getT 0 7) (fun s => s.g.pub && (mQuietB s && s.g.log == [some 7]))
    (fun s h => by simp only [Bool.and_eq_true] at h; exact ⟨h.1, mQuiet_of h.2.1, by simpa using h.2.2⟩) (by decide +kernel)
    (by decide +kernel)

/-- `GetRef` is documented as safe for several waiting consumers (future.h 28), but `Resolve` wakes only one: with two of them
blocked, one stays blocked for ever although the future is resolved and nobody is notifying. -/
theorem C26_getref_two_waiters_hang : ∃ s : FSt Nat, FR true s ∧ MBlocked s 1 () ∧ s.g.has = true ∧ MQuiet s :=
  mon_ex (g := {}) ffresh 3 (getT 0 7 ++ getT 1 7 ++ resolveT 2 7 6 ++ getT 0 7)
    (fun s => mBlockedB s 1 () && (s.g.has && mQuietB s))
    (fun s h => by simp only [Bool.and_eq_true] at h; exact ⟨mBlocked_of h.1, h.2.1, mQuiet_of h.2.2⟩) (by decide +kernel)

/-- A `Get` next to a `GetFor`: the `notify` of `Resolve` can be used up by the `GetFor` whose timer has fired, which then reports a
timeout; the `Get` stays blocked although the value is there and nothing more will happen. -/
theorem C26_getfor_steals_wakeup : ∃ s : FSt Nat, FR false s ∧ MBlocked s 1 () ∧ s.g.has = true ∧ MQuiet s ∧ s.g.log = [] :=
  mon_ex (g := {}) ffresh 3 (getForT 0 7 ++ getT 1 7 ++ [.timer 0] ++ resolveT 2 7 6 ++ getForT 0 5)
    (fun s => mBlockedB s 1 () && (s.g.has && (mQuietB s && s.g.log == [])))
    (fun s h => by
      simp only [Bool.and_eq_true] at h
      exact ⟨mBlocked_of h.1, h.2.1, mQuiet_of h.2.2.1, by simpa using h.2.2.2⟩) (by decide +kernel)

section done

abbrev DSt := State Dn (MPc Bool Unit)
def DFresh (d : Dn) : Prop := d = {}
theorem dfresh : DFresh {} := rfl
abbrev DR (s : DSt) : Prop := Reach (MInit DFresh) (step (monClient doneMon)) NoWrap s
abbrev DR1 (s : DSt) : Prop := Reach (MInit DFresh) (step (monClient doneMon)) (fun s => NoWrap s ∧ MOneWaiter s) s

theorem doneOk : MonOk doneMon := by
  constructor
  · intro k g r g' ht k' h; simp only [doneMon, dTest] at *; grind
  · intro o g g' ho k' h
    simp only [doneMon, dTest, dOp] at *
    cases o <;> simp only at ho <;> grind
  · intro k r g k' h; simp only [doneMon, dTest, dPost] at *; grind

/-- The flag is set iff the last store was by a `Notify`. -/
theorem ready_iff {s : DSt} {Q : DSt → Prop} (hQ : ∀ s, Q s → s.th.length < 2 ^ 32)
    (h : Reach (MInit DFresh) (step (monClient doneMon)) Q s) : s.g.ready = true ↔ s.g.hist.getLast? = some .notify := by
  refine mon_inv hQ (fun g => g.ready = true ↔ g.hist.getLast? = some .notify) ?_ ?_ ?_ ?_ h
  · rintro g rfl; simp
  · intro k g r g' hg ht; simp only [doneMon, dTest] at ht; grind
  · intro o g g' b hg ho; simp only [doneMon, dOp] at ho; cases o <;> simp only at ho <;> grind
  · intro k r g hg; simp only [doneMon, dPost]; grind

/-- C26. `Wait` / `WaitFor` gets its positive outcome only while the last of all `Notify` and `Reset` (including the reset done by
`Wait(AND_RESET)`) is a `Notify`. So after a `Reset` another `Notify` is needed. -/
theorem C26_done_only_after_notify {s s' : DSt} (h : DR s) {a : Act (MCh Bool Ev)} (hs : step (monClient doneMon) s a = some s')
    {t : Nat} {x' : Th (MPc Bool Unit)} {k : Bool} (hx' : s'.th[t]? = some x')
    (hf : x'.cl = .fin k (some ()) ∨ x'.cl = .dropX k (some ()))
    (hx : ∀ x, s.th[t]? = some x → x.cl ≠ .fin k (some ()) ∧ x.cl ≠ .dropX k (some ())) :
    s.g.hist.getLast? = some .notify := by
  have ht := mon_result (fun _ h => h.1) h hs hx' hf hx
  refine (ready_iff (fun _ h => h.1) h).1 ?_
  simp only [doneMon, dTest] at ht
  grind

/-- C26. One waiter at a time: if it is blocked after a `Notify` that was not followed by a reset, that `Notify` is not finished. -/
theorem C26_done_single_waiter {s : DSt} (h : DR1 s) {t : Nat} {k : Bool} (hb : MBlocked s t k)
    (hn : s.g.hist.getLast? = some .notify) : ∃ u, u ≠ t ∧ MNotifying s u := by
  have := (ready_iff (fun _ h => h.1.1) h).2 hn
  exact mon_lost doneOk (fun _ h => h.1.1) h (mon_w_one doneOk h) hb (by simp [doneMon, dTest, this])

/-- C26. One waiter at a time: when everybody is idle or blocked and the last store was by `Notify`, nobody is blocked. -/
theorem C26_done_returns {s : DSt} (h : DR1 s) (hq : MQuiet s) (hn : s.g.hist.getLast? = some .notify) (t : Nat) (k : Bool) :
    ¬ MBlocked s t k := by
  intro hb
  obtain ⟨u, -, hu⟩ := C26_done_single_waiter h hb hn
  exact mon_quiet hq u hu

/-- C26. When `Wait(AND_RESET)` returns it has reset the flag (so the next wait needs another `Notify`); `Wait()` leaves it alone. -/
theorem C26_done_and_reset {s s' : DSt} {t : Nat} {c : MCh Bool Ev} {x : Th (MPc Bool Unit)} {k : Bool} (hx : s.th[t]? = some x)
    (he : x.ep = .cl) (hf : x.cl = .fin k (some ())) (hs : step (monClient doneMon) s (.go t c) = some s') :
    (∃ x', s'.th[t]? = some x' ∧ x'.cl = .idle) ∧
    if k then s'.g.ready = false ∧ s'.g.hist = s.g.hist ++ [.reset] else s'.g = s.g := by
  have hlt : t < s.th.length := by
    rcases Nat.lt_or_ge t s.th.length with h | h
    · exact h
    · rw [List.getElem?_eq_none h] at hx; simp at hx
  simp only [step, hx, he, if_true, stepCall, monClient, hf, mCall, mLoc, Option.map_some, Option.some.injEq] at hs
  subst hs
  refine ⟨⟨{ x with cl := .idle }, by simp [State.put, hlt, he], rfl⟩, ?_⟩
  cases k
  · simp [mFin, doneMon, dPost]
  · simp [mFin, doneMon, dPost]

abbrev dWaitT (t k : Nat) : List (Act (MCh Bool Ev)) := List.replicate k (.go t (.await false false))
abbrev dNotifyT (t k : Nat) : List (Act (MCh Bool Ev)) := List.replicate k (.go t (.op .notify))

/-- Two fibers in `Wait`: a `Notify` wakes only one of them. -/
theorem C26_done_two_waiters_hang : ∃ s, DR s ∧ MBlocked s 1 false ∧ s.g.hist = [.notify] ∧ MQuiet s :=
  mon_ex (g := {}) dfresh 3 (dWaitT 0 7 ++ dWaitT 1 7 ++ dNotifyT 2 6 ++ dWaitT 0 7)
    (fun s => mBlockedB s 1 false && (s.g.hist == [.notify] && mQuietB s))
    (fun s h => by simp only [Bool.and_eq_true] at h; exact ⟨mBlocked_of h.1, by simpa using h.2.1, mQuiet_of h.2.2⟩)
    (by decide +kernel)

/-- `Wait` blocks, is notified and returns. -/
example : ∃ s, DR s ∧ s.th[0]?.map Th.cl = some (.fin false (some ())) :=
  mon_ex (g := {}) dfresh 2 (dWaitT 0 7 ++ dNotifyT 1 6 ++ dWaitT 0 6)
    (fun s => decide (s.th[0]?.map Th.cl = some (.fin false (some ())))) (fun s h => by simpa using h) (by decide +kernel)

example : ∃ s, DR1 s ∧ MBlocked s 0 false ∧ s.g.hist.getLast? = some .notify ∧ MNotifying s 1 :=
  mon_ex1 (g := {}) dfresh 2 (dWaitT 0 7 ++ dNotifyT 1 1)
    (fun s => mBlockedB s 0 false && (decide (s.g.hist.getLast? = some .notify) && mNotifyingB s 1))
    (fun s h => by simp only [Bool.and_eq_true] at h; exact ⟨mBlocked_of h.1, by simpa using h.2.1, mNotifying_of h.2.2⟩)
    (by decide +kernel) (by decide +kernel)

end done
end Verif.Future
