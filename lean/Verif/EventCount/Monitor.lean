import Verif.EventCount.Props
import Verif.EventCount.Short
/-!
# Objects built from one event count and one atomic word

`EmbeddedBlockingCounter`, `Done` and `Future` all have the same shape: some operations change the shared state in one
atomic step and then call `notify` or `notifyAll` (or not), and waiting operations run `await(test)` or
`await_until(test)`, where a successful test may change the state (`exchange`) and yields a result.
-/
namespace Verif.EventCount
open Verif.Common

/-- `test k g`: the waiting condition number `k`; when it succeeds it gives the result and the new state. `op o g`: a
non-blocking operation; `none` = the caller may not issue it in this state, otherwise the new state and whether a
notification follows. `post k r`: what the waiting operation does to the state after `await` returned. `all`: the
notifications are `notifyAll` (otherwise `notify`). -/
structure Mon (G κ ρ Op : Type) where
  test : κ → G → Option (ρ × G)
  op : Op → G → Option (G × Bool)
  all : Bool
  post : κ → ρ → G → G := fun _ _ g => g

/-- Control states; compare `EventCount::await` (synchronization.h 411-431) and `await_until` (469-486). -/
inductive MPc (κ ρ : Type)
  | idle
  | chk0 (k : κ) (tm : Bool)
  | prep (k : κ) (tm : Bool)
  | chk1 (k : κ) (tm : Bool)
  | wait (k : κ) (tm : Bool)
  | dropL (k : κ) (tm : Bool)
  | dropX (k : κ) (r : Option ρ)    -- leaving the loop; `none` = timeout
  | fin (k : κ) (r : Option ρ)      -- `await` returned
  | owe
  deriving DecidableEq

inductive MCh (κ Op : Type)
  | await (k : κ) (tm : Bool)
  | op (o : Op)

variable {G κ ρ Op : Type}

def mCall (all : Bool) : MPc κ ρ → Call
  | .prep _ _ => .prep 0
  | .wait _ tm => .wait 0 tm
  | .dropL _ _ => .drop
  | .dropX _ _ => .drop
  | .owe => .notify 0 all
  | _ => .loc

def mFin (M : Mon G κ ρ Op) (k : κ) (r : Option ρ) (g : G) : G := match r with
  | none => g
  | some r => M.post k r g

def mLoc (M : Mon G κ ρ Op) (g : G) (l : MPc κ ρ) (c : MCh κ Op) : Option (G × MPc κ ρ) :=
  match l with
  | .idle => match c with
    | .await k tm => some (g, .chk0 k tm)
    | .op o => match M.op o g with
      | none => none
      | some (g', ntf) => some (g', if ntf then .owe else .idle)
  | .chk0 k tm => match M.test k g with
    | some (r, g') => some (g', .fin k (some r))
    | none => some (g, .prep k tm)
  | .chk1 k tm => match M.test k g with
    | some (r, g') => some (g', .dropX k (some r))
    | none => some (g, .wait k tm)
  | .fin k r => some (mFin M k r g, .idle)
  | _ => none

def mRet (l : MPc κ ρ) (b : Bool) : MPc κ ρ :=
  match l with
  | .prep k tm => .chk1 k tm
  | .wait k tm => if tm && !b then .dropX k none else .dropL k tm
  | .dropL k tm => .prep k tm
  | .dropX k r => .fin k r
  | .owe => .idle
  | l => l

def monClient (M : Mon G κ ρ Op) : Client G (MPc κ ρ) (MCh κ Op) where
  call := mCall M.all
  loc g l _ c := mLoc M g l c
  ret := mRet

/-- Conditions become true only by an operation that is followed by a notification. -/
structure MonOk (M : Mon G κ ρ Op) : Prop where
  test : ∀ k g r g', M.test k g = some (r, g') → ∀ k', (M.test k' g').isSome → (M.test k' g).isSome
  op : ∀ o g g', M.op o g = some (g', false) → ∀ k', (M.test k' g').isSome → (M.test k' g).isSome
  post : ∀ k r g, ∀ k', (M.test k' (M.post k r g)).isSome → (M.test k' g).isSome

def mCond (M : Mon G κ ρ Op) : MPc κ ρ → G → Prop
  | .wait k _, g => (M.test k g).isSome
  | _, _ => False

def mObl : MPc κ ρ → Prop
  | .owe => True
  | _ => False

def mKey : MPc κ ρ → Option Nat
  | .chk1 _ _ => some 0
  | .wait _ _ => some 0
  | .dropL _ _ => some 0
  | .dropX _ _ => some 0
  | _ => none

theorem mon_sound {M : Mon G κ ρ Op} (hM : MonOk M) : Sound (monClient M) 0 (mCond M) mObl := by
  constructor
  · intro g l t c g' l' hc hs hw
    cases l <;> cases c <;> simp only [monClient, mCall, mLoc] at * <;> grind [mCall, mLoc, mCond]
  · intro l b hc g
    cases l <;> simp only [monClient, mCall, mRet] at * <;> grind [mCall, mRet, mCond]
  · intro g l t c g' l' hc hs w hcd ho
    cases w <;> simp only [mCond] at hcd ho
    have h1 := hM.test
    have h2 := hM.op
    have h3 : ∀ k r g k', (M.test k' (mFin M k r g)).isSome = true → (M.test k' g).isSome = true := by
      intro k r g k'
      cases r
      · exact id
      · exact hM.post _ _ _ k'
    cases l <;> cases c <;> simp only [monClient, mCall, mLoc] at * <;> grind [mCall, mLoc, mObl]
  · intro l g tm ho
    cases l <;> simp [mObl] at ho <;> simp [monClient, mCall]
  · intro l b ho hc hn
    cases l <;> simp [mObl] at ho
    simp [monClient, mCall] at hn

theorem mon_keydisc (M : Mon G κ ρ Op) : KeyDisc (monClient M) mKey := by
  constructor
  · intro g l t c g' l' hc hs
    cases l <;> cases c <;> simp only [monClient, mCall, mLoc] at * <;> grind [mCall, mLoc, mKey]
  · intro l j hc; cases l <;> simp only [monClient, mCall, mRet] at * <;> grind [mCall, mRet, mKey]
  · intro l hc; cases l <;> simp only [monClient, mCall, mRet] at * <;> grind [mCall, mRet, mKey]
  · intro l b hc; cases l <;> simp [monClient, mCall] at hc <;> simp [monClient, mRet, mKey] <;> grind

/-- Any shared state satisfying `I`, any number of fibers, nothing started. -/
def MInit (I : G → Prop) : State G (MPc κ ρ) → Prop := Init I (fun l => l = .idle)

/-- Fiber `t` is blocked in the waiting operation `k`. -/
def MBlocked (s : State G (MPc κ ρ)) (t : Nat) (k : κ) : Prop :=
  ∃ x i tm tm', s.th[t]? = some x ∧ x.ep = .asleep i tm ∧ x.cl = .wait k tm'

/-- Fiber `u` has changed the state and its notification is still to come or is not finished. -/
def MNotifying (s : State G (MPc κ ρ)) (u : Nat) : Prop := ∃ x, s.th[u]? = some x ∧ x.cl = .owe

/-- Fiber `t` is inside a waiting operation, past its fast path. -/
def MAwaiting (s : State G (MPc κ ρ)) (t : Nat) : Prop :=
  ∃ x k, s.th[t]? = some x ∧ ((∃ tm, x.cl = .prep k tm ∨ x.cl = .chk1 k tm ∨ x.cl = .wait k tm ∨ x.cl = .dropL k tm) ∨ ∃ r, x.cl = .dropX k r)

def MOneWaiter (s : State G (MPc κ ρ)) : Prop := ∀ t t', MAwaiting s t → MAwaiting s t' → t = t'

section
variable {M : Mon G κ ρ Op} {I : G → Prop} {Q : State G (MPc κ ρ) → Prop} {s : State G (MPc κ ρ)}

theorem mon_key (hQ : ∀ s, Q s → s.th.length < 2 ^ 32) (h : Reach (MInit I) (step (monClient M)) Q s) {t : Nat} {k : Key}
    (hk : s.key t = some k) : MAwaiting s t := by
  obtain ⟨x, hx, hk'⟩ : ∃ x, s.th[t]? = some x ∧ x.key = some k := by
    simp only [State.key, Option.bind_eq_some_iff] at hk; exact hk
  have := keydisc_reach hQ (mon_keydisc M) (by intro l h; subst h; rfl) h (lcl_of hx)
  rw [hk] at this
  cases hcl : x.cl <;> rw [hcl] at this <;> simp [mKey] at this <;>
    (rename_i kk tm; exact ⟨x, kk, hx, by simp [hcl]⟩)

theorem mon_w_all (hM : MonOk M) (hA : M.all = true) (h : Reach (MInit I) (step (monClient M)) NoWrap s) :
    s.W (monClient M) 0 (mCond M) mObl :=
  w_reach (mon_sound hM) (fun _ h => h) h
    (fun _ h => oneOk_all (fun _ h => h.1) (by intro l; cases l <;> simp [monClient, mCall, hA]) h)

theorem mon_w_one (hM : MonOk M) (h : Reach (MInit I) (step (monClient M)) (fun s => NoWrap s ∧ MOneWaiter s) s) :
    s.W (monClient M) 0 (mCond M) mObl :=
  w_reach (mon_sound hM) (fun _ h => h.1) h
    (fun s h => .inr (fun t t' k k' h1 _ h2 _ => h.q.2 t t' (mon_key (fun _ h => h.1.1) h h1) (mon_key (fun _ h => h.1.1) h h2)))

theorem mon_ix (hQ : ∀ s, Q s → s.th.length < 2 ^ 32) (h : Reach (MInit I) (step (monClient M)) Q s) {t : Nat}
    {x : Th (MPc κ ρ)} (hx : s.th[t]? = some x) :
    (∀ j, waitIx x.ep = some j → j = 0) ∧ (∀ j, notIx x.ep = some j → j = 0 ∧ x.cl = .owe) := by
  have hC := cinv_reach hQ h t x hx
  constructor
  · intro j hj
    obtain ⟨tm, h1⟩ := hC.1 j hj
    cases hcl : x.cl <;> rw [hcl] at h1 <;> simp [monClient, mCall] at h1
    exact h1.1.symm
  · intro j hj
    obtain ⟨all, h1⟩ := hC.2.2 j hj
    cases hcl : x.cl <;> rw [hcl] at h1 <;> simp [monClient, mCall] at h1
    exact ⟨h1.1.symm, rfl⟩

theorem mon_lost (hM : MonOk M) (hQ : ∀ s, Q s → s.th.length < 2 ^ 32) (h : Reach (MInit I) (step (monClient M)) Q s)
    (hW : s.W (monClient M) 0 (mCond M) mObl) {t : Nat} {k : κ} (hb : MBlocked s t k) (hc : (M.test k s.g).isSome) :
    ∃ u, u ≠ t ∧ MNotifying s u := by
  obtain ⟨x, i, tm, tm', hx, he, hl⟩ := hb
  have := (mon_ix hQ h hx).1 i (by rw [he]; rfl)
  subst this
  obtain ⟨u, hut, hu⟩ := no_lost (mon_sound hM) (einv_reach hQ h) hW (t := t) (l := .wait k tm') (tm := tm)
    (by rw [ep_of hx, he]) (by rw [lcl_of hx, hl]) hc
  refine ⟨u, hut, ?_⟩
  rcases hu with ⟨m, hm, ho, -⟩ | ⟨p, hp, hpi⟩
  · simp only [State.lcl, Option.map_eq_some_iff] at hm
    obtain ⟨y, hy, rfl⟩ := hm
    cases hcl : y.cl <;> rw [hcl] at ho <;> simp [mObl] at ho
    exact ⟨y, hy, hcl⟩
  · simp only [State.ep, Option.map_eq_some_iff] at hp
    obtain ⟨y, hy, rfl⟩ := hp
    exact ⟨y, hy, ((mon_ix hQ h hy).2 0 hpi).2⟩

/-- The step by which a waiting operation gets its result evaluated the test successfully in the current state. -/
theorem mon_result {s' : State G (MPc κ ρ)} (hQ : ∀ s, Q s → s.th.length < 2 ^ 32) (h : Reach (MInit I) (step (monClient M)) Q s)
    {a : Act (MCh κ Op)} (hs : step (monClient M) s a = some s') {t : Nat} {x' : Th (MPc κ ρ)} {k : κ} {r : ρ}
    (hx' : s'.th[t]? = some x') (hf : x'.cl = .fin k (some r) ∨ x'.cl = .dropX k (some r))
    (hx : ∀ x, s.th[t]? = some x → x.cl ≠ .fin k (some r) ∧ x.cl ≠ .dropX k (some r)) : M.test k s.g = some (r, s'.g) := by
  have hl' := lcl_of hx'
  have hx2 : ∀ l, s.lcl t = some l → l ≠ .fin k (some r) ∧ l ≠ .dropX k (some r) := by
    intro l hl
    simp only [State.lcl, Option.map_eq_some_iff] at hl
    obtain ⟨x, h1, rfl⟩ := hl
    exact hx x h1
  rcases (step_client (einv_reach hQ h) (cinv_reach hQ h) hs).1 with ⟨h1, h2, h3⟩ |
    ⟨u, l, c, g', l', h1, -, h2, h3, h4, h5, h6⟩ | ⟨u, l, b, h1, h2, h3, h4, h5⟩
  · rw [h2] at hl'; have := hx2 _ hl'; grind
  · rw [h5] at hl'
    by_cases e : t = u
    · subst e
      simp only [upd_same, Option.some.injEq] at hl'
      cases l <;> cases c <;> simp only [monClient, mCall, mLoc] at * <;> grind [mCall, mLoc]
    · rw [upd_ne _ _ e] at hl'; have := hx2 _ hl'; grind
  · rw [h4] at hl'
    by_cases e : t = u
    · subst e
      simp only [upd_same, Option.some.injEq] at hl'
      have := hx2 _ h1
      cases l <;> simp only [monClient, mCall, mRet] at * <;> grind [mCall, mRet]
    · rw [upd_ne _ _ e] at hl'; have := hx2 _ hl'; grind

/-- Only a waiting operation with a deadline ends without a result. -/
theorem mon_timeout (hQ : ∀ s, Q s → s.th.length < 2 ^ 32) {s' : State G (MPc κ ρ)} (h : Reach (MInit I) (step (monClient M)) Q s)
    {a : Act (MCh κ Op)} (hs : step (monClient M) s a = some s') {t : Nat} {x' : Th (MPc κ ρ)} {k : κ}
    (hx' : s'.th[t]? = some x') (hf : x'.cl = .fin k none ∨ x'.cl = .dropX k none)
    (hx : ∀ x, s.th[t]? = some x → x.cl ≠ .fin k none ∧ x.cl ≠ .dropX k none) :
    ∃ x, s.th[t]? = some x ∧ x.cl = .wait k true := by
  have hl' := lcl_of hx'
  have hx2 : ∀ l, s.lcl t = some l → l ≠ .fin k none ∧ l ≠ .dropX k none := by
    intro l hl
    simp only [State.lcl, Option.map_eq_some_iff] at hl
    obtain ⟨x, h1, rfl⟩ := hl
    exact hx x h1
  suffices H : s.lcl t = some (.wait k true) by
    simp only [State.lcl, Option.map_eq_some_iff] at H
    exact H
  rcases (step_client (einv_reach hQ h) (cinv_reach hQ h) hs).1 with ⟨h1, h2, h3⟩ |
    ⟨u, l, c, g', l', h1, -, h2, h3, h4, h5, h6⟩ | ⟨u, l, b, h1, h2, h3, h4, h5⟩
  · rw [h2] at hl'; have := hx2 _ hl'; grind
  · rw [h5] at hl'
    by_cases e : t = u
    · subst e
      simp only [upd_same, Option.some.injEq] at hl'
      cases l <;> cases c <;> simp only [monClient, mCall, mLoc] at * <;> grind [mCall, mLoc]
    · rw [upd_ne _ _ e] at hl'; have := hx2 _ hl'; grind
  · rw [h4] at hl'
    by_cases e : t = u
    · subst e
      simp only [upd_same, Option.some.injEq] at hl'
      have := hx2 _ h1
      cases l <;> simp only [monClient, mCall, mRet] at * <;> grind [mCall, mRet]
    · rw [upd_ne _ _ e] at hl'; have := hx2 _ hl'; grind

/-- Invariants of the shared state. -/
theorem mon_inv (hQ : ∀ s, Q s → s.th.length < 2 ^ 32) (R : G → Prop) (hi : ∀ g, I g → R g)
    (ht : ∀ k g r g', R g → M.test k g = some (r, g') → R g') (ho : ∀ o g g' b, R g → M.op o g = some (g', b) → R g')
    (hp : ∀ k r g, R g → R (M.post k r g)) (h : Reach (MInit I) (step (monClient M)) Q s) : R s.g := by
  refine client_reach hQ (R := fun g _ _ => R g) ?_ ?_ ?_ h
  · intro s h _; exact hi _ h.1
  · intro g F K t l c g' l' hR hF hc hs
    have h3 : ∀ k r, R (mFin M k r g) := by
      intro k r
      cases r
      · exact hR
      · exact hp _ _ _ hR
    cases l <;> cases c <;> simp only [monClient, mCall, mLoc] at hs <;> grind
  · intro g F K K' t l b hR _ _ _; exact hR

/-- Quiescence: every fiber is idle or blocked. -/
def MQuiet (s : State G (MPc κ ρ)) : Prop :=
  ∀ (u : Nat) (x : Th (MPc κ ρ)), s.th[u]? = some x → x.cl = .idle ∨ ∃ k, MBlocked s u k

theorem mon_quiet (hq : MQuiet s) (u : Nat) : ¬ MNotifying s u := by
  rintro ⟨x, hx, hl⟩
  rcases hq u x hx with h1 | ⟨k', y, i, tm, tm', hy, _, h1⟩
  · rw [hl] at h1; simp at h1
  · rw [hx] at hy; simp only [Option.some.injEq] at hy; subst hy
    rw [hl] at h1; simp at h1

end

theorem not_mnotifying {s : State G (MPc κ ρ)} (h : s.th.all (fun x => match x.cl with | .owe => false | _ => true) = true) :
    ∀ u, ¬ MNotifying s u := by
  rintro u ⟨x, hx, hl⟩
  have := List.all_eq_true.1 h x (List.mem_of_getElem? hx)
  simp [hl] at this

/-- `n` idle fibers. -/
def mStart (g : G) (n : Nat) : State G (MPc κ ρ) := { g := g, ec := fun _ => {}, th := List.replicate n { cl := .idle } }

theorem mStart_init {I : G → Prop} {g : G} (hg : I g) (n : Nat) : MInit I (mStart g n : State G (MPc κ ρ)) := by
  refine ⟨hg, fun _ => rfl, ?_, rfl, rfl⟩
  intro x hx
  simp only [mStart, List.mem_replicate] at hx
  simp [hx.2]

theorem mon_exec {M : Mon G κ ρ Op} {I : G → Prop} {g : G} (hg : I g) {n : Nat} (acts : List (Act (MCh κ Op))) {s : State G (MPc κ ρ)}
    (he : exec (step (monClient M)) (mStart g n) acts = some s) (hn : n < 2 ^ 32 := by decide) (hl : acts.length < 2 ^ 32 := by decide) :
    Reach (MInit I) (step (monClient M)) NoWrap s :=
  exec_short (mStart_init hg n) (by simpa [mStart] using hn) acts he hl

/-! Decidable forms, for concrete executions. -/

def mBlockedB [DecidableEq κ] (s : State G (MPc κ ρ)) (t : Nat) (k : κ) : Bool :=
  match s.th[t]? with
  | some x => match x.ep, x.cl with
    | .asleep _ _, .wait k' _ => decide (k' = k)
    | _, _ => false
  | none => false

theorem mBlocked_of [DecidableEq κ] {s : State G (MPc κ ρ)} {t : Nat} {k : κ} (h : mBlockedB s t k = true) : MBlocked s t k := by
  unfold mBlockedB at h
  split at h
  · rename_i x hx
    split at h
    · rename_i i tm k' tm' he hc
      simp only [decide_eq_true_eq] at h
      subst h
      exact ⟨x, i, tm, tm', hx, he, hc⟩
    · simp at h
  · simp at h

def mNotifyingB (s : State G (MPc κ ρ)) (t : Nat) : Bool :=
  match s.th[t]? with
  | some x => match x.cl with
    | .owe => true
    | _ => false
  | none => false

theorem mNotifying_of {s : State G (MPc κ ρ)} {t : Nat} (h : mNotifyingB s t = true) : MNotifying s t := by
  unfold mNotifyingB at h
  split at h
  · rename_i x hx
    split at h
    · rename_i hc; exact ⟨x, hx, hc⟩
    · simp at h
  · simp at h

def mQuietB (s : State G (MPc κ ρ)) : Bool :=
  s.th.all fun x => match x.cl with
    | .idle => true
    | .wait _ _ => match x.ep with
      | .asleep _ _ => true
      | _ => false
    | _ => false

theorem mQuiet_of {s : State G (MPc κ ρ)} (h : mQuietB s = true) : MQuiet s := by
  intro u x hx
  have := List.all_eq_true.1 h x (List.mem_of_getElem? hx)
  split at this
  · rename_i hc; exact .inl hc
  · rename_i k tm hc
    split at this
    · rename_i i tm' he; exact .inr ⟨k, x, i, tm', tm, hx, he, hc⟩
    · simp at this
  · simp at this

/-- A concrete execution ending in a state that passes a check. -/
theorem mon_ex {M : Mon G κ ρ Op} {I : G → Prop} {g : G} {P : State G (MPc κ ρ) → Prop} (hg : I g) (n : Nat) (acts : List (Act (MCh κ Op)))
    (chk : State G (MPc κ ρ) → Bool) (hP : ∀ s, chk s = true → P s)
    (he : (match exec (step (monClient M)) (mStart g n) acts with | some s => chk s | none => false) = true)
    (hn : n < 2 ^ 32 := by decide) (hl : acts.length < 2 ^ 32 := by decide) :
    ∃ s, Reach (MInit I) (step (monClient M)) NoWrap s ∧ P s := by
  split at he
  · rename_i s hs
    exact ⟨s, mon_exec hg acts hs hn hl, hP s he⟩
  · simp at he

def mAwaitingB (x : Th (MPc κ ρ)) : Bool :=
  match x.cl with
  | .prep _ _ => true
  | .chk1 _ _ => true
  | .wait _ _ => true
  | .dropL _ _ => true
  | .dropX _ _ => true
  | _ => false

theorem mAwaitingB_of {s : State G (MPc κ ρ)} {t : Nat} (h : MAwaiting s t) : ∃ x, s.th[t]? = some x ∧ mAwaitingB x = true := by
  obtain ⟨x, k, hx, h⟩ := h
  refine ⟨x, hx, ?_⟩
  rcases h with ⟨tm, h | h | h | h⟩ | ⟨r, h⟩ <;> simp [mAwaitingB, h]

def mOneB (s : State G (MPc κ ρ)) : Bool :=
  (List.range s.th.length).all fun t => (List.range s.th.length).all fun u =>
    match s.th[t]?, s.th[u]? with
    | some x, some y => !(mAwaitingB x && mAwaitingB y) || t == u
    | _, _ => true

theorem mOneB_of {s : State G (MPc κ ρ)} (h : mOneB s = true) : MOneWaiter s := by
  intro t u ht hu
  obtain ⟨x, hx, hxa⟩ := mAwaitingB_of ht
  obtain ⟨y, hy, hya⟩ := mAwaitingB_of hu
  have h1 := List.all_eq_true.1 (List.all_eq_true.1 h t (List.mem_range.2 (lt_of_get hx))) u (List.mem_range.2 (lt_of_get hy))
  simp only [hx, hy, hxa, hya] at h1
  simpa using h1

/-- The same as `mon_ex`, with at most one waiting fiber all the time. -/
theorem mon_ex1 {M : Mon G κ ρ Op} {I : G → Prop} {g : G} {P : State G (MPc κ ρ) → Prop} (hg : I g) (n : Nat) (acts : List (Act (MCh κ Op)))
    (chk : State G (MPc κ ρ) → Bool) (hP : ∀ s, chk s = true → P s)
    (he : (match exec (step (monClient M)) (mStart g n) acts with | some s => chk s | none => false) = true)
    (ho : (List.range (acts.length + 1)).all (fun i => match exec (step (monClient M)) (mStart g n) (acts.take i) with
      | some s => mOneB s | none => false) = true)
    (hn : n < 2 ^ 32 := by decide) (hl : acts.length < 2 ^ 32 := by decide) :
    ∃ s, Reach (MInit I) (step (monClient M)) (fun s => NoWrap s ∧ MOneWaiter s) s ∧ P s := by
  have key : ∀ i, i ≤ acts.length → ∀ s, exec (step (monClient M)) (mStart g n) (acts.take i) = some s →
      Reach (MInit I) (step (monClient M)) (fun s => NoWrap s ∧ MOneWaiter s) s := by
    intro i
    induction i with
    | zero =>
      intro _ s hs
      have h1 := List.all_eq_true.1 ho 0 (List.mem_range.2 (by omega))
      rw [hs] at h1
      simp only [List.take_zero, exec, Option.some.injEq] at hs
      subst hs
      exact .init (mStart_init hg n) ⟨(mon_exec (M := M) hg [] rfl hn (by simp)).q, mOneB_of h1⟩
    | succ i ih =>
      intro hi s hs
      have h1 := List.all_eq_true.1 ho (i + 1) (List.mem_range.2 (by omega))
      rw [hs] at h1
      have hq := (mon_exec (M := M) hg (acts.take (i + 1)) hs hn (by rw [List.length_take]; omega)).q
      rw [List.take_succ_eq_append_getElem (by omega), exec_append] at hs
      cases hs1 : exec (step (monClient M)) (mStart g n) (acts.take i) with
      | none => simp [hs1] at hs
      | some s1 =>
        simp only [hs1, Option.bind_some, exec] at hs
        split at hs
        · simp at hs
        · rename_i s2 hs2
          simp only [Option.some.injEq] at hs
          subst hs
          exact .step (ih (by omega) s1 hs1) hs2 ⟨hq, mOneB_of h1⟩
  split at he
  · rename_i s hs
    exact ⟨s, key acts.length (Nat.le_refl _) s (by rwa [List.take_length]), hP s he⟩
  · simp at he

end Verif.EventCount
