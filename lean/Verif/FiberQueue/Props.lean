import Verif.FiberQueue.Lemmas
/-!
# C27: `FiberQueue`
-/
namespace Verif.FiberQueue
open Verif.Common Verif.EventCount Verif.Channel
variable {α : Type}

/-! ## Order -/

/-- The tasks executed so far are the first ones of the queue, in queue order and each once; the queue never holds more
than its capacity of tasks that were not yet taken. A task is in the queue at the position its `Add` claimed. -/
theorem C27_order {s : St α} (h : FReach α (fun s => NoWrap s ∧ OneRunner s) s) :
    s.g.ran <+: s.g.q.items ∧ s.g.q.items.length ≤ s.g.q.head + s.g.q.cap ∧
    ∀ t m p x, At s t (.pub m p x) → s.g.q.items[p]? = some x := by
  have hi := qinv (fun _ h => h) h
  refine ⟨?_, ?_, ?_⟩
  · by_cases hr : ∃ t l, s.lcl t = some l ∧ Running l = true
    · obtain ⟨t, l, h1, h2⟩ := hr
      have := hi.run t l h1 h2
      exact (List.prefix_append _ _).trans (this ▸ List.take_prefix _ _)
    · rw [hi.ran (by intro t l h1; cases h2 : Running l; rfl; exact absurd ⟨t, l, h1, h2⟩ hr)]
      exact List.take_prefix _ _
  · rw [hi.len]
    apply Classical.byContradiction
    intro hn
    have := hi.frd _ (hi.bnd (s.g.q.tail - 1) (by have := hi.cap; omega) (by omega))
    omega
  · intro t m p x ha
    exact (hi.pub t m p x (at_lcl.1 ha)).2.2

/-- When no fiber is inside `Run`, everything taken from the queue was executed. -/
theorem C27_taken_executed {s : St α} (h : FReach α (fun s => NoWrap s ∧ OneRunner s) s) (hn : ∀ t l, At s t l → Running l = false) :
    s.g.ran = s.g.q.items.take s.g.q.head :=
  (qinv (fun _ h => h) h).ran (fun t l hl => hn t l (at_lcl.2 hl))

/-- No fiber gets stuck in its own code: where it is not inside an event count, it has a next step. -/
theorem C27_never_stuck (g : G α) (l : Pc α) (c : Ch α) (h : cCall l = .loc) : (cLoc g l c).isSome = true := by
  cases l <;> simp [cCall] at h <;> simp only [cLoc]
  case idle => cases c <;> rfl
  case rExec ts => cases ts <;> rfl
  all_goals (try rfl)
  all_goals (repeat' split) <;> rfl

/-! ## Shutdown -/

structure CInv (g : G α) (F : Nat → Option (Pc α)) : Prop where
  cls : ∀ t b h, F t = some (.rCls b h) → g.q.head = g.q.tail
  fin : ∀ t, F t = some .rDropC ∨ F t = some .fin → g.closed = true ∧ g.q.head = g.q.tail

def CalmF (g : G α) (F : Nat → Option (Pc α)) : Prop :=
  (g.closed = true ∨ ∃ t b h, F t = some (.rCls b h)) → ∀ t l, F t = some l → Adding l = false

theorem calmF {s : St α} (h : Calm s) : CalmF s.g s.lcl := by
  intro h1 t l hl
  refine h ?_ t l (at_lcl.2 hl)
  rcases h1 with h1 | ⟨t, b, h0, h1⟩
  · exact .inl h1
  · exact .inr ⟨t, b, h0, at_lcl.2 h1⟩

theorem cinv {R : St α → Prop} (hR : ∀ s, R s → NoWrap s ∧ OneRunner s ∧ Calm s) {s : St α} (h : FReach α R s) : CInv s.g s.lcl := by
  have hR' : ∀ s, R s → NoWrap s ∧ OneRunner s := fun s h => ⟨(hR s h).1, (hR s h).2.1⟩
  refine client_reach_q (P := fq α) (fun s h => (hR s h.q).1.1) (D := fun g F => OneRF F ∧ QInv g F ∧ CalmF g F)
    (fun s h => ⟨oneRF (hR s h.q).2.1, qinv hR' h, calmF (hR s h.q).2.2⟩) (R := CInv) ?_ ?_ ?_ (reach_self h)
  · intro s hi hr
    have hF := fun t l => lcl_idle hi (t := t) (l := l)
    constructor
    · intro t b h ht; have := hF _ _ ht; simp at this
    · intro t ht; rcases ht with ht | ht <;> (have := hF _ _ ht; simp at this)
  · intro g F t l c g' l' hC hD hD' hF hc hs
    obtain ⟨hone, hq, hcalm⟩ := hD
    obtain ⟨-, -, hcalm'⟩ := hD'
    obtain ⟨h1, h2⟩ := hC
    rcases loc_cases hs with ⟨rfl, rfl, hl⟩ | ⟨rfl, rfl, rfl⟩ | ⟨m, x, rfl, hr, rfl, rfl⟩ | ⟨m, x, rfl, hr, rfl, rfl⟩ | ⟨m, p, x, rfl, rfl, rfl⟩ |
      ⟨v, hv, rfl, hl⟩ | ⟨b, rfl, hv, rfl, rfl⟩ | ⟨p, v, rfl, hl⟩ | ⟨b, h0, rfl, rfl, hl⟩ | ⟨ts, rfl, hv, rfl, rfl⟩ | ⟨x, ts, rfl, rfl, rfl⟩ |
      ⟨rfl, rfl, rfl⟩ | ⟨rfl, rfl, rfl⟩
    · constructor <;> grind [upd_apply]
    · constructor <;> grind [upd_apply]
    · constructor
      · intro u b h hu
        have e : u ≠ t := by rintro rfl; simp at hu
        rw [upd_ne _ _ e] at hu
        have := hcalm (.inr ⟨u, b, h, hu⟩) t _ hF
        simp [Adding] at this
      · intro u hu
        have e : u ≠ t := by rintro rfl; simp at hu
        rw [upd_ne _ _ e] at hu
        have := hcalm (.inl (h2 u hu).1) t _ hF
        simp [Adding] at this
    · constructor <;> cases m <;> grind [upd_apply, pushFail]
    · constructor
      · intro u b h hu; exact h1 u b h (by grind [upd_apply])
      · intro u hu; exact h2 u (by grind [upd_apply])
    · have hlt : g.q.head < g.q.tail := by
        have := (List.getElem?_eq_some_iff.1 (hq.cell _ _ hv)).1
        have := hq.len; omega
      have : (∀ b h, l' ≠ .rCls b h) ∧ l' ≠ .rDropC ∧ l' ≠ .fin := by
        rcases hl with ⟨b, rfl, rfl⟩ | ⟨ts, rfl, -, rfl⟩ <;> simp
      constructor
      · intro u b h hu
        have := h1 u b h (by grind [upd_apply]); omega
      · intro u hu
        have := (h2 u (by grind [upd_apply])).2; omega
    · have hht : g'.q.head = g'.q.tail := by
        apply Classical.byContradiction
        intro hne
        rcases hq.clm g'.q.head (by have := hq.ht; omega) with ⟨v, h3⟩ | ⟨u, n, x, h3⟩
        · simp [hv] at h3
        · have e : u ≠ t := by rintro rfl; simp [hF] at h3
          have := hcalm' (.inr ⟨t, b, g'.q.head, by simp⟩) u (.pub n g'.q.head x) (by rw [upd_ne _ _ e]; exact h3)
          simp [Adding] at this
      constructor <;> grind [upd_apply]
    · have : (∀ b h, l' ≠ .rCls b h) ∧ l' ≠ .rDropC ∧ l' ≠ .fin := by
        rcases hl with ⟨rfl, rfl⟩ | ⟨rfl, rfl⟩ | ⟨ts, rfl, rfl⟩ <;> simp
      constructor
      · intro u b h hu; exact h1 u b h (by grind [upd_apply])
      · intro u hu; exact h2 u (by grind [upd_apply])
    · have h3 := h1 t b h0 hF
      rcases hl with ⟨hcl, rfl⟩ | ⟨hcl, rfl⟩ <;> cases b <;> constructor <;> grind [upd_apply]
    · constructor <;> grind [upd_apply]
    · constructor
      · intro u b h hu; exact h1 u b h (by grind [upd_apply])
      · intro u hu; exact h2 u (by grind [upd_apply])
    · constructor <;> grind [upd_apply]
    · constructor <;> grind [upd_apply]
  · intro g F t l b hC hD hD' hF hc
    obtain ⟨h1, h2⟩ := hC
    have h3 := h2 t
    simp only [fq] at hc ⊢
    cases l <;> simp [cCall] at hc <;> simp only [cRet]
    case ntfPull m => constructor <;> cases m <;> grind [upd_apply, pushDone]
    all_goals constructor <;> grind [upd_apply]

/-- When `Run` returns, all tasks were executed, provided no task is added after `Shutdown` nor between a failed dequeue of
`Run` and its look at `is_closed_`. Missing: without the second proviso it is false, see `C27_task_lost`. -/
theorem C27_drained_partial {s : St α} (h : FReach α (fun s => NoWrap s ∧ OneRunner s ∧ Calm s) s) {t : Nat} (ht : At s t .fin)
    (hn : ∀ t l, At s t l → Running l = false) : s.g.closed = true ∧ s.g.ran = s.g.q.items := by
  have hi := cinv (fun _ h => h) h
  have hq := qinv (fun _ h => ⟨h.1, h.2.1⟩) h
  obtain ⟨h1, h2⟩ := hi.fin t (.inr (at_lcl.1 ht))
  refine ⟨h1, ?_⟩
  rw [hq.ran (fun t l hl => hn t l (at_lcl.2 hl)), h2, ← hq.len, List.take_length]

/-! ## Wake-ups -/

/-- The event count whose key a fiber holds. -/
def cKey : Pc α → Option Nat
  | .push .slow _ | .pub .slow _ _ | .ntfPull .slow | .pDrop | .pWait _ | .pDropL _ => some 0
  | .rTry true | .rRel true _ _ | .rCls true _ | .rWait _ | .rDropL | .rDrop _ | .rDropC => some 1
  | _ => none

theorem keydisc : KeyDisc (fq α) cKey := by
  constructor
  · intro g l t c g' l' hc hs
    rcases loc_cases hs with ⟨rfl, rfl, hl⟩ | ⟨rfl, rfl, rfl⟩ | ⟨m, x, rfl, hr, rfl, rfl⟩ | ⟨m, x, rfl, hr, rfl, rfl⟩ | ⟨m, p, x, rfl, rfl, rfl⟩ |
      ⟨v, hv, rfl, hl⟩ | ⟨b, rfl, hv, rfl, rfl⟩ | ⟨p, v, rfl, hl⟩ | ⟨b, h0, rfl, rfl, hl⟩ | ⟨ts, rfl, hv, rfl, rfl⟩ | ⟨x, ts, rfl, rfl, rfl⟩ |
      ⟨rfl, rfl, rfl⟩ | ⟨rfl, rfl, rfl⟩
    · rcases hl with ⟨x, rfl⟩ | ⟨x, rfl⟩ | rfl <;> rfl
    · rfl
    · cases m <;> rfl
    · cases m <;> rfl
    · cases m <;> rfl
    · rcases hl with ⟨b, rfl, rfl⟩ | ⟨ts, rfl, -, rfl⟩
      · cases b <;> rfl
      · rfl
    · cases b <;> rfl
    · rcases hl with ⟨rfl, rfl⟩ | ⟨rfl, rfl⟩ | ⟨ts, rfl, rfl⟩ <;> rfl
    · rcases hl with ⟨-, rfl⟩ | ⟨-, rfl⟩ <;> cases b <;> rfl
    all_goals rfl
  · intro l i hc
    cases l <;> simp [fq, cCall] at hc <;> subst hc <;> rfl
  · intro l hc
    cases l <;> simp [fq, cCall] at hc <;> rfl
  · intro l b h1
    cases l <;> simp [fq, cCall] at h1 <;> simp only [fq, cRet]
    case ntfPull m => cases m <;> rfl
    all_goals rfl

theorem key_state {R : St α → Prop} (hR : ∀ s, R s → s.th.length < 2 ^ 32) {s : St α} (h : FReach α R s)
    {t : Nat} {k : Key} (hk : s.key t = some k) : ∃ l, s.lcl t = some l ∧ cKey l = some k.ix := by
  obtain ⟨x, hx, hk'⟩ : ∃ x, s.th[t]? = some x ∧ x.key = some k := by
    simp only [State.key, Option.bind_eq_some_iff] at hk; exact hk
  have := keydisc_reach hR keydisc (by intro l h; subst h; rfl) h (lcl_of hx)
  rw [hk] at this
  exact ⟨x.cl, lcl_of hx, this.symm⟩

theorem running_of_key {l : Pc α} (h : cKey l = some 1) : Running l = true := by
  unfold cKey at h
  split at h <;> simp at h <;> rfl

/-- What `Run` waits for, from its last look at the queue on. -/
def pullCond : Pc α → G α → Prop
  | .rCls true h, g => ∃ v, g.q.cell h = some v
  | .rWait h, g => (∃ v, g.q.cell h = some v) ∨ g.closed = true
  | _, _ => False

def pullObl : Pc α → Prop
  | .ntfPull _ | .cNtf => True
  | _ => False

theorem pull_sound : Sound (fq α) 1 pullCond pullObl := by
  constructor
  · intro g l t c g' l' hc hs hw
    rcases loc_cases hs with ⟨rfl, rfl, hl⟩ | ⟨rfl, rfl, rfl⟩ | ⟨m, x, rfl, hr, rfl, rfl⟩ | ⟨m, x, rfl, hr, rfl, rfl⟩ | ⟨m, p, x, rfl, rfl, rfl⟩ |
      ⟨v, hv, rfl, hl⟩ | ⟨b, rfl, hv, rfl, rfl⟩ | ⟨p, v, rfl, hl⟩ | ⟨b, h0, rfl, rfl, hl⟩ | ⟨ts, rfl, hv, rfl, rfl⟩ | ⟨x, ts, rfl, rfl, rfl⟩ |
      ⟨rfl, rfl, rfl⟩ | ⟨rfl, rfl, rfl⟩
    · rcases hl with ⟨x, rfl⟩ | ⟨x, rfl⟩ | rfl <;> simp [pullCond] at hw
    · simp [pullCond] at hw
    · simp [pullCond] at hw
    · cases m <;> simp [pullCond, pushFail] at hw
    · simp [pullCond] at hw
    · rcases hl with ⟨b, rfl, rfl⟩ | ⟨ts, rfl, -, rfl⟩ <;> simp [pullCond] at hw
    · cases b <;> simp [pullCond, hv] at hw
    · rcases hl with ⟨rfl, rfl⟩ | ⟨rfl, rfl⟩ | ⟨ts, rfl, rfl⟩ <;> simp [pullCond] at hw
    · rcases hl with ⟨h1, rfl⟩ | ⟨h1, rfl⟩ <;> cases b <;> simp_all [pullCond]
    all_goals simp [pullCond] at hw
  · intro l b hc g hw
    cases l <;> simp [fq, cCall] at hc <;> simp only [fq, cRet, cCall] at hw ⊢
    case ntfPull m => cases m <;> simp [pullCond, pushDone] at hw
    all_goals simp [pullCond] at hw
  · intro g l t c g' l' hc hs w hcd ho
    have same : ∀ (g' : G α) , pullCond w g' → (∀ p, g'.q.cell p = g.q.cell p) → g'.closed = g.closed → pullCond w g := by
      intro g' h3 h1 h2
      unfold pullCond at *
      split at h3 <;> simp_all
    have hno : ∀ l : Pc α, (fq α).call l = .loc → ¬ pullObl l := by
      intro l hl; cases l <;> simp [fq, cCall] at hl <;> simp [pullObl]
    have ho' : ¬ pullCond w g := by
      rcases ho with h1 | h1
      · exact h1
      · exact absurd h1 (hno l hc)
    rcases loc_cases hs with ⟨rfl, rfl, hl⟩ | ⟨rfl, rfl, rfl⟩ | ⟨m, x, rfl, hr, rfl, rfl⟩ | ⟨m, x, rfl, hr, rfl, rfl⟩ | ⟨m, p, x, rfl, rfl, rfl⟩ |
      ⟨v, hv, rfl, hl⟩ | ⟨b, rfl, hv, rfl, rfl⟩ | ⟨p, v, rfl, hl⟩ | ⟨b, h0, rfl, rfl, hl⟩ | ⟨ts, rfl, hv, rfl, rfl⟩ | ⟨x, ts, rfl, rfl, rfl⟩ |
      ⟨rfl, rfl, rfl⟩ | ⟨rfl, rfl, rfl⟩
    case inr.inl => trivial
    case inr.inr.inr.inr.inl => trivial
    all_goals exact absurd (same _ hcd (fun _ => rfl) rfl) ho'
  · intro l g tm ho hc
    cases l <;> simp [pullObl] at ho <;> simp [fq, cCall] at hc
  · intro l b ho hc hn
    cases l <;> simp [pullObl] at ho <;> simp [fq, cCall] at hn

/-- What an adder waits for. -/
def pushCond : Pc α → G α → Prop
  | .pWait _, g => g.q.room g.q.tail = true
  | _, _ => False

def pushObl : Pc α → Prop
  | .rRel _ _ _ | .rDrop _ | .rMore _ | .rRel2 _ _ _ | .rNtf _ => True
  | _ => False

theorem push_sound : Sound (fq α) 0 pushCond pushObl := by
  constructor
  · intro g l t c g' l' hc hs hw
    rcases loc_cases hs with ⟨rfl, rfl, hl⟩ | ⟨rfl, rfl, rfl⟩ | ⟨m, x, rfl, hr, rfl, rfl⟩ | ⟨m, x, rfl, hr, rfl, rfl⟩ | ⟨m, p, x, rfl, rfl, rfl⟩ |
      ⟨v, hv, rfl, hl⟩ | ⟨b, rfl, hv, rfl, rfl⟩ | ⟨p, v, rfl, hl⟩ | ⟨b, h0, rfl, rfl, hl⟩ | ⟨ts, rfl, hv, rfl, rfl⟩ | ⟨x, ts, rfl, rfl, rfl⟩ |
      ⟨rfl, rfl, rfl⟩ | ⟨rfl, rfl, rfl⟩
    · rcases hl with ⟨x, rfl⟩ | ⟨x, rfl⟩ | rfl <;> simp [pushCond] at hw
    · simp [pushCond] at hw
    · simp [pushCond] at hw
    · cases m <;> simp [pushCond, pushFail, hr] at hw
    · simp [pushCond] at hw
    · rcases hl with ⟨b, rfl, rfl⟩ | ⟨ts, rfl, -, rfl⟩ <;> simp [pushCond] at hw
    · cases b <;> simp [pushCond] at hw
    · rcases hl with ⟨rfl, rfl⟩ | ⟨rfl, rfl⟩ | ⟨ts, rfl, rfl⟩ <;> simp [pushCond] at hw
    · rcases hl with ⟨h1, rfl⟩ | ⟨h1, rfl⟩ <;> cases b <;> simp_all [pushCond]
    all_goals simp [pushCond] at hw
  · intro l b hc g hw
    cases l <;> simp [fq, cCall] at hc <;> simp only [fq, cRet, cCall] at hw ⊢
    case ntfPull m => cases m <;> simp [pushCond, pushDone] at hw
    all_goals simp [pushCond] at hw
  · intro g l t c g' l' hc hs w hcd ho
    have same : ∀ (g' : G α) , pushCond w g' → g'.q = g.q → pushCond w g := by
      intro g' h3 h1
      unfold pushCond at *
      split at h3 <;> simp_all
    rcases loc_cases hs with ⟨rfl, rfl, hl⟩ | ⟨rfl, rfl, rfl⟩ | ⟨m, x, rfl, hr, rfl, rfl⟩ | ⟨m, x, rfl, hr, rfl, rfl⟩ | ⟨m, p, x, rfl, rfl, rfl⟩ |
      ⟨v, hv, rfl, hl⟩ | ⟨b, rfl, hv, rfl, rfl⟩ | ⟨p, v, rfl, hl⟩ | ⟨b, h0, rfl, rfl, hl⟩ | ⟨ts, rfl, hv, rfl, rfl⟩ | ⟨x, ts, rfl, rfl, rfl⟩ |
      ⟨rfl, rfl, rfl⟩ | ⟨rfl, rfl, rfl⟩
    · simp [pushObl] at ho; exact absurd hcd ho
    · simp [pushObl] at ho; exact absurd (same _ hcd rfl) ho
    · simp [pushObl] at ho
      cases w <;> simp [pushCond] at hcd
      simp [pushCond, hr] at ho
    · simp [pushObl] at ho; exact absurd hcd ho
    · simp [pushObl] at ho
      exfalso; apply ho
      cases w <;> simp [pushCond] at hcd ⊢
      exact hcd
    · rcases hl with ⟨b, rfl, rfl⟩ | ⟨ts, rfl, -, rfl⟩ <;> trivial
    · simp [pushObl] at ho; exact absurd hcd ho
    · rcases hl with ⟨rfl, rfl⟩ | ⟨rfl, rfl⟩ | ⟨ts, rfl, rfl⟩ <;> trivial
    · simp [pushObl] at ho; exact absurd hcd ho
    · trivial
    · simp [pushObl] at ho; exact absurd (same _ hcd rfl) ho
    · simp [pushObl] at ho; exact absurd hcd ho
    · simp [pushObl] at ho; exact absurd hcd ho
  · intro l g tm ho hc
    cases l <;> simp [pushObl] at ho <;> simp [fq, cCall] at hc
  · intro l b ho hc hn
    cases l <;> simp [pushObl] at ho <;> simp [fq, cCall] at hn hc <;> trivial

theorem ix_wait {R : St α → Prop} (hR : ∀ s, R s → s.th.length < 2 ^ 32) {s : St α} (h : FReach α R s)
    {t : Nat} {x : Th (Pc α)} (hx : s.th[t]? = some x) {i : Nat} {tm : Bool} (he : x.ep = .asleep i tm) :
    ∃ tm, cCall x.cl = .wait i tm :=
  (cinv_reach hR h t x hx).1 i (by rw [he]; rfl)

theorem ix_ntf {R : St α → Prop} (hR : ∀ s, R s → s.th.length < 2 ^ 32) {s : St α} (h : FReach α R s)
    {u : Nat} {p : EPc} (hp : s.ep u = some p) {i : Nat} (hi : notIx p = some i) :
    ∃ l all, At s u l ∧ cCall l = .notify i all := by
  simp only [State.ep, Option.map_eq_some_iff] at hp
  obtain ⟨y, hy, rfl⟩ := hp
  obtain ⟨all, h1⟩ := (cinv_reach hR h u y hy).2.2 i hi
  exact ⟨y.cl, all, ⟨y, hy, rfl⟩, h1⟩

/-- An adder never stays asleep at a queue with room: `Run` is collecting a batch and still owes the `notifyAll`. -/
theorem C27_add_wakes {s : St α} (h : FReach α NoWrap s) {t : Nat} (hb : AddBlocked s t) (hr : HasRoom s.g) :
    ∃ u, u ≠ t ∧ Draining s u := by
  have hQ : ∀ s : St α, NoWrap s → s.th.length < 2 ^ 32 := fun _ h => h.1
  obtain ⟨x, i, tm, v, hx, he, hl⟩ := hb
  obtain ⟨tm', hcall⟩ := ix_wait hQ h hx he
  rw [hl] at hcall; simp only [cCall, Call.wait.injEq] at hcall
  obtain ⟨rfl, rfl⟩ := hcall
  have hW := w_reach (P := fq α) push_sound (fun _ h => h) h
    (fun _ h => oneOk_all hQ (by intro l; cases l <;> simp [fq, cCall]) h)
  obtain ⟨u, hut, hu⟩ := no_lost push_sound (einv_reach hQ h) hW (t := t) (l := .pWait v) (tm := tm)
    (by rw [ep_of hx, he]) (by rw [lcl_of hx, hl]) hr
  refine ⟨u, hut, ?_⟩
  rcases hu with ⟨m, hm, ho, -⟩ | ⟨p, hp, hpi⟩
  · refine ⟨m, at_lcl.2 hm, ?_⟩
    cases m <;> simp [pushObl] at ho <;> simp
  · obtain ⟨l, all, h1, h2⟩ := ix_ntf hQ h hp hpi
    refine ⟨l, h1, ?_⟩
    cases l <;> simp [cCall] at h2 <;> simp

/-- The position `Run` found unreadable is still the head of the queue. -/
theorem hinv {R : St α → Prop} (hR : ∀ s, R s → NoWrap s ∧ OneRunner s) {s : St α} (h : FReach α R s) :
    ∀ t l h, s.lcl t = some l → (l = .rWait h ∨ ∃ b, l = .rCls b h) → h = s.g.q.head := by
  refine client_reach_q (P := fq α) (fun s h => (hR s h).1.1) (D := fun _ F => OneRF F) (fun s h => oneRF (hR s h).2)
    (R := fun g F => ∀ t l h, F t = some l → (l = .rWait h ∨ ∃ b, l = .rCls b h) → h = g.q.head) ?_ ?_ ?_ h
  · intro s hi hr t l h hl he
    have := lcl_idle hi hl; subst this; simp at he
  · intro g F t l c g' l' hh hD hD' hF hc hs
    have old : (∀ h, (l' = .rWait h ∨ ∃ b, l' = .rCls b h) → h = g'.q.head) → (g'.q.head = g.q.head ∨ Running l = true) →
        ∀ u m h, upd F t (some l') u = some m → (m = .rWait h ∨ ∃ b, m = .rCls b h) → h = g'.q.head := by
      intro h1 h2 u m h hu hm
      by_cases e : u = t
      · subst e; simp only [upd_same, Option.some.injEq] at hu; subst hu; exact h1 h hm
      · rw [upd_ne _ _ e] at hu
        rcases h2 with h2 | h2
        · rw [h2]; exact hh u m h hu hm
        · refine absurd (hD u t m l hu hF ?_ h2) e
          rcases hm with rfl | ⟨b, rfl⟩ <;> rfl
    rcases loc_cases hs with ⟨rfl, rfl, hl⟩ | ⟨rfl, rfl, rfl⟩ | ⟨m, x, rfl, hr, rfl, rfl⟩ | ⟨m, x, rfl, hr, rfl, rfl⟩ | ⟨m, p, x, rfl, rfl, rfl⟩ |
      ⟨v, hv, rfl, hl⟩ | ⟨b, rfl, hv, rfl, rfl⟩ | ⟨p, v, rfl, hl⟩ | ⟨b, h0, rfl, rfl, hl⟩ | ⟨ts, rfl, hv, rfl, rfl⟩ | ⟨x, ts, rfl, rfl, rfl⟩ |
      ⟨rfl, rfl, rfl⟩ | ⟨rfl, rfl, rfl⟩
    · refine old ?_ (.inl rfl)
      rcases hl with ⟨x, rfl⟩ | ⟨x, rfl⟩ | rfl <;> simp
    · exact old (by simp) (.inl rfl)
    · exact old (by simp) (.inl rfl)
    · refine old ?_ (.inl rfl)
      cases m <;> simp [pushFail]
    · exact old (by simp) (.inl rfl)
    · refine old ?_ (.inr ?_) <;> rcases hl with ⟨b, rfl, rfl⟩ | ⟨ts, rfl, -, rfl⟩ <;> simp [Running]
    · exact old (by simp) (.inl rfl)
    · refine old ?_ (.inl rfl)
      rcases hl with ⟨rfl, rfl⟩ | ⟨rfl, rfl⟩ | ⟨ts, rfl, rfl⟩ <;> simp
    · have h3 := hh t _ h0 hF (.inr ⟨b, rfl⟩)
      refine old ?_ (.inl rfl)
      rcases hl with ⟨_, rfl⟩ | ⟨_, rfl⟩ <;> cases b <;> simp [h3]
    all_goals exact old (by simp) (.inl rfl)
  · intro g F t l b hh hD hD' hF hc u m h hu hm
    by_cases e : u = t
    · subst e; simp only [upd_same, Option.some.injEq] at hu; subst hu
      simp only [fq] at hc hm
      cases l <;> simp [cCall] at hc <;> simp [cRet] at hm
      case ntfPull m => cases m <;> simp [pushDone] at hm
    · rw [upd_ne _ _ e] at hu; exact hh u m h hu hm

theorem one_ok {R : St α → Prop} (hR : ∀ s, R s → NoWrap s ∧ OneRunner s) {s : St α} (h : FReach α R s) :
    OneOk 1 s.ep s.key := by
  refine .inr ?_
  intro t t' k k' h1 h2 h3 h4
  obtain ⟨l, hl, hk⟩ := key_state (fun s h => (hR s h).1.1) h h1
  obtain ⟨l', hl', hk'⟩ := key_state (fun s h => (hR s h).1.1) h h3
  rw [h2] at hk; rw [h4] at hk'
  exact (hR s h.q).2 t t' l l' (at_lcl.2 hl) (at_lcl.2 hl') (running_of_key hk) (running_of_key hk')

/-- `Run` never stays asleep when the next task is there or `Shutdown` was called: another fiber is past its change and
still owes the notification. -/
theorem C27_run_wakes {s : St α} (h : FReach α (fun s => NoWrap s ∧ OneRunner s) s) {t : Nat}
    (hb : RunBlocked s t) (hc : Readable s.g ∨ s.g.closed = true) : ∃ u, u ≠ t ∧ (Announcing s u ∨ Closing s u) := by
  have hQ : ∀ s : St α, NoWrap s ∧ OneRunner s → s.th.length < 2 ^ 32 := fun _ h => h.1.1
  obtain ⟨x, i, tm, h0, hx, he, hl⟩ := hb
  obtain ⟨tm', hcall⟩ := ix_wait hQ h hx he
  rw [hl] at hcall; simp only [cCall, Call.wait.injEq] at hcall
  obtain ⟨rfl, rfl⟩ := hcall
  have hh := hinv (fun _ h => h) h t _ h0 (by rw [lcl_of hx, hl]) (.inl rfl)
  have hW := w_reach (P := fq α) pull_sound (fun _ h => h.1) h (fun _ h => one_ok (fun _ h => h) h)
  obtain ⟨u, hut, hu⟩ := no_lost pull_sound (einv_reach hQ h) hW (t := t) (l := .rWait h0) (tm := tm)
    (by rw [ep_of hx, he]) (by rw [lcl_of hx, hl]) (by simpa [pullCond, hh, Readable] using hc)
  refine ⟨u, hut, ?_⟩
  rcases hu with ⟨m, hm, ho, -⟩ | ⟨p, hp, hpi⟩
  · cases m <;> simp [pullObl] at ho
    · exact .inl ⟨_, at_lcl.2 hm⟩
    · exact .inr (at_lcl.2 hm)
  · obtain ⟨l, all, h1, h2⟩ := ix_ntf hQ h hp hpi
    cases l <;> simp [cCall] at h2
    · exact .inl ⟨_, h1⟩
    · exact .inr h1

theorem quiet_not {s : St α} {t : Nat} {l : Pc α} (hq : Quiet s) (h : At s t l) : l = .idle ∨ (∃ h, l = .rWait h) ∨ ∃ x, l = .pWait x := by
  rcases hq t l h with h1 | ⟨x, _, _, h0, hx, -, h1⟩ | ⟨x, _, _, v, hx, -, h1⟩
  · exact .inl h1
  · obtain ⟨y, hy, rfl⟩ := h
    rw [hx] at hy; simp only [Option.some.injEq] at hy; subst hy; exact .inr (.inl ⟨h0, h1⟩)
  · obtain ⟨y, hy, rfl⟩ := h
    rw [hx] at hy; simp only [Option.some.injEq] at hy; subst hy; exact .inr (.inr ⟨v, h1⟩)

/-- When nothing can move by itself and `Run` sleeps, then every accepted task was executed, `Shutdown` was not called and
no adder is asleep. -/
theorem C27_all_executed {s : St α} (h : FReach α (fun s => NoWrap s ∧ OneRunner s) s) {t : Nat}
    (hb : RunBlocked s t) (hq : Quiet s) : s.g.ran = s.g.q.items ∧ s.g.closed = false ∧ ∀ u, ¬ AddBlocked s u := by
  have hi := qinv (fun _ h => h) h
  have hno : ¬ (Readable s.g ∨ s.g.closed = true) := by
    intro hc
    obtain ⟨u, -, ⟨m, h1⟩ | h1⟩ := C27_run_wakes h hb hc <;> simpa using quiet_not hq h1
  have hht : s.g.q.head = s.g.q.tail := by
    apply Classical.byContradiction
    intro hne
    rcases hi.clm s.g.q.head (by have := hi.ht; omega) with h1 | ⟨u, m, x, h1⟩
    · exact hno (.inl h1)
    · simpa using quiet_not hq (at_lcl.2 h1)
  obtain ⟨x, i, tm, h0, hx, he, hl⟩ := hb
  have hat : s.lcl t = some (.rWait h0) := by rw [lcl_of hx, hl]
  refine ⟨?_, by simpa using fun h => hno (.inr h), ?_⟩
  · have := hi.run t _ hat rfl
    simpa [pend, hht, ← hi.len] using this
  · intro u hu
    have hr : HasRoom s.g := by
      simp only [HasRoom, Q.room, Bool.or_eq_true, decide_eq_true_eq]
      by_cases hlt : s.g.q.tail < s.g.q.cap
      · exact .inl hlt
      · right
        rcases hi.ufr (s.g.q.tail - s.g.q.cap) (by have := hi.cap; omega) with h1 | ⟨w, l, h1, h2⟩
        · exact h1
        · have := h.q.2 w t l _ (at_lcl.2 h1) (at_lcl.2 hat) (held_running h2) rfl
          subst this
          rw [hat] at h1; simp only [Option.some.injEq] at h1; subst h1; simp [held] at h2
    obtain ⟨w, -, l, h1, h2⟩ := C27_add_wakes (h.mono fun _ h => h.1) hu hr
    rcases quiet_not hq h1 with rfl | ⟨_, rfl⟩ | ⟨_, rfl⟩ <;> simp at h2

/-! ## Witnesses -/

def quietB (s : St Nat) : Bool :=
  s.th.all fun x => match x.cl, x.ep with
    | .idle, _ => true
    | .rWait _, .asleep _ _ => true
    | .pWait _, .asleep _ _ => true
    | _, _ => false

theorem quiet_of {s : St Nat} (h : quietB s = true) : Quiet s := by
  rintro t l ⟨x, hx, rfl⟩
  have := List.all_eq_true.1 h x (List.mem_of_getElem? hx)
  cases hc : x.cl <;> cases he : x.ep <;> simp [hc, he] at this
  all_goals first
    | exact .inl rfl
    | exact .inr (.inl ⟨x, _, _, _, hx, he, hc⟩)
    | exact .inr (.inr ⟨x, _, _, _, hx, he, hc⟩)

def runB (s : St Nat) (t : Nat) : Bool :=
  match s.th[t]? with
  | some x => match x.cl, x.ep with
    | .rWait _, .asleep _ _ => true
    | _, _ => false
  | none => false

theorem run_of {s : St Nat} {t : Nat} (h : runB s t = true) : RunBlocked s t := by
  cases hx : s.th[t]? with
  | none => simp [runB, hx] at h
  | some x =>
    cases hc : x.cl <;> cases he : x.ep <;> simp [runB, hx, hc, he] at h
    exact ⟨x, _, _, _, hx, he, hc⟩

def addB (s : St Nat) (t : Nat) : Bool :=
  match s.th[t]? with
  | some x => match x.cl, x.ep with
    | .pWait _, .asleep _ _ => true
    | _, _ => false
  | none => false

theorem add_of {s : St Nat} {t : Nat} (h : addB s t = true) : AddBlocked s t := by
  cases hx : s.th[t]? with
  | none => simp [addB, hx] at h
  | some x =>
    cases hc : x.cl <;> cases he : x.ep <;> simp [addB, hx, hc, he] at h
    exact ⟨x, _, _, _, hx, he, hc⟩

def onerB (s : St Nat) : Bool := oneB Running s

theorem oner_of {s : St Nat} (h : onerB s = true) : OneRunner s := by
  rintro t u _ _ ⟨x, hx, rfl⟩ ⟨y, hy, rfl⟩ h1 h2
  exact one_of h hx hy h1 h2

def calmB (s : St Nat) : Bool :=
  (!s.g.closed && s.th.all fun x => match x.cl with | .rCls _ _ => false | _ => true) || s.th.all fun x => !Adding x.cl

theorem calm_of {s : St Nat} (h : calmB s = true) : Calm s := by
  rintro hc t l ⟨x, hx, rfl⟩
  simp only [calmB, Bool.or_eq_true, Bool.and_eq_true, List.all_eq_true] at h
  rcases h with ⟨h1, h2⟩ | h1
  · rcases hc with hc | ⟨u, b, h0, y, hy, hc⟩
    · simp [hc] at h1
    · have := h2 y (List.mem_of_getElem? hy)
      simp [hc] at this
  · simpa using h1 x (List.mem_of_getElem? hx)

/-- Fiber `t` has returned from `Run`. -/
def finB (s : St Nat) (t : Nat) : Bool := (s.th[t]?).any fun x => x.cl == .fin

theorem fin_of {s : St Nat} {t : Nat} (h : finB s t = true) : At s t .fin := by
  cases hx : s.th[t]? with
  | none => simp [finB, hx] at h
  | some x => exact ⟨x, hx, by simpa [finB, hx] using h⟩

/-- `n` steps of fiber `t`, the first of which chooses the operation. -/
def go (t : Nat) (c : Ch Nat) (n : Nat) : List (Act (Ch Nat)) := List.replicate n (.go t c)

def g0 (n : Nat) : G Nat := { q := { cap := n } }

theorem g0_ok {n : Nat} (h : 0 < n) : I0 (g0 n) := ⟨_, ⟨n, h, rfl⟩, rfl⟩

/-- A task accepted before `Shutdown` may never run: `Run` finds the queue empty, the task is added, `Shutdown` is called
by the same fiber, and only then does `Run` look at `is_closed_` (.cc 30-37). No task is added after `Shutdown`. -/
theorem C27_task_lost : ∃ s : St Nat, FReach Nat (fun s => NoWrap s ∧ (OneRunner s ∧ (s.g.closed = true → ∀ t l, At s t l → Adding l = false))) s ∧
    (At s 0 .fin ∧ s.g.q.items = [7] ∧ s.g.ran = []) := by
  refine run_ex_q (g := g0 2) (l := .idle) (g0_ok (by decide)) rfl 2
    (go 0 .run 2 ++ go 1 (.add 7) 4 ++ go 1 .shutdown 2 ++ go 0 .run 1)
    (fun s => onerB s && (!s.g.closed || s.th.all fun x => !Adding x.cl)) ?_
    (fun s => finB s 0 && (s.g.q.items == [7] && s.g.ran == [])) ?_ (by decide +kernel)
  · intro s h
    simp only [Bool.and_eq_true] at h
    refine ⟨oner_of h.1, ?_⟩
    rintro hc t l ⟨x, hx, rfl⟩
    have h2 := h.2
    simp only [hc, Bool.not_true, Bool.false_or, List.all_eq_true] at h2
    simpa using h2 x (List.mem_of_getElem? hx)
  · intro s h
    simp only [Bool.and_eq_true] at h
    exact ⟨fin_of h.1, by simpa using h.2.1, by simpa using h.2.2⟩

/-- C27_order, C27_all_executed: two adders, three tasks through a queue of two, `Run` asleep again. -/
example : ∃ s : St Nat, FReach Nat (fun s => NoWrap s ∧ OneRunner s) s ∧ (RunBlocked s 0 ∧ Quiet s ∧ s.g.ran = [1, 2, 3]) := by
  refine run_ex_q (g := g0 2) (l := .idle) (g0_ok (by decide)) rfl 3
    (go 1 (.add 1) 4 ++ go 2 (.add 2) 4 ++ go 1 (.add 3) 7 ++ go 0 .run 12 ++ go 1 (.add 3) 8 ++ go 0 .run 16)
    onerB (fun _ => oner_of) (fun s => runB s 0 && (quietB s && s.g.ran == [1, 2, 3])) ?_ (by decide +kernel)
  intro s h
  simp only [Bool.and_eq_true] at h
  exact ⟨run_of h.1, quiet_of h.2.1, by simpa using h.2.2⟩

/-- C27_drained_partial: two tasks, then `Shutdown`, then `Run`. -/
example : ∃ s : St Nat, FReach Nat (fun s => NoWrap s ∧ (OneRunner s ∧ Calm s)) s ∧
    (At s 0 .fin ∧ (∀ t l, At s t l → Running l = false) ∧ s.g.ran = [1, 2]) := by
  refine run_ex_q (g := g0 2) (l := .idle) (g0_ok (by decide)) rfl 2
    (go 1 (.add 1) 4 ++ go 1 (.add 2) 4 ++ go 1 .shutdown 2 ++ go 0 .run 12)
    (fun s => onerB s && calmB s) (fun _ h => by simp only [Bool.and_eq_true] at h; exact ⟨oner_of h.1, calm_of h.2⟩)
    (fun s => finB s 0 && (s.th.all (fun x => !Running x.cl) && s.g.ran == [1, 2])) ?_ (by decide +kernel)
  intro s h
  simp only [Bool.and_eq_true] at h
  refine ⟨fin_of h.1, ?_, by simpa using h.2.2⟩
  rintro t l ⟨x, hx, rfl⟩
  simpa using List.all_eq_true.1 h.2.1 x (List.mem_of_getElem? hx)

/-- C27_run_wakes: `Run` sleeps, a task is published and not announced. -/
example : ∃ s : St Nat, FReach Nat (fun s => NoWrap s ∧ OneRunner s) s ∧ (RunBlocked s 0 ∧ Readable s.g) := by
  refine run_ex_q (g := g0 2) (l := .idle) (g0_ok (by decide)) rfl 2 (go 0 .run 9 ++ go 1 (.add 1) 3)
    onerB (fun _ => oner_of) (fun s => runB s 0 && (s.g.q.cell s.g.q.head).isSome) ?_ (by decide +kernel)
  intro s h
  simp only [Bool.and_eq_true] at h
  exact ⟨run_of h.1, by simpa [Readable, Option.isSome_iff_exists] using h.2⟩

/-- C27_add_wakes: an adder sleeps, `Run` has just made room. -/
example : ∃ s : St Nat, FReach Nat NoWrap s ∧ (AddBlocked s 1 ∧ HasRoom s.g) := by
  refine run_ex (g := g0 1) (l := .idle) (g0_ok (by decide)) rfl 2 (go 1 (.add 1) 4 ++ go 1 (.add 2) 7 ++ go 0 .run 3)
    (fun s => addB s 1 && s.g.q.room s.g.q.tail) ?_ (by decide +kernel)
  intro s h
  simp only [Bool.and_eq_true] at h
  exact ⟨add_of h.1, h.2⟩

end Verif.FiberQueue
