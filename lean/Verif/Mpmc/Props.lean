import Verif.Mpmc.Reach
/-!
# C08: `mpmc_bounded_queue` neither loses, duplicates nor invents elements

`enq` lists the values in the order in which the enqueues claimed positions; `got` lists the completed dequeues:
the position each claimed and the value it returned. Claims happen by a CAS on a counter, one after the other,
so position order is claim order, and it agrees with real-time order of non-overlapping calls.
-/
namespace Verif.Mpmc
open Verif.Common
variable {α : Type}

/-- A running dequeue that has claimed position `p`. -/
def DequeueInProgress (s : State α) (p : Nat) : Prop := Held s holdsD p

/-- A running enqueue that has claimed position `p` and has not published it. -/
def EnqueueInProgress (s : State α) (p : Nat) : Prop := Held s holdsE p

/-- C08. In every interleaving of any number of threads: no two dequeues return the same enqueued element; the
`p`-th dequeue (in claim order) returns the value of the `p`-th enqueue, so elements are neither invented nor
reordered; no claimed element is lost (it has been returned, or its dequeue is still running); at most
`capacity` elements are inside; storage is constructed, moved from and destroyed in proper alternation. -/
theorem mpmc_fifo (s : State α) (h : Reachable Init step s) :
    (s.got.map (·.1)).Nodup ∧
    (∀ p v, (p, v) ∈ s.got → s.enq[p]? = some v ∧ p < s.deqPos) ∧
    (∀ p, p < s.deqPos → (∃ v, (p, v) ∈ s.got) ∨ DequeueInProgress s p) ∧
    s.enq.length = s.enqPos ∧ s.deqPos ≤ s.enqPos ∧ s.enqPos ≤ s.deqPos + s.cap ∧ s.bad = false := by
  have hi := inv_reach h
  refine ⟨hi.gotNodup, fun p v hp => ⟨(hi.gotOk _ hp).2, (hi.gotOk _ hp).1⟩, fun p hp => ?_, hi.len, hi.le,
    hi.le2, hi.bad⟩
  rcases hi.gotAll p hp with h | h
  · obtain ⟨e, he, rfl⟩ := List.mem_map.mp h
    exact Or.inl ⟨e.2, he⟩
  · exact Or.inr h

/-- C08. Two running calls never work on the same cell's storage. -/
theorem mpmc_exclusive_cells (s : State α) (h : Reachable Init step s) (i j : Nat) (pi pj : Pc α) (p q : Nat)
    (hij : i ≠ j) (hi : s.th[i]? = some pi) (hj : s.th[j]? = some pj) (h1 : owns pi = some p)
    (h2 : owns pj = some q) : s.cell p ≠ s.cell q :=
  own_cell_ne (inv_reach h) hij hi hj h1 h2

theorem ev_spec {s s' : State α} {a : Act α} (h : Inv s) (hs : step s a = some s') :
    (s'.ev = .enqFailed → s'.enqPos = s'.deqPos + s'.cap ∨
      (s'.cap ≤ s'.enqPos ∧ Held s' holdsD (s'.enqPos - s'.cap))) ∧
    (s'.ev = .deqFailed → s'.enqPos = s'.deqPos ∨ Held s' holdsE s'.deqPos) ∧
    (∀ v, s'.ev = .deqOk v → ∃ p, s'.got = s.got ++ [(p, v)]) := by
  cases a with
  | enqueue t x =>
    unfold step at hs; simp only at hs
    split at hs <;> simp only [Option.some.injEq, reduceCtorEq] at hs; subst hs; simp [State.setPc]
  | dequeue t =>
    unfold step at hs; simp only at hs
    split at hs
    · split at hs
      · simp only [Option.some.injEq] at hs; subst hs; simp [State.setPc]
      · split at hs <;> simp only [Option.some.injEq, reduceCtorEq] at hs; subst hs; simp [State.setPc]
    · simp at hs
  | casFail t =>
    unfold step at hs; simp only at hs
    split at hs <;> simp only [Option.some.injEq, reduceCtorEq] at hs <;> subst hs <;> simp [State.setPc]
  | go t =>
    unfold step at hs; simp only at hs
    split at hs
    case h_2 => simp at hs
    rename_i pc ht
    have hpc := h.pcs t pc ht
    cases pc with
    | eLoaded x pos =>
      simp only [stepPc] at hs
      split at hs
      · simp only [Option.some.injEq] at hs; subst hs; simp [State.setPc]
      · split at hs <;> simp only [Option.some.injEq] at hs <;> subst hs
        · rename_i hlt
          refine ⟨fun _ => ?_, by simp [State.setPc], by simp [State.setPc]⟩
          rcases (seq_lt_enq h hpc hlt).2 with e | ⟨e1, e2⟩
          · exact Or.inl e
          · exact Or.inr ⟨e1, held_set ht rfl (by simp [holdsD]) e2⟩
        · simp [State.setPc]
    | dLoaded pos =>
      simp only [stepPc] at hs
      split at hs
      · simp only [Option.some.injEq] at hs; subst hs; simp [State.setPc]
      · split at hs <;> simp only [Option.some.injEq] at hs <;> subst hs
        · rename_i hlt
          refine ⟨by simp [State.setPc], fun _ => ?_, by simp [State.setPc]⟩
          rcases (seq_le_deq h hpc hlt).2 with e | e
          · exact Or.inl e
          · exact Or.inr (held_set ht rfl (by simp [holdsE]) e)
        · simp [State.setPc]
    | sLoaded pos =>
      simp only [stepPc] at hs
      split at hs <;> simp only [Option.some.injEq] at hs <;> subst hs
      · rename_i hlt
        refine ⟨by simp [State.setPc], fun _ => ?_, by simp [State.setPc]⟩
        rcases (seq_le_deq h (Nat.le_of_eq hpc) hlt).2 with e | e
        · exact Or.inl e
        · exact Or.inr (held_set ht rfl (by simp [holdsE]) e)
      · simp [State.setPc]
    | dDestroyed v pos =>
      simp only [stepPc, Option.some.injEq] at hs; subst hs
      refine ⟨by simp [State.setPc], by simp [State.setPc], ?_⟩
      intro w hw
      simp only [State.setPc, Event.deqOk.injEq] at hw
      exact ⟨pos, by simp [State.setPc, hw]⟩
    | sStored v pos =>
      simp only [stepPc, Option.some.injEq] at hs; subst hs
      refine ⟨by simp [State.setPc], by simp [State.setPc], ?_⟩
      intro w hw
      simp only [State.setPc, Event.deqOk.injEq] at hw
      exact ⟨pos, by simp [State.setPc, hw]⟩
    | eReady x pos | dReady pos | dClaimed pos | sReady pos =>
      simp only [stepPc] at hs
      split at hs <;> simp only [Option.some.injEq] at hs <;> subst hs <;> simp [State.setPc]
    | _ => simp only [stepPc, Option.some.injEq, reduceCtorEq] at hs <;> subst hs <;> simp [State.setPc]

/-- C08. `try_enqueue` fails only if `capacity` elements are inside, counting an element whose dequeue is still
running; `try_dequeue` and `try_dequeue_sc` fail only if the queue is empty or the enqueue of the oldest element is
still running. -/
theorem mpmc_failure_reports (s : State α) (h : Reachable Init step s) :
    (s.ev = .enqFailed → s.enqPos = s.deqPos + s.cap ∨
      (s.cap ≤ s.enqPos ∧ DequeueInProgress s (s.enqPos - s.cap))) ∧
    (s.ev = .deqFailed → s.enqPos = s.deqPos ∨ EnqueueInProgress s s.deqPos) := by
  cases h with
  | init hi _ => obtain ⟨k, n, sc, _, rfl⟩ := hi; simp
  | step hr hs _ => exact ⟨(ev_spec (inv_reach hr) hs).1, (ev_spec (inv_reach hr) hs).2.1⟩

/-- C08. With no other call running, failure reports are exact. -/
theorem mpmc_failure_exact (s : State α) (h : Reachable Init step s) (hq : ∀ pc ∈ s.th, pc = .idle) :
    (s.ev = .enqFailed → s.enqPos = s.deqPos + s.cap) ∧ (s.ev = .deqFailed → s.enqPos = s.deqPos) := by
  have hr := mpmc_failure_reports s h
  refine ⟨fun he => ?_, fun he => ?_⟩
  · rcases hr.1 he with e | ⟨_, i, pc, h1, h2⟩
    · exact e
    · rw [hq pc (List.mem_of_getElem? h1)] at h2; simp [holdsD] at h2
  · rcases hr.2 he with e | ⟨i, pc, h1, h2⟩
    · exact e
    · rw [hq pc (List.mem_of_getElem? h1)] at h2; simp [holdsE] at h2

/-- C08. The observers `empty` and `is_full` with both loads at one instant and no call running. -/
theorem mpmc_observers (s : State α) (h : Reachable Init step s) (hq : ∀ pc ∈ s.th, pc = .idle) :
    (isEmpty s = true ↔ s.enqPos = s.deqPos) ∧ (isFull s = true ↔ s.enqPos = s.deqPos + s.cap) := by
  have hi := inv_reach h
  have hle := hi.le
  have hle2 := hi.le2
  have hcap := cap_ge hi.geo
  have hno : ∀ (f : Pc α → Option Nat) (p : Nat), f .idle = none → ¬ Held s f p := by
    rintro f p hf ⟨i, pc, h1, h2⟩
    rw [hq pc (List.mem_of_getElem? h1), hf] at h2; simp at h2
  simp only [isEmpty, isFull, decide_eq_true_eq]
  refine ⟨⟨fun he => ?_, fun he => ?_⟩, ⟨fun he => ?_, fun he => ?_⟩⟩
  · rcases (seq_le_deq hi (Nat.le_refl _) he).2 with e | e
    · exact e
    · exact absurd e (hno _ _ rfl)
  · have hc := (hi.cells s.deqPos (by omega) (by omega)).1 (by omega)
    rcases hc with ⟨a, _⟩ | ⟨_, a, _⟩ <;> omega
  · rcases (seq_lt_enq hi (Nat.le_refl _) he).2 with e | ⟨_, e⟩
    · exact e
    · exact absurd e (hno _ _ rfl)
  · have hc := (hi.cells s.enqPos (by omega) (by omega)).2 (by omega)
    rcases hc with ⟨a, _⟩ | ⟨a, _⟩ <;> omega

/-- Order of results in the single-consumer configuration. -/
structure Inv2 (s : State α) : Prop where
  ord : ∀ c, s.sc = some c → s.got.map (·.1) = List.range s.got.length
  last : ∀ (i : Nat) (v : α) (p : Nat), s.th[i]? = some (.sStored v p) → s.deqPos = p + 1

theorem inv2_step {s s' : State α} {a : Act α} (h : Inv s) (h2 : Inv2 s) (hs : step s a = some s') :
    Inv2 s' := by
  have keep : ∀ (t : Nat) (pc' : Pc α) (ev : Event α), (∀ v p, pc' ≠ .sStored v p) → Inv2 (s.setPc t pc' ev) := by
    intro t pc' ev hn
    refine ⟨h2.ord, fun i v p hi => ?_⟩
    rcases get_set hi with ⟨_, e⟩ | ⟨_, hi⟩
    · exact absurd e.symm (hn v p)
    · exact h2.last i v p hi
  cases a with
  | enqueue t x =>
    unfold step at hs; simp only at hs
    split at hs <;> simp only [Option.some.injEq, reduceCtorEq] at hs; subst hs; exact keep _ _ _ (by simp)
  | dequeue t =>
    unfold step at hs; simp only at hs
    split at hs
    · split at hs
      · simp only [Option.some.injEq] at hs; subst hs; exact keep _ _ _ (by simp)
      · split at hs <;> simp only [Option.some.injEq, reduceCtorEq] at hs; subst hs; exact keep _ _ _ (by simp)
    · simp at hs
  | casFail t =>
    unfold step at hs; simp only at hs
    split at hs <;> simp only [Option.some.injEq, reduceCtorEq] at hs <;> subst hs <;> exact keep _ _ _ (by simp)
  | go t =>
    unfold step at hs; simp only at hs
    split at hs
    case h_2 => simp at hs
    rename_i pc ht
    have hpc := h.pcs t pc ht
    cases pc with
    | idle => simp [stepPc] at hs
    | eLoaded x pos | dLoaded pos =>
      simp only [stepPc] at hs
      split at hs
      · simp only [Option.some.injEq] at hs; subst hs; exact keep _ _ _ (by simp)
      · split at hs <;> simp only [Option.some.injEq] at hs <;> subst hs <;> exact keep _ _ _ (by simp)
    | sLoaded pos =>
      simp only [stepPc] at hs
      split at hs <;> simp only [Option.some.injEq] at hs <;> subst hs <;> exact keep _ _ _ (by simp)
    | eReady x pos =>
      simp only [stepPc] at hs
      split at hs <;> simp only [Option.some.injEq] at hs <;> subst hs
      · have := keep t (.eClaimed x pos) .none (by simp); exact ⟨this.ord, this.last⟩
      · exact keep _ _ _ (by simp)
    | dReady pos =>
      have hsc := h.modeD _ _ ht rfl
      simp only [stepPc] at hs
      split at hs <;> simp only [Option.some.injEq] at hs <;> subst hs
      · refine ⟨fun c hc => ?_, fun i v p hi => ?_⟩
        · simp only [State.setPc] at hc; rw [hsc] at hc; simp at hc
        · rcases get_set hi with ⟨_, e⟩ | ⟨_, hi⟩
          · simp at e
          · have := h.modeS _ _ hi rfl; rw [hsc] at this; simp at this
      · exact keep _ _ _ (by simp)
    | dClaimed pos =>
      simp only [stepPc] at hs
      split at hs <;> simp only [Option.some.injEq] at hs <;> subst hs
      · exact keep _ _ _ (by simp)
      · exact ⟨h2.ord, h2.last⟩
    | sReady pos =>
      simp only [stepPc] at hs
      split at hs <;> simp only [Option.some.injEq] at hs <;> subst hs
      · exact keep _ _ _ (by simp)
      · exact ⟨h2.ord, h2.last⟩
    | eStart x | dStart | sStart =>
      simp only [stepPc, Option.some.injEq] at hs; subst hs; exact keep _ _ _ (by simp)
    | eClaimed x pos =>
      simp only [stepPc, Option.some.injEq] at hs; subst hs
      have := keep t (.eBuilt x pos) .none (by simp); exact ⟨this.ord, this.last⟩
    | eBuilt x pos =>
      simp only [stepPc, Option.some.injEq] at hs; subst hs
      have := keep t .idle .enqOk (by simp); exact ⟨this.ord, this.last⟩
    | dMoved v pos =>
      simp only [stepPc, Option.some.injEq] at hs; subst hs
      have := keep t (.dDestroyed v pos) .none (by simp); exact ⟨this.ord, this.last⟩
    | sMoved v pos =>
      simp only [stepPc, Option.some.injEq] at hs; subst hs
      have := keep t (.sDestroyed v pos) .none (by simp); exact ⟨this.ord, this.last⟩
    | dDestroyed v pos =>
      have hsc := h.modeD _ _ ht rfl
      simp only [stepPc, Option.some.injEq] at hs; subst hs
      have := keep t .idle (.deqOk v) (by simp)
      refine ⟨fun c hc => ?_, this.last⟩
      simp only [State.setPc] at hc; rw [hsc] at hc; simp at hc
    | sDestroyed v pos =>
      simp only [stepPc, Option.some.injEq] at hs; subst hs
      refine ⟨h2.ord, fun i w p hi => ?_⟩
      rcases get_set hi with ⟨_, e⟩ | ⟨hne, hi⟩
      · simp only [Pc.sStored.injEq] at e; simp [e.2]
      · have e1 := h.modeS _ _ hi rfl
        have e2 := h.modeS _ _ ht rfl
        rw [e1] at e2; simp only [Option.some.injEq] at e2; exact absurd e2 hne
    | sStored v pos =>
      simp only [stepPc, Option.some.injEq] at hs; subst hs
      have := keep t .idle (.deqOk v) (by simp)
      refine ⟨fun c hc => ?_, this.last⟩
      simp only [State.setPc] at hc
      have ho := h2.ord c hc
      have hlast := h2.last _ _ _ ht
      have hlen : s.got.length = pos := by
        have hmem : ∀ x, x < s.got.length ↔ x < pos := by
          intro x
          have hx : x ∈ s.got.map (·.1) ↔ x < s.got.length := by rw [ho]; simp
          rw [← hx]
          refine ⟨fun hm => ?_, fun hlt => ?_⟩
          · obtain ⟨e, he, h1⟩ := List.mem_map.mp hm
            have h3 := (h.gotOk e he).1
            have h4 := h.gotHold _ _ pos ht rfl
            have : x ≠ pos := fun e => h4 (e ▸ hm)
            omega
          · rcases h.gotAll x (by omega) with h | ⟨i, pi, h3, h4⟩
            · exact h
            · exfalso
              have hS : isS pi = true := by
                have hd : isD pi = false := by
                  cases hdd : isD pi with
                  | false => rfl
                  | true => have := h.modeD _ _ h3 hdd; rw [hc] at this; simp at this
                cases pi <;> simp [holdsD, isD] at h4 hd <;> rfl
              have e1 := h.modeS _ _ h3 hS
              have e2 := h.modeS _ _ ht rfl
              rw [e1] at e2
              simp only [Option.some.injEq] at e2
              subst e2
              rw [ht] at h3
              simp only [Option.some.injEq] at h3
              subst h3
              simp only [holdsD, Option.some.injEq] at h4
              omega
        have h5 := hmem pos
        have h6 := hmem s.got.length
        omega
      simp only [List.map_append, List.map_cons, List.map_nil, List.length_append, List.length_singleton]
      rw [List.range_succ, ho, hlen]

/-- C08. With a single consumer using `try_dequeue_sc`, the results are a prefix of the enqueued values, in order. -/
theorem mpmc_single_consumer_fifo (s : State α) (h : Reachable Init step s) (c : Nat) (hc : s.sc = some c) :
    ∃ rest, s.enq = s.got.map (·.2) ++ rest := by
  have hi : Inv s ∧ Inv2 s := by
    refine Reachable.invariant (fun s => Inv s ∧ Inv2 s) (fun s hi => ⟨inv_init hi, ?_⟩)
      (fun _ _ _ hI hs => ⟨inv_step hI.1 hs, inv2_step hI.1 hI.2 hs⟩) h
    obtain ⟨k, n, sc, _, rfl⟩ := hi
    refine ⟨fun _ _ => by simp, fun i v p hi => ?_⟩
    have := replicate_get hi
    simp at this
  have ho := hi.2.ord c hc
  have key : s.got.map (·.2) = s.enq.take s.got.length := by
    apply List.ext_getElem?
    intro i
    rcases Nat.lt_or_ge i s.got.length with hlt | hge
    · have hg : s.got[i]? = some s.got[i] := List.getElem?_eq_getElem hlt
      have h1 : (s.got.map (·.1))[i]? = some i := by rw [ho]; simp [hlt]
      rw [List.getElem?_map, hg] at h1
      simp only [Option.map_some, Option.some.injEq] at h1
      have h2 := (hi.1.gotOk s.got[i] (List.getElem_mem hlt)).2
      rw [h1] at h2
      rw [List.getElem?_map, hg, List.getElem?_take_of_lt hlt, h2]
      rfl
    · rw [List.getElem?_eq_none (by simpa using hge), List.getElem?_eq_none (by simp; omega)]
  exact ⟨s.enq.drop s.got.length, by rw [key]; exact (List.take_append_drop _ _).symm⟩

/-! Concrete interleavings: two threads, capacity 2. Thread 0 enqueues 7 and 8 and fails on a third while
thread 1 dequeues; an enqueue stalled after its claim makes the queue look empty. -/
example : ∃ s : State Nat, Reachable Init step s ∧ s.enq = [7, 8] ∧ s.got = [(0, 7)] ∧ s.ev = .deqOk 7 :=
  ⟨_, (Reachable.exec (s := { mask := 1, sc := none, seq := fun i => i, th := [.idle, .idle] })
      (.init ⟨1, 2, none, by decide, rfl⟩ trivial)
      [.enqueue 0 7, .go 0, .go 0, .casFail 0, .go 0, .go 0, .go 0, .go 0, .go 0, .enqueue 0 8, .go 0, .go 0,
       .dequeue 1, .go 1, .go 1, .go 1, .go 0, .go 1, .go 0, .go 1, .go 0, .go 1] (by rfl)), rfl, rfl, rfl⟩
example : ∃ s : State Nat, Reachable Init step s ∧ s.enqPos = s.deqPos + s.cap ∧ s.ev = .enqFailed :=
  ⟨_, (Reachable.exec (s := { mask := 1, sc := none, seq := fun i => i, th := [.idle, .idle] })
      (.init ⟨1, 2, none, by decide, rfl⟩ trivial)
      [.enqueue 0 7, .go 0, .go 0, .go 0, .go 0, .go 0, .enqueue 0 8, .go 0, .go 0, .go 0, .go 0, .go 0,
       .enqueue 0 9, .go 0, .go 0] (by rfl)), rfl, rfl⟩
example : ∃ s : State Nat, Reachable Init step s ∧ s.enqPos = 1 ∧ s.deqPos = 0 ∧ s.ev = .deqFailed :=
  ⟨_, (Reachable.exec (s := { mask := 1, sc := none, seq := fun i => i, th := [.idle, .idle] })
      (.init ⟨1, 2, none, by decide, rfl⟩ trivial)
      [.enqueue 0 7, .go 0, .go 0, .go 0, .go 0, .dequeue 1, .go 1, .go 1] (by rfl)), rfl, rfl, rfl⟩
example : ∃ s : State Nat, Reachable Init step s ∧ s.sc = some 1 ∧ s.got = [(0, 7)] :=
  ⟨_, (Reachable.exec (s := { mask := 1, sc := some 1, seq := fun i => i, th := [.idle, .idle] })
      (.init ⟨1, 2, some 1, by decide, rfl⟩ trivial)
      [.enqueue 0 7, .go 0, .go 0, .go 0, .go 0, .go 0, .dequeue 1, .go 1, .go 1, .go 1, .go 1, .go 1, .go 1]
      (by rfl)), rfl, rfl⟩

end Verif.Mpmc
