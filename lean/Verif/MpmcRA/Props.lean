import Verif.MpmcRA.Spec
import Verif.MpmcRA.Shape
/-! C88: the bounded queue over the memory of C++ threads. -/
namespace Verif.MpmcRA
open Verif.Common Verif.RelAcq
variable {α : Type}

/-- C88: whatever messages the loads read: no two dequeues return the same element; the dequeue at position `p` returns the value of the enqueue at position
`p`; a claimed element was returned or its dequeue is running; at most `capacity` elements are inside; no access to the storage of a cell races with
another, and none finds it in the wrong state. -/
theorem C88_fifo {s : State α} (h : Reached theCode s) :
    (s.q.got.map (·.1)).Nodup ∧
    (∀ p v, (p, v) ∈ s.q.got → s.q.enq[p]? = some v ∧ p < s.q.deqPos) ∧
    (∀ p, p < s.q.deqPos → (∃ v, (p, v) ∈ s.q.got) ∨ Mpmc.DequeueInProgress s.q p) ∧
    s.q.enq.length ≤ s.q.deqPos + s.q.cap ∧ s.q.deqPos ≤ s.q.enq.length ∧ s.q.bad = false ∧ s.race = false := by
  have hr := inv_reach h
  have hi := hr.q
  refine ⟨hi.gotNodup, fun p v hp => ⟨(hi.gotOk _ hp).2, (hi.gotOk _ hp).1⟩, fun p hp => ?_, by rw [hi.len]; exact hi.le2, by rw [hi.len]; exact hi.le, hi.bad, hr.race⟩
  rcases hi.gotAll p hp with h | h
  · obtain ⟨e, he, rfl⟩ := List.mem_map.mp h
    exact Or.inl ⟨e.2, he⟩
  · exact Or.inr h

/-- C88: the results of a single consumer are the first values enqueued, in order. -/
theorem C88_single_consumer {s : State α} (h : Reached theCode s) (c : Nat) (hc : s.q.sc = some c) : ∃ rest, s.q.enq = s.q.got.map (·.2) ++ rest := by
  obtain ⟨hr, h2⟩ := inv2_reach h
  have hi := hr.q
  have ho := h2.ord c hc
  have key : s.q.got.map (·.2) = s.q.enq.take s.q.got.length := by
    apply List.ext_getElem?
    intro i
    rcases Nat.lt_or_ge i s.q.got.length with hlt | hge
    · have hg : s.q.got[i]? = some s.q.got[i] := List.getElem?_eq_getElem hlt
      have h1 : (s.q.got.map (·.1))[i]? = some i := by rw [ho]; simp [hlt]
      rw [List.getElem?_map, hg] at h1
      simp only [Option.map_some, Option.some.injEq] at h1
      have h2 := (hi.gotOk s.q.got[i] (List.getElem_mem hlt)).2
      rw [h1] at h2
      rw [List.getElem?_map, hg, List.getElem?_take_of_lt hlt, h2]
      rfl
    · rw [List.getElem?_eq_none (by simpa using hge), List.getElem?_eq_none (by simp; omega)]
  exact ⟨s.q.enq.drop s.q.got.length, by rw [key]; exact (List.take_append_drop _ _).symm⟩

/-- C88: a call that returns a value returns the one it records as removed. -/
theorem C88_value {s s' : State α} {a : Act α} (h : Reached theCode s) (hst : step theCode s a = some s') (v : α) (hv : s'.q.ev = .deqOk v) :
    ∃ p, s'.q.got = s.q.got ++ [(p, v)] := by
  have hr := inv_reach h
  rcases shape hr hst with ⟨t, pc', ev, _, h2, e⟩ | ⟨b, hb⟩
  · rw [e] at hv; exact absurd hv (h2 v)
  · exact (Mpmc.ev_spec hr.q hb).2.2 v hv

/-- The value read by a load of a sequence number is at least any the thread knows of. -/
theorem read_ge {s : State α} (h : RInv s) {t i ts n : Nat} {a : Bool} {m : Mem Loc} {x : Msg Loc} (L : Loaded s.m m t (.seq i) a ts x)
    (hk : ∃ ts' y, s.m.msg (.seq i) ts' = some y ∧ n ≤ y.val ∧ ts' ≤ s.m.cur t (.seq i)) : n ≤ x.val := by
  obtain ⟨ts', y, h1, h2, h3⟩ := hk
  have h4 := L.may
  rcases Nat.lt_or_ge ts' ts with hlt | hge
  · have := h.si.mono i ts' y ts x h1 L.src hlt
    omega
  · have : ts' = ts := by omega
    subst this
    rw [L.src] at h1; cases h1; exact h2

/-- C88: a dequeue that tries position `p` does not report an empty queue if the enqueue at `p` happens before. -/
theorem C88_not_empty {s s' : State α} {t ts p : Nat} (h : Reached theCode s) (ht : s.q.th[t]? = some (.dLoaded p) ∨ s.q.th[t]? = some (.sLoaded p))
    (hk : EnqueueKnown s t p) (hst : step theCode s (.go t ts) = some s') : s'.q.ev ≠ .deqFailed := by
  have hr := inv_reach h
  simp only [step] at hst
  rcases ht with ht | ht
  all_goals
    rw [ht] at hst
    simp only [stepPc, withLoad] at hst
    split at hst <;> cases hst
    rename_i v m hl
    obtain ⟨x, L, rfl⟩ := load_facts hl
    have := read_ge hr L hk
  · unfold afterD
    split
    · nofun
    · rw [if_neg (by omega)]; nofun
  · unfold afterS
    rw [if_neg (by omega)]; nofun

/-- C88: an enqueue that tries position `p` does not report a full queue if the dequeue one round before happens before. -/
theorem C88_not_full {s s' : State α} {t ts p : Nat} {x : α} (h : Reached theCode s) (ht : s.q.th[t]? = some (.eLoaded x p))
    (hk : FreeKnown s t p) (hst : step theCode s (.go t ts) = some s') : s'.q.ev ≠ .enqFailed := by
  have hr := inv_reach h
  simp only [step] at hst
  rw [ht] at hst
  simp only [stepPc, withLoad] at hst
  split at hst <;> cases hst
  rename_i v m hl
  obtain ⟨x, L, rfl⟩ := load_facts hl
  have := read_ge hr L hk
  unfold afterE
  split
  · nofun
  · rw [if_neg (by omega)]; nofun

/-- C88: when no value was enqueued at position `p` or later, a dequeue that tries `p` reports an empty queue (it does not try again). -/
theorem C88_empty {s s' : State α} {t ts p : Nat} (h : Reached theCode s) (ht : s.q.th[t]? = some (.dLoaded p) ∨ s.q.th[t]? = some (.sLoaded p))
    (he : s.q.enq.length ≤ p) (hst : step theCode s (.go t ts) = some s') : s'.q.ev = .deqFailed := by
  have hr := inv_reach h
  have hi := hr.q
  have hpd : p ≤ s.q.deqPos := by
    rcases ht with ht | ht
    · exact hi.pcs t _ ht
    · exact Nat.le_of_eq (hi.pcs t _ ht)
  have hle := hi.le
  have hlen := hi.len
  have hcap := Mpmc.cap_ge hi.geo
  have hseq : s.q.seq (s.q.cell p) ≤ p := by
    rcases (hi.cells p (by omega) (by omega)).1 (by omega) with ⟨e, _⟩ | ⟨_, e, _⟩ <;> omega
  simp only [step] at hst
  rcases ht with ht | ht
  all_goals
    rw [ht] at hst
    simp only [stepPc, withLoad] at hst
    split at hst <;> cases hst
    rename_i v m hl
    obtain ⟨x, L, rfl⟩ := load_facts hl
    have := (hr.si.isTop L.src).1
  · unfold afterD
    rw [if_neg (by omega), if_pos (by omega)]; rfl
  · unfold afterS
    rw [if_pos (by omega)]; rfl

/-- C88: when `capacity` values are inside, an enqueue that tries the position after them reports a full queue. -/
theorem C88_full {s s' : State α} {t ts p : Nat} {x : α} (h : Reached theCode s) (ht : s.q.th[t]? = some (.eLoaded x p))
    (he : s.q.enq.length ≤ p) (hf : s.q.deqPos + s.q.cap ≤ p) (hst : step theCode s (.go t ts) = some s') : s'.q.ev = .enqFailed := by
  have hr := inv_reach h
  have hi := hr.q
  have hpd : p ≤ s.q.enqPos := hi.pcs t _ ht
  have hlen := hi.len
  have hcap := Mpmc.cap_ge hi.geo
  have hseq : s.q.seq (s.q.cell p) < p := by
    rcases (hi.cells p (by omega) (by omega)).2 hf with ⟨e, _⟩ | ⟨e, _⟩ <;> omega
  simp only [step] at hst
  rw [ht] at hst
  simp only [stepPc, withLoad] at hst
  split at hst <;> cases hst
  rename_i v m hl
  obtain ⟨x, L, rfl⟩ := load_facts hl
  have := (hr.si.isTop L.src).1
  unfold afterE
  rw [if_neg (by omega), if_pos (by omega)]; rfl

/-- To show what a run of two threads on a queue of two cells leads to. -/
theorem witness (c : Cfg) (sc : Option Nat) (acts : List (Act Nat)) (p : State Nat → Bool)
    (h : (exec (step c) { q := { mask := 1, sc := sc, seq := fun i => i, th := [.idle, .idle] }, m := Mem.start first } acts).any p = true) :
    ∃ s : State Nat, Reached c s ∧ p s = true := by
  cases he : exec (step c) { q := { mask := 1, sc := sc, seq := fun i => i, th := [.idle, .idle] }, m := Mem.start first } acts with
  | none => rw [he] at h; cases h
  | some s =>
    rw [he] at h
    exact ⟨s, Reachable.exec (.init ⟨_, ⟨1, 2, sc, by decide, rfl⟩, rfl⟩ trivial) acts he, by simpa using h⟩

/-- Thread 0 enqueues 7 and 8, thread 1 dequeues 7. -/
def passOne : List (Act Nat) :=
  [.enqueue 0 7, .go 0 0, .go 0 0, .go 0 0, .go 0 0, .go 0 1, .enqueue 0 8, .go 0 1, .go 0 0, .go 0 1, .go 0 0, .go 0 1,
   .dequeue 1, .go 1 0, .go 1 1, .go 1 0, .go 1 0, .go 1 0, .go 1 2]

/-- The same with a single consumer. -/
def passOneSc : List (Act Nat) :=
  [.enqueue 0 7, .go 0 0, .go 0 0, .go 0 0, .go 0 0, .go 0 1, .enqueue 0 8, .go 0 1, .go 0 0, .go 0 1, .go 0 0, .go 0 1,
   .dequeue 1, .go 1 0, .go 1 1, .go 1 0, .go 1 0, .go 1 4, .go 1 2]

/-- Thread 0 uses the first cell again. -/
def again : List (Act Nat) := [.enqueue 0 9, .go 0 2, .go 0 2, .go 0 2, .go 0 0]

-- three values enqueued, one dequeued, the first cell used twice
example : ∃ s : State Nat, Reached theCode s ∧ decide (s.q.enq = [7, 8, 9] ∧ s.q.got = [(0, 7)] ∧ s.q.ev = .enqOk) = true :=
  witness theCode none (passOne ++ again ++ [.go 0 3]) _ (by decide +kernel)
example : ∃ s : State Nat, Reached theCode s ∧ decide (s.q.enq = [7, 8, 9] ∧ s.q.got = [(0, 7)] ∧ s.q.ev = .enqOk ∧ s.q.sc = some 1) = true :=
  witness theCode (some 1) (passOneSc ++ again ++ [.go 0 3]) _ (by decide +kernel)
-- a dequeue may report an empty queue after the enqueue when it does not know of it
example : ∃ s : State Nat, Reached theCode s ∧ decide (s.q.enq = [7, 8] ∧ s.q.got = [] ∧ s.q.ev = .deqFailed) = true :=
  witness theCode none (passOne.take 12 ++ [.dequeue 1, .go 1 0, .go 1 0]) _ (by decide +kernel)
-- an enqueue may report a full queue after a dequeue when it does not know of it
example : ∃ s : State Nat, Reached theCode s ∧ decide (s.q.enq = [7, 8] ∧ s.q.got = [(0, 7)] ∧ s.q.ev = .enqFailed) = true :=
  witness theCode none (passOne ++ [.enqueue 0 9, .go 0 2, .go 0 1]) _ (by decide +kernel)
-- the hypotheses of `C88_not_empty` and `C88_not_full`: the thread that enqueued knows, and so does one that has read the sequence number
example : ∃ s : State Nat, Reached theCode s ∧ decide (s.q.th[0]? = some (.dLoaded 0) ∧ (s.m.msg (.seq 0) 1).any (fun x => decide (0 + 1 ≤ x.val)) = true ∧
    1 ≤ s.m.cur 0 (.seq 0) ∧ s.q.cell 0 = 0) = true :=
  witness theCode none (passOne.take 12 ++ [.dequeue 0, .go 0 0]) _ (by decide +kernel)
example : ∃ s : State Nat, Reached theCode s ∧ decide (s.q.th[1]? = some (Mpmc.Pc.eLoaded 9 2) ∧ (s.m.msg (.seq 0) 2).any (fun x => decide (2 ≤ x.val)) = true ∧
    2 ≤ s.m.cur 1 (.seq 0) ∧ s.q.cell 2 = 0) = true :=
  witness theCode none (passOne ++ [.enqueue 1 9, .go 1 2]) _ (by decide +kernel)

/-- C88: each of the four orders is needed, with `try_dequeue` and with `try_dequeue_sc`: with a relaxed access in place of any of them, accesses to the
storage of a cell race. -/
theorem C88_orders_needed (c : Cfg) (hc : c ≠ theCode) (single : Bool) :
    ∃ s : State Nat, Reached c s ∧ (s.race && s.q.sc.isSome == single) = true := by
  cases single with
  | false =>
    refine witness c none (passOne ++ again) _ ?_
    obtain ⟨a, b, d, e⟩ := c
    cases a <;> cases b <;> cases d <;> cases e <;> first | exact absurd rfl hc | decide +kernel
  | true =>
    refine witness c (some 1) (passOneSc ++ again) _ ?_
    obtain ⟨a, b, d, e⟩ := c
    cases a <;> cases b <;> cases d <;> cases e <;> first | exact absurd rfl hc | decide +kernel

/-- A dequeue of each kind tries an empty queue; an enqueue tries a full one. -/
example : (∃ s : State Nat, Reached theCode s ∧ s.q.th[1]? = some (.dLoaded 0) ∧ s.q.enq.length ≤ 0) ∧
    (∃ s : State Nat, Reached theCode s ∧ s.q.th[1]? = some (.sLoaded 0) ∧ s.q.enq.length ≤ 0) ∧
    (∃ s : State Nat, Reached theCode s ∧ (∃ x, s.q.th[1]? = some (.eLoaded x 2)) ∧ s.q.enq.length ≤ 2 ∧ s.q.deqPos + s.q.cap ≤ 2) := by
  refine ⟨?_, ?_, ?_⟩
  · obtain ⟨s, h, hp⟩ := witness theCode none [.dequeue 1, .go 1 0] (fun s => decide (s.q.th[1]? = some (Mpmc.Pc.dLoaded 0)) && decide (s.q.enq.length ≤ 0)) (by decide +kernel)
    simp only [Bool.and_eq_true, decide_eq_true_eq] at hp
    exact ⟨s, h, hp⟩
  · obtain ⟨s, h, hp⟩ := witness theCode (some 1) [.dequeue 1, .go 1 0] (fun s => decide (s.q.th[1]? = some (Mpmc.Pc.sLoaded 0)) && decide (s.q.enq.length ≤ 0)) (by decide +kernel)
    simp only [Bool.and_eq_true, decide_eq_true_eq] at hp
    exact ⟨s, h, hp⟩
  · obtain ⟨s, h, hp⟩ := witness theCode none
      [.enqueue 0 7, .go 0 0, .go 0 0, .go 0 0, .go 0 0, .go 0 1, .enqueue 0 8, .go 0 1, .go 0 0, .go 0 1, .go 0 0, .go 0 1, .enqueue 1 9, .go 1 2]
      (fun s => decide (s.q.th[1]? = some (Mpmc.Pc.eLoaded 9 2)) && decide (s.q.enq.length ≤ 2) && decide (s.q.deqPos + s.q.cap ≤ 2)) (by decide +kernel)
    simp only [Bool.and_eq_true, decide_eq_true_eq] at hp
    exact ⟨s, h, ⟨9, hp.1.1⟩, hp.1.2, hp.2⟩

end Verif.MpmcRA
