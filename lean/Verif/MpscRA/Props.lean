import Verif.MpscRA.Inv
import Verif.Mpsc.Props
/-! C89: the intrusive queue over the memory of C++ threads. -/
namespace Verif.MpscRA
open Verif.Common Verif.RelAcq

/-- C89, partial: with a release store in `store_next`, which the code does not have (`C89_code_fails`), whatever messages the loads read: the popped nodes are the first
pushed ones, in the order of the exchanges of the tail; no link of a client's node is touched; the contents of a node as written before the push are
what the consumer reads, without a race. -/
theorem C89_fifo_partial {s : State} (h : Reached repaired s) : (∃ rest, s.q.pushed = s.q.popped ++ rest) ∧ s.q.bad = false ∧ s.race = false :=
  have hr := inv_reach h
  ⟨⟨_, hr.q.log⟩, hr.q.bad, hr.race⟩

theorem ev_load {s s' : State} (h : RInv s) {ts : Nat} (hst : stepC repaired s ts s.q.cons = some s') :
    (∀ x, s'.q.ev = .item x → s'.q.popped = s.q.popped ++ [x] ∧ s'.q.client x = true) ∧
    (s'.q.ev = .null true → known s' ≤ s'.q.popped.length) ∧
    (s'.q.ev = .null false → s'.q.pushed ≠ s'.q.popped ∧ s'.q.strong = false) := by
  have hcon := h.q.con
  unfold Mpsc.CInv at hcon
  have hin := Mpsc.head_mem h.q
  have ne0 : ∀ x, x ∈ s.q.chain → x ≠ 0 → s.q.pushed ≠ s.q.popped := by
    intro x hx hx0 e
    have := (Mpsc.log_empty h.q).1 e
    rw [this] at hx
    exact hx0 (by simpa using hx)
  have ne1 : ∀ x, x ∈ s.q.chain → x ≠ s.q.head → s.q.pushed ≠ s.q.popped := by
    intro x hx hx0 e
    have := (Mpsc.log_empty h.q).1 e
    rw [this] at hx hin
    exact hx0 ((by simpa using hx : x = 0).trans (by simpa using hin : s.q.head = 0).symm)
  have retry : ∀ q : Mpsc.State, q.pushed = s.q.pushed → q.popped = s.q.popped → s.q.pushed ≠ s.q.popped →
      (∀ x, q.retry.ev ≠ .item x) ∧ q.retry.ev ≠ .null true ∧ (q.retry.ev = .null false → q.retry.pushed ≠ q.retry.popped ∧ q.retry.strong = false) := by
    intro q h1 h2 h3
    unfold Mpsc.State.retry
    split
    · exact ⟨nofun, nofun, nofun⟩
    · refine ⟨nofun, nofun, fun _ => ⟨?_, by simpa using ‹¬ q.strong = true›⟩⟩
      show q.pushed ≠ q.popped
      rw [h1, h2]; exact h3
  have del : ∀ (m : Mem Loc) (n : Nat), (∀ x, (deliver { s with m := m } n).q.ev = .item x →
        (deliver { s with m := m } n).q.popped = s.q.popped ++ [x] ∧ (deliver { s with m := m } n).q.client x = true) ∧
      ((deliver { s with m := m } n).q.ev = .null true → known (deliver { s with m := m } n) ≤ (deliver { s with m := m } n).q.popped.length) ∧
      ((deliver { s with m := m } n).q.ev = .null false → (deliver { s with m := m } n).q.pushed ≠ (deliver { s with m := m } n).q.popped ∧
        (deliver { s with m := m } n).q.strong = false) := by
    intro m n
    refine ⟨fun x hx => ?_, nofun, nofun⟩
    have hx : Mpsc.Event.item s.q.head = .item x := hx
    cases hx
    exact ⟨rfl, upd_same _ _ _⟩
  cases hc : s.q.cons with
  | idle => rw [hc] at hst; cases hst
  | load =>
    rw [hc] at hst
    simp only [stepC, loadNext] at hst
    split at hst <;> cases hst
    rename_i v m hl
    cases dec v with
    | none => unfold afterLoad; simp only; split <;> exact ⟨nofun, nofun, nofun⟩
    | some n =>
      unfold afterLoad; simp only
      split
      · exact ⟨nofun, nofun, nofun⟩
      · exact del m n
  | load2 =>
    rw [hc] at hst
    simp only [stepC, loadNext] at hst
    split at hst <;> cases hst
    rename_i v m hl
    cases dec v with
    | none => exact ⟨nofun, nofun, nofun⟩
    | some n => exact del m n
  | load3 =>
    rw [hc] at hst
    simp only [hc] at hcon
    simp only [stepC, loadNext] at hst
    split at hst <;> cases hst
    rename_i v m hl
    cases dec v with
    | none =>
      obtain ⟨r1, r2, r3⟩ := retry (s.q.touch s.q.head) rfl rfl (ne0 _ hin hcon)
      exact ⟨fun x hx => absurd hx (r1 x), fun hx => absurd hx r2, r3⟩
    | some n => exact del m n
  | tailA =>
    rw [hc] at hst
    simp only [hc] at hcon
    simp only [stepC, loadTail] at hst
    split at hst <;> cases hst
    rename_i v m hl
    obtain ⟨y, L, rfl⟩ := load_facts hl
    obtain ⟨hm1, hm2⟩ := h.r.t.inv ts y L.src (Nat.le_trans h.r.head.tail L.may)
    unfold afterTailA
    split
    · rename_i e
      have e : y.val = s.q.head := e
      refine ⟨nofun, fun _ => ?_, nofun⟩
      show pushes m (m.cur 0 .tail + 1) ≤ s.q.popped.length
      have hcur : m.cur 0 .tail ≤ ts := by
        rw [L.cur]
        show max (max (s.m.cur 0 .tail) (single Loc.tail ts .tail)) 0 ≤ ts
        rw [single_same]
        have := L.may
        omega
      have h1 := pushes_mono m (show m.cur 0 .tail + 1 ≤ ts + 1 by omega)
      rw [pushes_succ m ts] at h1
      have h2 : isPush m ts = false := by
        unfold isPush
        rw [L.msg, L.src]
        simp [e, hcon]
      rw [h2] at h1
      have h3 : pushes m ts = s.q.popped.length := by
        rw [← h.r.t.cnt, ← hm2, e]
        exact pushes_congr (fun ts _ => by rw [L.msg])
      simp only [Bool.false_eq_true, if_false] at h1
      omega
    · rename_i e
      obtain ⟨r1, r2, r3⟩ := retry s.q rfl rfl (ne1 _ hm1 e)
      exact ⟨fun x hx => absurd hx (r1 x), fun hx => absurd hx r2, r3⟩
  | tailB =>
    rw [hc] at hst
    simp only [hc] at hcon
    simp only [stepC, loadTail] at hst
    split at hst <;> cases hst
    unfold afterTailB
    split
    · exact ⟨nofun, nofun, nofun⟩
    · obtain ⟨r1, r2, r3⟩ := retry s.q rfl rfl (ne0 _ hin hcon)
      exact ⟨fun x hx => absurd hx (r1 x), fun hx => absurd hx r2, r3⟩
  | pushReset => rw [hc] at hst; simp only [stepC, doReset] at hst; split at hst <;> cases hst; exact ⟨nofun, nofun, nofun⟩
  | pushSwap => rw [hc] at hst; simp only [stepC, doSwap] at hst; split at hst <;> cases hst; exact ⟨nofun, nofun, nofun⟩
  | pushLink a => rw [hc] at hst; simp only [stepC, doLink] at hst; split at hst <;> cases hst; exact ⟨nofun, nofun, nofun⟩

theorem ev_other {s s' : State} {a : Act} (ha : ∀ ts, a ≠ .c ts) (hst : step repaired s a = some s') : s'.q.ev = .none := by
  cases a with
  | push t x =>
    simp only [step, Mpsc.step] at hst
    split at hst
    · cases hst
    · rename_i q hq
      cases hst
      split at hq
      · split at hq <;> cases hq; rfl
      · cases hq
  | go t ts =>
    simp only [step] at hst
    split at hst
    · rename_i pc _
      cases pc <;> simp only [stepP, doReset, doSwap, doLink] at hst
      · cases hst
      all_goals split at hst <;> cases hst; rfl
    · cases hst
  | pop strong =>
    simp only [step, Mpsc.step] at hst
    split at hst
    · cases hst
    · rename_i q hq
      cases hst
      split at hq <;> cases hq; rfl
  | c ts => exact absurd rfl (ha ts)
  | scribble u x v ts =>
    simp only [step, doScribble] at hst
    split at hst
    · split at hst <;> cases hst; rfl
    · cases hst

/-- C89, partial as above: a call that returns a node returns the next one pushed, and the node is the client's again. -/
theorem C89_value_partial {s s' : State} {a : Act} (h : Reached repaired s) (hst : step repaired s a = some s') (x : Nat) (hx : s'.q.ev = .item x) :
    s'.q.popped = s.q.popped ++ [x] ∧ s'.q.client x = true := by
  by_cases ha : ∃ ts, a = .c ts
  · obtain ⟨ts, rfl⟩ := ha; exact (ev_load (inv_reach h) hst).1 x hx
  · rw [ev_other (fun ts e => ha ⟨ts, e⟩) hst] at hx; cases hx

/-- C89, partial as above: a call reports an empty queue only if every push whose exchange of the tail happens before was popped. -/
theorem C89_empty_partial {s s' : State} {a : Act} (h : Reached repaired s) (hst : step repaired s a = some s') (hx : s'.q.ev = .null true) :
    known s' ≤ s'.q.popped.length := by
  by_cases ha : ∃ ts, a = .c ts
  · obtain ⟨ts, rfl⟩ := ha; exact (ev_load (inv_reach h) hst).2.1 hx
  · rw [ev_other (fun ts e => ha ⟨ts, e⟩) hst] at hx; cases hx

/-- C89, partial as above: a call that reports "not empty" without a node is right, and it is a `PopWeak`. -/
theorem C89_not_empty_partial {s s' : State} {a : Act} (h : Reached repaired s) (hst : step repaired s a = some s') (hx : s'.q.ev = .null false) :
    s'.q.pushed ≠ s'.q.popped ∧ s'.q.strong = false := by
  by_cases ha : ∃ ts, a = .c ts
  · obtain ⟨ts, rfl⟩ := ha; exact (ev_load (inv_reach h) hst).2.2 hx
  · rw [ev_other (fun ts e => ha ⟨ts, e⟩) hst] at hx; cases hx

/-- Node 1 has the link `some 5` at first, the others none. -/
def links (x : Nat) : Option Nat := if x = 1 then some 5 else none

def start : State := { q := { next := links, th := [.idle, .idle] }, m := Mem.start (first links) }

/-- To show what a run of two producers leads to. -/
theorem witness (c : Cfg) (acts : List Act) (p : State → Bool) (h : (exec (step c) start acts).any p = true) : ∃ s : State, Reached c s ∧ p s = true := by
  cases he : exec (step c) start acts with
  | none => rw [he] at h; cases h
  | some s =>
    rw [he] at h
    exact ⟨s, Reachable.exec (.init ⟨2, links, rfl, rfl⟩ trivial) acts he, by simpa using h⟩

/-- Producer 0 pushes node 1, producer 1 pushes node 2, the consumer pops node 1. -/
def passOne : List Act :=
  [.push 0 1, .go 0 1, .go 0 0, .go 0 1, .push 1 2, .go 1 1, .go 1 1, .go 1 2, .pop true, .c 1, .c 2]

example : ∃ s : State, Reached repaired s ∧ decide (s.q.pushed = [1, 2] ∧ s.q.popped = [1] ∧ s.q.ev = .item 1) = true :=
  witness repaired passOne _ (by decide +kernel)
-- the stub is pushed to take the last node
example : ∃ s : State, Reached repaired s ∧ decide (s.q.pushed = [1, 2] ∧ s.q.popped = [1, 2] ∧ s.q.ev = .item 2) = true :=
  witness repaired (passOne ++ [.pop true, .c 1, .c 2, .c 2, .c 2, .c 2, .c 2]) _ (by decide +kernel)
-- a call may report an empty queue after a push it does not know of
example : ∃ s : State, Reached repaired s ∧ decide (s.q.pushed = [1] ∧ s.q.popped = [] ∧ known s = 0 ∧ s.q.ev = .null true) = true :=
  witness repaired [.push 0 1, .go 0 1, .go 0 0, .go 0 1, .pop true, .c 0, .c 0] _ (by decide +kernel)
-- a call that reads the new tail, but not yet the link
example : ∃ s : State, Reached repaired s ∧ decide (s.q.pushed = [1] ∧ s.q.popped = [] ∧ known s = 1 ∧ s.q.ev = .null false) = true :=
  witness repaired [.push 0 1, .go 0 1, .go 0 0, .go 0 1, .pop false, .c 0, .c 1] _ (by decide +kernel)

/-- C89: in the code, where `store_next` is relaxed, the consumer may read an old link of a node it was led to, and so return that node and go on to a node nobody pushed. -/
theorem C89_code_fails : ∃ s : State, Reached theCode s ∧ decide (s.q.pushed = [1] ∧ s.q.popped = [1] ∧ s.q.head = 5 ∧ s.race = true) = true :=
  witness theCode [.push 0 1, .go 0 1, .go 0 0, .go 0 1, .pop true, .c 1, .c 0] _ (by decide +kernel)

/-- C89: the acquire load of the link is needed as well. -/
theorem C89_acquire_needed : ∃ s : State, Reached ⟨true, false, true, true⟩ s ∧ decide (s.q.pushed = [1] ∧ s.q.head = 5 ∧ s.race = true) = true :=
  witness _ [.push 0 1, .go 0 1, .go 0 0, .go 0 1, .pop true, .c 1, .c 0] _ (by decide +kernel)

/-- C89: both orders of the exchange are needed (as its comment says): otherwise the link of node 1 can be stored before it is reset, and node 2 is never found. -/
theorem C89_exchange_needed (c : Cfg) (hl : c.linkRel = true ∧ c.linkAcq = true) (hx : c.xAcq = false ∨ c.xRel = false) :
    ∃ s : State, Reached c s ∧ decide (s.q.pushed = [1, 2] ∧ s.q.th = [.idle, .idle] ∧
      (s.m.msg (.next 1) 1).any (fun y => y.val == 3) = true ∧ (s.m.msg (.next 1) 2).any (fun y => y.val == 0) = true ∧ s.nTop 1 = 1) = true := by
  refine witness c [.push 0 1, .go 0 2, .go 0 0, .go 0 1, .push 1 2, .go 1 1, .go 1 1, .go 1 1] _ ?_
  obtain ⟨a, b, d, e⟩ := c
  obtain ⟨h1, h2⟩ := hl
  simp only at h1 h2 hx
  subst h1 h2
  cases d <;> cases e <;> first | (rcases hx with h | h <;> cases h; done) | decide +kernel

end Verif.MpscRA
