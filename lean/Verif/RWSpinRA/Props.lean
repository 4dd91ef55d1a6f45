import Verif.RWSpinRA.Lemmas
import Verif.RWSpin.Props
/-! C90: the reader-writer spin lock over the memory of C++ threads. -/
namespace Verif.RWSpinRA
open Verif.Common Verif.RelAcq
open Verif.RWSpin (Pc Call Writes Reads Upgrades Retreats)

/-- States that can be reached when the accesses have the orders `c`. -/
abbrev Reached (c : Cfg) (s : State) : Prop := Reachable Init (step c) s

theorem inv_reach {s : State} (h : Reached theCode s) : RInv s := Reachable.invariant RInv inv_init inv_step h

/-- C90: accesses to the data that the lock guards do not race: what a holder reads or overwrites happened before, whatever messages the
operations on the lock read. -/
theorem C90_no_race {s : State} (h : Reached theCode s) : s.race = false := (inv_reach h).race

/-- C90: a writer is alone and there is at most one upgradable holder. -/
theorem C90_exclusion {s : State} (h : Reached theCode s) {i j : Nat} :
    (Writes s.q i → Writes s.q j ∨ Reads s.q j ∨ Upgrades s.q j → i = j) ∧ (Upgrades s.q i → Upgrades s.q j → i = j) :=
  ⟨RWSpin.C61_writer_excludes (inv_reach h).q, RWSpin.C61_one_upgrader (inv_reach h).q⟩

/-- C90: what the threads hold can be reached with sequentially consistent operations too (so all that C61 says about states holds here). -/
theorem C90_refines {s : State} (h : Reached theCode s) : Reachable RWSpin.Init RWSpin.step s.q := (inv_reach h).q

/-- C90: `try_lock`, or the attempt of an upgradable holder to become the writer, fails with nobody in the way only if the last operation on the lock
does not happen before: then it has read an old value. -/
theorem C90_fail_only_stale {s s' : State} (h : Reached theCode s) {t ts : Nat} {c : Call} (hst : step theCode s (.fail t c ts) = some s')
    (hnew : s.m.cur t .bits = s.top) :
    (c = .tryLock ∧ ∃ j, Writes s.q j ∨ Upgrades s.q j ∨ Reads s.q j ∨ Retreats s.q j) ∨ (c = .promote ∧ ∃ j, Reads s.q j ∨ Retreats s.q j) := by
  have hr := inv_reach h
  simp only [step] at hst
  split at hst
  · cases hst
  · rename_i p hp
    unfold doFail at hst
    split at hst
    · cases hst
    · rename_i v m hm
      split at hst
      · rename_i he
        obtain ⟨y, L, rfl⟩ := load_facts hm
        have hts : ts = s.top := Nat.le_antisymm (hr.le ts y L.src) (hnew ▸ L.may)
        obtain ⟨z, k1, k2, _⟩ := hr.last
        rw [← hts, L.src] at k1; cases k1
        cases p <;> cases c <;> first | (cases he; done) | skip
        · have he : 0 ≠ y.val := of_decide_eq_true he
          refine Or.inl ⟨rfl, Classical.byContradiction fun hn => ?_⟩
          obtain ⟨_, u, hb, hu⟩ := RWSpin.inv_of hr.q
          have z : ∀ p ∈ s.q.th, p = .idle := fun p hp => by
            obtain ⟨j, hj⟩ := List.getElem?_of_mem hp
            cases p with
            | idle => rfl
            | back => exact absurd ⟨j, Or.inr (Or.inr (Or.inr hj))⟩ hn
            | rd => exact absurd ⟨j, Or.inr (Or.inr (Or.inl hj))⟩ hn
            | up => exact absurd ⟨j, Or.inr (Or.inl hj)⟩ hn
            | wr => exact absurd ⟨j, Or.inl (Or.inl hj)⟩ hn
            | wr2r => exact absurd ⟨j, Or.inl (Or.inr (Or.inl hj))⟩ hn
            | wr2u => exact absurd ⟨j, Or.inl (Or.inr (Or.inr hj))⟩ hn
          exact he (by rw [k2, RWSpin.C61_clean hr.q z])
        · have he : 2 ≠ y.val := of_decide_eq_true he
          refine Or.inr ⟨rfl, Classical.byContradiction fun hn => ?_⟩
          obtain ⟨_, u, hb, hu⟩ := RWSpin.inv_of hr.q
          have h1 := RWSpin.pos_of (f := Pc.isU) hp rfl
          have hW : s.q.n Pc.isW = 0 := by omega
          have z3 : s.q.n Pc.isR = 0 := RWSpin.zero_iff.2 fun p hp => by
            obtain ⟨j, hj⟩ := List.getElem?_of_mem hp
            cases p with
            | back => exact absurd ⟨j, Or.inr hj⟩ hn
            | rd => exact absurd ⟨j, Or.inl hj⟩ hn
            | wr2r => exact absurd (RWSpin.zero_iff.1 hW _ hp) (by decide)
            | _ => rfl
          omega
      · cases hst

/-! ### Runs -/

/-- Something a thread does: an operation on the lock that takes effect, a read, a write. -/
inductive Do
  | c (t : Nat) (c : Call) | r (t : Nat) | w (t : Nat)

/-- Each operation reads the last message, which is the `n`-th. -/
def sched : Nat → List Do → List Act
  | _, [] => []
  | n, .c t c :: l => .call t c n :: sched (n + 1) l
  | n, .r t :: l => .read t :: sched n l
  | n, .w t :: l => .write t :: sched n l

theorem witness (c : Cfg) (acts : List Act) (p : State → Bool)
    (h : (exec (step c) { q := ⟨0, [.idle, .idle, .idle]⟩, m := Mem.start (fun _ => 0) } acts).any p = true) : ∃ s : State, Reached c s ∧ p s = true := by
  cases he : exec (step c) { q := ⟨0, [.idle, .idle, .idle]⟩, m := Mem.start (fun _ => 0) } acts with
  | none => rw [he] at h; cases h
  | some s =>
    rw [he] at h
    exact ⟨s, Reachable.exec (.init ⟨_, RWSpin.three_init, rfl⟩ trivial) acts he, by simpa using h⟩

/-- Thread 0 writes, thread 1 writes; thread 2 reads, thread 0 writes; thread 1 reads as upgradable holder, thread 0 writes; thread 0 reads while thread 1 is the
upgradable holder, then thread 1 becomes the writer, writes, downgrades to upgradable and to reading, reads. -/
def all : List Do :=
  [.c 0 .tryLock, .w 0, .r 0, .c 0 .unlock, .c 1 .tryLock, .w 1, .c 1 .unlock, .c 2 .tryShared, .r 2, .c 2 .unlockShared, .c 0 .tryLock, .w 0, .c 0 .unlock,
   .c 1 .tryUpgrade, .r 1, .c 1 .unlockUpgrade, .c 0 .tryLock, .w 0, .c 0 .toShared, .c 0 .go, .c 1 .tryUpgrade, .r 0, .r 1, .c 0 .unlockShared, .c 1 .promote, .w 1,
   .c 1 .toUpgrade, .c 1 .go, .r 1, .c 1 .demote, .r 1]

example : ∃ s : State, Reached theCode s ∧ decide (s.q = ⟨4, [.idle, .rd, .idle]⟩ ∧ s.m.log .wr = 5 ∧ s.m.log (.rd 1) = 4) = true :=
  witness theCode (sched 0 all) _ (by decide +kernel)
-- `try_lock` fails although the lock is free: thread 1 reads the value of the time when thread 0 had it
example : ∃ s : State, Reached theCode s ∧ decide (s.q = ⟨0, [.idle, .idle, .idle]⟩ ∧ s.m.cur 1 .bits = 1 ∧ s.top = 2) = true :=
  witness theCode [.call 0 .tryLock 0, .call 0 .unlock 1, .fail 1 .tryLock 1] _ (by decide +kernel)
-- the hypotheses of `C90_fail_only_stale`: thread 0 had the lock last, then thread 1 took it and thread 0 has seen that
example : ∃ s : State, Reached theCode s ∧ (decide (s.m.cur 0 .bits = s.top) && (step theCode s (.fail 0 .tryLock 1)).isSome) = true :=
  witness theCode [.call 1 .tryLock 0, .fail 0 .tryLock 1] _ (by decide +kernel)

/-- C90: each of these orders is needed: with a relaxed access in place of any one of them, accesses to the guarded data race. -/
theorem C90_orders_needed (c : Cfg)
    (hc : c ∈ [{ theCode with lockAcq := false }, { theCode with sharedAcq := false }, { theCode with upAcq := false }, { theCode with promAcq := false },
      { theCode with unlockRel := false }, { theCode with sharedRel := false }, { theCode with upRel := false }]) :
    ∃ s : State, Reached c s ∧ s.race = true := by
  refine witness c (sched 0 all) (·.race) ?_
  simp only [List.mem_cons, List.not_mem_nil, or_false] at hc
  rcases hc with rfl | rfl | rfl | rfl | rfl | rfl | rfl <;> decide +kernel

end Verif.RWSpinRA
