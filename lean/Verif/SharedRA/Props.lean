import Verif.SharedRA.Lemmas
/-! C91: the shared mutex over the memory of C++ threads. -/
namespace Verif.SharedRA
open Verif.Common Verif.RelAcq

/-- States that can be reached when the accesses have the orders `c`. -/
abbrev Reached (c : Cfg) (s : State) : Prop := Reachable Init (step c) s

/-- C91: with the orders of the code, or any: a writer is alone. -/
theorem C91_exclusion {c : Cfg} {s : State} (h : Reached c s) {i j : Nat} (hi : s.th[i]? = some .wr) (hj : s.th[j]? = some .wr ∨ s.th[j]? = some .rd) : i = j := by
  have hI : MInv s := Reachable.invariant MInv minv_init (minv_step c) h
  rcases hj with hj | hj <;> exact (writer_alone hI.q hi rfl hj rfl).symm

/-- C91, partial: with release in `unlock` and `unlock_shared`, which the code does not have (`C91_code_races`), accesses to the guarded data do not race. -/
theorem C91_no_race_partial {s : State} (h : Reached repaired s) : s.race = false :=
  (Reachable.invariant RInv inv_init inv_step h).race

theorem witness (c : Cfg) (acts : List Act) (p : State → Bool)
    (h : (exec (step c) { th := [.idle, .idle], m := Mem.start (fun _ => 0) } acts).any p = true) : ∃ s : State, Reached c s ∧ p s = true := by
  cases he : exec (step c) { th := [.idle, .idle], m := Mem.start (fun _ => 0) } acts with
  | none => rw [he] at h; cases h
  | some s =>
    rw [he] at h
    exact ⟨s, Reachable.exec (.init ⟨2, by decide, rfl⟩ trivial) acts he, by simpa using h⟩

/-- Thread 0 locks, writes, unlocks and has notified; then thread 1 calls `lock`, which succeeds at the first attempt, and writes. -/
def twoWriters : List Act :=
  [.call 0 .tryLock 0, .fence 0, .write 0, .call 0 .unlock 1, .ev 0 .notify 0, .call 1 .tryLock 2, .fence 1, .write 1]

/-- Thread 1 calls `lock` while thread 0 has the mutex, prepares to wait and succeeds at the second attempt, before thread 0 notifies. -/
def slowWriter : List Act :=
  [.call 0 .tryLock 0, .fence 0, .write 0, .fail 1 1, .ev 1 .prepare 0, .call 0 .unlock 1, .call 1 .tryLock 2, .fence 1, .ev 1 .drop 1, .write 1]

/-- Thread 0 reads under `lock_shared`, then thread 1 writes under `lock`. -/
def readerWriter : List Act :=
  [.call 0 .tryShared 0, .fence 0, .read 0, .call 0 .unlockShared 1, .ev 0 .notify 0, .call 1 .tryLock 2, .fence 1, .write 1]

/-- Thread 0 writes under `lock`, then thread 1 reads under `lock_shared`. -/
def writerReader : List Act :=
  [.call 0 .tryLock 0, .fence 0, .write 0, .call 0 .unlock 1, .ev 0 .notify 0, .call 1 .tryShared 2, .fence 1, .read 1]

/-- C91: in the code, where `unlock` and `unlock_shared` are relaxed, accesses under the mutex race: two writers, at the first attempt or at a later one; a reader and the
next writer; a writer and the next reader. -/
theorem C91_code_races (acts : List Act) (h : acts ∈ [twoWriters, slowWriter, readerWriter, writerReader]) :
    ∃ s : State, Reached theCode s ∧ exec (step theCode) { th := [.idle, .idle], m := Mem.start (fun _ => 0) } acts = some s ∧ s.race = true := by
  have key : (exec (step theCode) { th := [.idle, .idle], m := Mem.start (fun _ => 0) } acts).any (·.race) = true := by
    simp only [List.mem_cons, List.not_mem_nil, or_false] at h
    rcases h with rfl | rfl | rfl | rfl <;> decide +kernel
  cases he : exec (step theCode) { th := [.idle, .idle], m := Mem.start (fun _ => 0) } acts with
  | none => rw [he] at key; cases key
  | some s =>
    rw [he] at key
    exact ⟨s, Reachable.exec (.init ⟨2, by decide, rfl⟩ trivial) acts he, rfl, by simpa using key⟩

/-- C91: release in only one of them is not enough. -/
theorem C91_release_needed (c : Cfg) (h : c.unlockRel = false ∨ c.sharedRel = false) : ∃ s : State, Reached c s ∧ s.race = true := by
  obtain ⟨a, b⟩ := c
  simp only at h
  rcases h with rfl | rfl
  · exact witness _ twoWriters (·.race) (by cases b <;> decide +kernel)
  · exact witness _ readerWriter (·.race) (by cases a <;> decide +kernel)

-- the same runs without a race with release
example : ∃ s : State, Reached repaired s ∧ decide (s.th = [.idle, .wr] ∧ s.m.log .wr = 2) = true := witness repaired twoWriters _ (by decide +kernel)
example : ∃ s : State, Reached repaired s ∧ decide (s.th = [.idle, .rd] ∧ s.m.log (.rd 1) = 1) = true := witness repaired writerReader _ (by decide +kernel)
-- the hypotheses of `C91_exclusion`
example : ∃ s : State, Reached theCode s ∧ decide (s.th = [.wr, .back] ∧ s.bits = 5) = true :=
  witness theCode [.call 0 .tryLock 0, .call 1 .tryShared 1] _ (by decide +kernel)

end Verif.SharedRA
