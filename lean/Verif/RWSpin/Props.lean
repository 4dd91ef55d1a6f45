import Verif.RWSpin.Lemmas
/-! C61: the reader-writer spin lock, for every number of threads and every interleaving of their atomic operations. -/
namespace Verif.RWSpin
open Verif.Common

/-- Thread `i` has the lock for writing: from the success of the acquiring call to the last step of the releasing one. -/
def Writes (s : State) (i : Nat) : Prop := s.th[i]? = some .wr ∨ s.th[i]? = some .wr2r ∨ s.th[i]? = some .wr2u
/-- Thread `i` has the lock for reading, upgradable. -/
def Reads (s : State) (i : Nat) : Prop := s.th[i]? = some .rd
def Upgrades (s : State) (i : Nat) : Prop := s.th[i]? = some .up
/-- Thread `i` is between the two steps of a failing `try_lock_shared`. -/
def Retreats (s : State) (i : Nat) : Prop := s.th[i]? = some .back

/-- A writer is alone: no other thread writes, reads or has the lock upgradable. -/
theorem C61_writer_excludes {s : State} (h : Reachable Init step s) {i j : Nat} (hi : Writes s i)
    (hj : Writes s j ∨ Reads s j ∨ Upgrades s j) : i = j := by
  obtain ⟨_, u, _, hu⟩ := inv_of h
  have wi : ∃ p, s.th[i]? = some p ∧ Pc.isW p = true := by
    rcases hi with h | h | h <;> exact ⟨_, h, rfl⟩
  obtain ⟨p, hp, hpw⟩ := wi
  have w1 := pos_of hp hpw
  rcases hj with hj | hj | hj
  · have wj : ∃ q, s.th[j]? = some q ∧ Pc.isW q = true := by
      rcases hj with h | h | h <;> exact ⟨_, h, rfl⟩
    obtain ⟨q, hq, hqw⟩ := wj
    refine Classical.byContradiction fun hij => ?_
    have := two_of hp hq hpw hqw hij
    unfold State.n at hu
    omega
  · have := pos_of (f := Pc.isRd) hj rfl
    omega
  · have := pos_of (f := Pc.isU) hj rfl
    omega

/-- At most one thread has the lock upgradable. -/
theorem C61_one_upgrader {s : State} (h : Reachable Init step s) {i j : Nat} (hi : Upgrades s i) (hj : Upgrades s j) :
    i = j := by
  obtain ⟨_, u, _, hu⟩ := inv_of h
  refine Classical.byContradiction fun hij => ?_
  have := two_of (f := Pc.isU) hi hj rfl rfl hij
  unfold State.n at hu
  omega

/-- A reader gets the lock exactly if nobody writes and nobody has it upgradable: other readers do not matter, and no bit
of a failed attempt stays behind. -/
theorem C61_try_lock_shared {s s1 : State} (h : Reachable Init step s) {i : Nat} (hi : s.th[i]? = some .idle)
    (e : step s (i, .tryShared) = some s1) : Reads s1 i ↔ ∀ j, ¬ Writes s j ∧ ¬ Upgrades s j := by
  obtain ⟨_, u, hb, hu⟩ := inv_of h
  simp only [step, hi, stepPc, Option.map_some, Option.some.injEq] at e
  subst e
  have ht := lt_of_get hi
  have hr : Reads ⟨add32 s.bits 4, s.th.set i (if s.bits % 4 ≠ 0 then .back else .rd)⟩ i ↔ s.bits % 4 = 0 := by
    unfold Reads
    simp only [List.getElem?_set_self ht]
    by_cases hc : s.bits % 4 = 0 <;> simp [hc]
  rw [hr]
  constructor
  · intro hc j
    constructor
    · intro hj
      have : ∃ q, s.th[j]? = some q ∧ Pc.isW q = true := by
        rcases hj with h | h | h <;> exact ⟨_, h, rfl⟩
      obtain ⟨q, hq, hqw⟩ := this
      have := pos_of hq hqw
      omega
    · intro hj
      have := pos_of (f := Pc.isU) hj rfl
      omega
  · intro hn
    have z1 : s.n Pc.isW = 0 := zero_iff.2 fun p hp => by
      obtain ⟨j, hj⟩ := List.getElem?_of_mem hp
      have := (hn j).1
      cases p <;> first | rfl | exact absurd (by unfold Writes; simp [hj]) this
    have z2 : s.n Pc.isU = 0 := zero_iff.2 fun p hp => by
      obtain ⟨j, hj⟩ := List.getElem?_of_mem hp
      have := (hn j).2
      cases p <;> first | rfl | exact absurd hj this
    omega

/-- `try_lock_upgrade` succeeds exactly if nobody writes and nobody has the lock upgradable; readers may be inside. -/
theorem C61_try_lock_upgrade {s s1 : State} (h : Reachable Init step s) {i : Nat} (hi : s.th[i]? = some .idle)
    (e : step s (i, .tryUpgrade) = some s1) : Upgrades s1 i ↔ ∀ j, ¬ Writes s j ∧ ¬ Upgrades s j := by
  have hx : ∃ s2, step s (i, .tryShared) = some s2 := by
    simp only [step, hi, stepPc, Option.map_some]; exact ⟨_, rfl⟩
  obtain ⟨s2, e2⟩ := hx
  rw [← C61_try_lock_shared h hi e2]
  simp only [step, hi, stepPc, Option.map_some, Option.some.injEq] at e e2
  subst e e2
  have ht := lt_of_get hi
  unfold Upgrades Reads
  simp only [List.getElem?_set_self ht]
  by_cases hc : s.bits % 4 = 0 <;> simp [hc]

/-- `try_lock` succeeds exactly if nobody has the lock in any way and no failing `try_lock_shared` is under way. -/
theorem C61_try_lock {s s1 : State} (h : Reachable Init step s) {i : Nat} (hi : s.th[i]? = some .idle)
    (e : step s (i, .tryLock) = some s1) :
    Writes s1 i ↔ ∀ j, ¬ Writes s j ∧ ¬ Upgrades s j ∧ ¬ Reads s j ∧ ¬ Retreats s j := by
  obtain ⟨_, u, hb, hu⟩ := inv_of h
  have ht := lt_of_get hi
  have hr : Writes s1 i ↔ s.bits = 0 := by
    simp only [step, hi, stepPc] at e
    by_cases hc : s.bits = 0
    · simp only [hc, if_true, Option.map_some, Option.some.injEq] at e
      subst e
      simp [Writes, List.getElem?_set_self ht, hc]
    · simp only [hc, if_false, Option.map_some, Option.some.injEq] at e
      subst e
      simp [Writes, List.getElem?_set_self ht, hc]
  rw [hr]
  constructor
  · intro hc j
    refine ⟨fun hj => ?_, fun hj => ?_, fun hj => ?_, fun hj => ?_⟩
    · have : ∃ q, s.th[j]? = some q ∧ Pc.isW q = true := by
        rcases hj with h | h | h <;> exact ⟨_, h, rfl⟩
      obtain ⟨q, hq, hqw⟩ := this
      have := pos_of hq hqw
      omega
    · have := pos_of (f := Pc.isU) hj rfl
      omega
    · have := pos_of (f := Pc.isR) hj rfl
      omega
    · have := pos_of (f := Pc.isR) hj rfl
      omega
  · intro hn
    have z : ∀ p ∈ s.th, p = .idle := fun p hp => by
      obtain ⟨j, hj⟩ := List.getElem?_of_mem hp
      obtain ⟨h1, h2, h3, h4⟩ := hn j
      cases p <;> first | rfl | exact absurd hj h2 | exact absurd hj h3 | exact absurd hj h4 |
        exact absurd (by unfold Writes; simp [hj]) h1
    have z1 : s.n Pc.isW = 0 := zero_iff.2 fun p hp => by rw [z p hp]; rfl
    have z2 : s.n Pc.isU = 0 := zero_iff.2 fun p hp => by rw [z p hp]; rfl
    have z3 : s.n Pc.isR = 0 := zero_iff.2 fun p hp => by rw [z p hp]; rfl
    omega

/-- The upgradable holder becomes the writer exactly if no reader is inside and none is retreating. -/
theorem C61_promote {s s1 : State} (h : Reachable Init step s) {i : Nat} (hi : Upgrades s i)
    (e : step s (i, .promote) = some s1) : Writes s1 i ↔ ∀ j, ¬ Reads s j ∧ ¬ Retreats s j := by
  obtain ⟨_, u, hb, hu⟩ := inv_of h
  have ht := lt_of_get hi
  have p1 := pos_of (f := Pc.isU) hi rfl
  have hr : Writes s1 i ↔ s.bits = 2 := by
    have hi' : s.th[i]? = some .up := hi
    simp only [step, hi', stepPc] at e
    by_cases hc : s.bits = 2
    · simp only [hc, if_true, Option.map_some, Option.some.injEq] at e
      subst e
      simp [Writes, List.getElem?_set_self ht, hc]
    · simp only [hc, if_false, Option.map_some, Option.some.injEq] at e
      subst e
      simp [Writes, List.getElem?_set_self ht, hc]
  rw [hr]
  constructor
  · intro hc j
    refine ⟨fun hj => ?_, fun hj => ?_⟩
    · have := pos_of (f := Pc.isR) hj rfl
      omega
    · have := pos_of (f := Pc.isR) hj rfl
      omega
  · intro hn
    have hW : s.n Pc.isW = 0 := by omega
    have z3 : s.n Pc.isR = 0 := zero_iff.2 fun p hp => by
      obtain ⟨j, hj⟩ := List.getElem?_of_mem hp
      obtain ⟨h3, h4⟩ := hn j
      cases p <;> first | rfl | exact absurd hj h3 | exact absurd hj h4 | exact absurd (zero_iff.1 hW _ hp) (by decide)
    omega

/-- An attempt that fails leaves the others as they are, and whoever holds the lock can always go on: every release is
possible in every reachable state. -/
theorem C61_others_untouched {s s1 : State} {i : Nat} {c : Call} (e : step s (i, c) = some s1) {j : Nat} (hj : j ≠ i) :
    s1.th[j]? = s.th[j]? := by
  unfold step at e
  cases hp : s.th[i]? with
  | none => simp [hp] at e
  | some p =>
    simp only [hp, Option.map_eq_some_iff] at e
    obtain ⟨r, _, e⟩ := e
    subst e
    exact List.getElem?_set_ne (fun h => hj h.symm)

theorem C61_release {s : State} {i : Nat} :
    (s.th[i]? = some .wr → ∀ c, c = .unlock ∨ c = .toShared ∨ c = .toUpgrade → (step s (i, c)).isSome) ∧
    (Reads s i → (step s (i, .unlockShared)).isSome) ∧
    (Upgrades s i → ∀ c, c = .unlockUpgrade ∨ c = .demote ∨ c = .promote → (step s (i, c)).isSome) ∧
    (s.th[i]? = some .wr2r ∨ s.th[i]? = some .wr2u ∨ Retreats s i → (step s (i, .go)).isSome) := by
  refine ⟨fun h c hc => ?_, fun h => ?_, fun h c hc => ?_, fun h => ?_⟩
  · rcases hc with rfl | rfl | rfl <;> simp [step, h, stepPc]
  · have h : s.th[i]? = some .rd := h
    simp [step, h, stepPc]
  · have h : s.th[i]? = some .up := h
    rcases hc with rfl | rfl | rfl <;> simp only [step, h, stepPc] <;> try rfl
    split <;> rfl
  · rcases h with h | h | h
    · simp [step, h, stepPc]
    · simp [step, h, stepPc]
    · have h : s.th[i]? = some .back := h
      simp [step, h, stepPc]

/-- The downgrade to reader never lets another writer in between: the thread is a writer until it is a reader. -/
theorem C61_downgrade {s s1 s2 : State} {i : Nat} (h : s.th[i]? = some .wr) :
    (step s (i, .toShared) = some s1 → Writes s1 i ∧ (step s1 (i, .go) = some s2 → Reads s2 i)) ∧
    (step s (i, .toUpgrade) = some s1 → Writes s1 i ∧ (step s1 (i, .go) = some s2 → Upgrades s2 i)) := by
  have ht := lt_of_get h
  constructor <;> intro e <;> simp only [step, h, stepPc, Option.map_some, Option.some.injEq] at e <;> subst e <;>
    refine ⟨by simp [Writes, List.getElem?_set_self ht], fun e2 => ?_⟩ <;>
    simp only [step, List.getElem?_set_self ht, stepPc, Option.map_some, Option.some.injEq] at e2 <;> subst e2 <;>
    simp [Reads, Upgrades, ht]

/-- While a thread has the lock upgradable no new reader gets in, so the readers can only become fewer. -/
theorem C61_no_new_readers {s s1 : State} (h : Reachable Init step s) {i : Nat} {a : Nat × Call} (hi : Upgrades s i)
    (e : step s a = some s1) (hi1 : Upgrades s1 i) {j : Nat} (hj : Reads s1 j) : Reads s j := by
  refine Classical.byContradiction fun hn => ?_
  have he : step s a = some s1 := e
  have h1 : Reachable Init step s1 := .step h e trivial
  obtain ⟨t, c⟩ := a
  by_cases htj : j = t
  · subst htj
    have hij : j ≠ i := by
      intro hx; subst hx
      have a1 : s1.th[j]? = some .up := hi1
      have a2 : s1.th[j]? = some .rd := hj
      rw [a1] at a2; cases a2
    cases hp : s.th[j]? with
    | none => simp [step, hp] at e
    | some p =>
      have ht := lt_of_get hp
      have hj' : s1.th[j]? = some .rd := hj
      simp only [step, hp, Option.map_eq_some_iff] at e
      obtain ⟨⟨b, q⟩, e1, e2⟩ := e
      subst e2
      simp only [List.getElem?_set_self ht, Option.some.injEq] at hj'
      subst hj'
      cases p <;> cases c <;> (try (simp [stepPc] at e1; done)) <;> (try (simp only [stepPc] at e1; split at e1 <;> simp at e1; done))
      · exact ((C61_try_lock_shared h hp he).1 hj i).2 hi
      · exact (hij.elim (C61_one_upgrader h hp hi))
      · exact absurd (C61_writer_excludes h (.inr (.inl hp)) (.inr (.inr hi))) hij
  · exact hn (by unfold Reads; rw [← C61_others_untouched e htj]; exact hj)

/-- When all threads have let go the word is 0, as after construction: nothing leaks, whatever was tried in between. -/
theorem C61_clean {s : State} (h : Reachable Init step s) (hz : ∀ p ∈ s.th, p = .idle) : s.bits = 0 := by
  obtain ⟨_, u, hb, hu⟩ := inv_of h
  have z1 : s.n Pc.isW = 0 := zero_iff.2 fun p hp => by rw [hz p hp]; rfl
  have z2 : s.n Pc.isU = 0 := zero_iff.2 fun p hp => by rw [hz p hp]; rfl
  have z3 : s.n Pc.isR = 0 := zero_iff.2 fun p hp => by rw [hz p hp]; rfl
  omega

/-! ### What the lock does not give -/

/-- Three threads. -/
def three : State := ⟨0, [.idle, .idle, .idle]⟩
theorem three_init : Init three := by
  refine ⟨rfl, ?_, by decide⟩
  intro p hp; simp [three] at hp; exact hp

/-- `try_lock` can fail although nobody holds the lock: a reader that failed has not taken its count back yet. -/
theorem C61_spurious_fails : ∃ s s1, Reachable Init step s ∧ step s (2, .tryLock) = some s1 ∧ ¬ Writes s1 2 ∧
    ∀ j, ¬ Writes s j ∧ ¬ Upgrades s j ∧ ¬ Reads s j := by
  refine ⟨⟨4, [.idle, .back, .idle]⟩, ⟨4, [.idle, .back, .idle]⟩, ?_, rfl, by unfold Writes; decide, fun j => ?_⟩
  · exact Reachable.exec (.init three_init trivial) [(0, .tryLock), (1, .tryShared), (0, .unlock)] (by rfl)
  · unfold Writes Upgrades Reads
    match j with
    | 0 | 1 | 2 => simp
    | n + 3 => simp

/-- The holder of the upgradable lock can be kept from becoming the writer for ever, by a single thread that keeps asking
for the lock to read and is turned away each time; nobody reads meanwhile. -/
theorem C61_promotion_starves (n : Nat) : ∃ s, Reachable Init step s ∧ Upgrades s 0 ∧
    exec step s (List.replicate n [(1, Call.tryShared), (0, .promote), (1, .go)]).flatten = some s ∧
    ∃ s1 s2, step s (1, .tryShared) = some s1 ∧ step s1 (0, .promote) = some s2 ∧ ¬ Writes s2 0 ∧ (∀ j, ¬ Reads s2 j) ∧
      step s2 (1, .go) = some s := by
  refine ⟨⟨2, [.up, .idle, .idle]⟩, ?_, rfl, ?_, ⟨6, [.up, .back, .idle]⟩, ⟨6, [.up, .back, .idle]⟩, rfl, rfl,
    by unfold Writes; decide, fun j => ?_, rfl⟩
  · exact Reachable.exec (.init three_init trivial) [(0, .tryUpgrade)] (by rfl)
  · induction n with
    | zero => rfl
    | succ n ih => rw [List.replicate_succ, List.flatten_cons]; exact ih
  · unfold Reads
    match j with
    | 0 | 1 | 2 => simp
    | n + 3 => simp

/-! ### The hypotheses can be met -/

/-- A writer, an attempt to upgrade that fails, the downgrade, the upgrade. -/
example : exec step three [(0, .tryLock), (1, .tryUpgrade), (2, .tryShared), (0, .toShared), (2, .go), (0, .go),
    (1, .tryUpgrade), (2, .tryShared), (1, .promote), (2, .go), (0, .unlockShared), (1, .promote)] =
    some ⟨1, [.idle, .wr, .idle]⟩ := by rfl
example : ∃ s, Reachable Init step s ∧ Reads s 0 ∧ Reads s 1 ∧ Upgrades s 2 :=
  ⟨⟨10, [.rd, .rd, .up]⟩, Reachable.exec (.init three_init trivial) [(0, .tryShared), (1, .tryShared), (2, .tryUpgrade)] (by rfl),
    rfl, rfl, rfl⟩
example : ∃ s, Reachable Init step s ∧ Writes s 0 ∧ s.bits = 7 :=
  ⟨⟨7, [.wr, .idle, .back]⟩, Reachable.exec (.init three_init trivial) [(0, .tryLock), (1, .tryUpgrade), (2, .tryShared)] (by rfl),
    .inl rfl, rfl⟩

end Verif.RWSpin
