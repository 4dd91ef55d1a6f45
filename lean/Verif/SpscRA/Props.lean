import Verif.SpscRA.Inv
/-! C87: the one-producer one-consumer queue over the memory of C++ threads. -/
namespace Verif.SpscRA
open Verif.Common Verif.RelAcq
variable {α : Type}

/-- C87: whatever messages the loads read, the records taken are the first ones written, in order; at most `size - 1` are
unread; no access to a record races with another, and none finds the record in the wrong state. -/
theorem C87_fifo {s : State α} (h : Reached theCode s) :
    (∃ unread, s.written = s.taken ++ unread ∧ unread.length ≤ s.size - 1) ∧ s.race = false ∧ s.bad = false := by
  have hi := inv_reach h
  refine ⟨⟨s.written.drop s.taken.length, ?_, ?_⟩, hi.race, hi.bad⟩
  · have := List.take_append_drop s.taken.length s.written
    rw [hi.pre] at this; exact this.symm
  · have := hi.cap; have := hi.le; rw [List.length_drop]; omega

theorem access_proj (s : State α) (t i : Nat) : (access s t i).taken = s.taken ∧ (access s t i).written = s.written := ⟨rfl, rfl⟩

/-- C87: `read` hands out the record it removes; a caller of `frontPtr` finds the oldest record that is not removed. -/
theorem C87_values {s s' : State α} {a : Act α} (h : Reached theCode s) (hst : step theCode s a = some s') :
    (∀ v, s'.ev = .readOk v → s'.taken = s.taken ++ [v] ∧ s.written[s.taken.length]? = some v) ∧
    (∀ v, s'.ev = .front v → s.written[s.taken.length]? = some v) := by
  have hi := inv_reach h
  have hci := hi.c
  unfold CInv at hci
  cases a with
  | write x ts =>
    simp only [step] at hst
    split at hst
    · unfold doWrite at hst; split at hst <;> cases hst; exact ⟨nofun, nofun⟩
    · cases hst
  | p ts =>
    simp only [step, stepP] at hst
    split at hst
    · cases hst
    · unfold doSpace at hst
      split at hst
      · cases hst
      · split at hst <;> cases hst <;> exact ⟨nofun, nofun⟩
    · unfold doBuild at hst; cases hst; exact ⟨nofun, nofun⟩
    · unfold doPublish at hst; split at hst <;> cases hst; exact ⟨nofun, nofun⟩
  | read ts =>
    simp only [step] at hst
    split at hst
    · unfold doLoadR at hst; split at hst <;> cases hst; exact ⟨nofun, nofun⟩
    · cases hst
  | front ts =>
    simp only [step] at hst
    split at hst
    · unfold doLoadR at hst; split at hst <;> cases hst; exact ⟨nofun, nofun⟩
    · cases hst
  | pop ts =>
    simp only [step] at hst
    split at hst
    · unfold doLoadR at hst; split at hst <;> cases hst; exact ⟨nofun, nofun⟩
    · cases hst
  | drop =>
    simp only [step] at hst
    split at hst <;> cases hst; exact ⟨nofun, nofun⟩
  | use =>
    simp only [step] at hst
    split at hst
    · rename_i cur hp
      rw [hp] at hci
      obtain ⟨v, h1, h2⟩ := first_some hi (by rw [hp]; rfl) (by rw [hp]; rfl)
      unfold doUse at hst
      rw [hci.1, h1] at hst
      cases hst
      exact ⟨nofun, fun w hw => by cases hw; exact h2⟩
    · cases hst
  | c ts =>
    simp only [step, stepC] at hst
    cases hp : s.cons with
    | idle => simp only [hp] at hst; cases hst
    | holding cur => simp only [hp] at hst; cases hst
    | rLoaded cur =>
      simp only [hp, doAvail] at hst
      split at hst
      · cases hst
      · split at hst <;> cases hst <;> exact ⟨nofun, nofun⟩
    | fLoaded cur =>
      simp only [hp, doFront] at hst
      split at hst
      · cases hst
      · split at hst <;> cases hst <;> exact ⟨nofun, nofun⟩
    | rAvail cur nxt => simp only [hp, doMove] at hst; split at hst <;> cases hst <;> exact ⟨nofun, nofun⟩
    | rMoved v cur nxt => simp only [hp, doDestroy] at hst; split at hst <;> cases hst <;> exact ⟨nofun, nofun⟩
    | pLoaded cur nxt => simp only [hp, doDestroy] at hst; split at hst <;> cases hst <;> exact ⟨nofun, nofun⟩
    | pDestroyed v nxt => simp only [hp, doRelease] at hst; split at hst <;> cases hst; exact ⟨nofun, nofun⟩
    | rDestroyed v nxt =>
      simp only [hp] at hci
      simp only [hp, doRelease] at hst
      split at hst <;> cases hst
      exact ⟨fun w hw => by cases hw; exact ⟨rfl, hci.2.2⟩, nofun⟩

/-- C87: `read` and `frontPtr` do not report an empty queue when a write of a record not yet taken happens before the call. -/
theorem C87_not_empty {s s' : State α} {ts : Nat} (h : Reached theCode s) (hk : ConsumerKnows s (s.taken.length + 1)) (hst : step theCode s (.c ts) = some s') :
    s'.ev ≠ .readFailed ∧ s'.ev ≠ .frontNull := by
  have hi := inv_reach h
  have hci := hi.c
  unfold CInv at hci
  simp only [step, stepC] at hst
  cases hp : s.cons with
  | idle => simp only [hp] at hst; cases hst
  | holding cur => simp only [hp] at hst; cases hst
  | rLoaded cur =>
    simp only [hp, doAvail] at hst
    simp only [hp] at hci
    split at hst
    · cases hst
    · rename_i r m hl
      obtain ⟨y, L, rfl⟩ := load_facts hl
      obtain ⟨t1, t2, t3⟩ := test_spec hi (by rw [hp]; rfl) L
      have := hk ts y L.src L.may
      split at hst
      · rename_i e
        have := t1.1 (hci ▸ e)
        omega
      · cases hst; exact ⟨nofun, nofun⟩
  | fLoaded cur =>
    simp only [hp, doFront] at hst
    simp only [hp] at hci
    split at hst
    · cases hst
    · rename_i r m hl
      obtain ⟨y, L, rfl⟩ := load_facts hl
      obtain ⟨t1, t2, t3⟩ := test_spec hi (by rw [hp]; rfl) L
      have := hk ts y L.src L.may
      split at hst
      · rename_i e
        have := t1.1 (hci ▸ e)
        omega
      · cases hst; exact ⟨nofun, nofun⟩
  | rAvail cur nxt => simp only [hp, doMove] at hst; split at hst <;> cases hst <;> exact ⟨nofun, nofun⟩
  | rMoved v cur nxt => simp only [hp, doDestroy] at hst; split at hst <;> cases hst <;> exact ⟨nofun, nofun⟩
  | pLoaded cur nxt => simp only [hp, doDestroy] at hst; split at hst <;> cases hst <;> exact ⟨nofun, nofun⟩
  | pDestroyed v nxt => simp only [hp, doRelease] at hst; split at hst <;> cases hst; exact ⟨nofun, nofun⟩
  | rDestroyed v nxt => simp only [hp, doRelease] at hst; split at hst <;> cases hst; exact ⟨nofun, nofun⟩

/-- C87: `write` does not fail when enough reads happen before the call that fewer than `size - 1` records are left. -/
theorem C87_not_full {s s' : State α} {ts n : Nat} (h : Reached theCode s) (hk : ProducerKnows s n) (hn : s.written.length < n + (s.size - 1))
    (hst : step theCode s (.p ts) = some s') : s'.ev ≠ .writeFailed := by
  have hi := inv_reach h
  have h2 := hi.size2
  have hpi := hi.p
  unfold PInv at hpi
  simp only [step, stepP] at hst
  split at hst
  · cases hst
  · rename_i x cur hp
    simp only [hp] at hpi
    unfold doSpace at hst
    split at hst
    · cases hst
    · rename_i r m hl
      obtain ⟨y, L, rfl⟩ := load_facts hl
      have hlt := hk ts y L.src L.may
      obtain ⟨g1, g2, g3, g4⟩ := hi.mem.r ts y L.src
      have hle := hi.le
      split at hst
      · cases hst; exact nofun
      · rename_i e
        exfalso
        have e : next s.size cur = y.val := Classical.not_not.1 e
        rw [hpi, next_mod h2, g2] at e
        have := mod_window e (by omega) (by omega)
        omega
  · unfold doBuild at hst; cases hst; exact nofun
  · unfold doPublish at hst; split at hst <;> cases hst; exact nofun

/-- Two records pass through a queue of size 2, the second `read` waits for the second write. -/
def passTwo : List (Act Nat) :=
  [.write 7 0, .p 0, .p 0, .p 1, .read 0, .c 1, .c 0, .c 0, .c 1, .write 8 1, .p 1, .p 0, .p 2, .read 1, .c 2, .c 0, .c 0, .c 2]

/-- To show what a run leads to. -/
theorem witness (c : Cfg) (acts : List (Act Nat)) (p : State Nat → Bool) (h : (exec (step c) { size := 2 } acts).any p = true) :
    ∃ s : State Nat, Reached c s ∧ p s = true := by
  cases he : exec (step c) { size := 2 } acts with
  | none => rw [he] at h; cases h
  | some s =>
    rw [he] at h
    exact ⟨s, Reachable.exec (.init ⟨2, by decide, rfl⟩ trivial) acts he, by simpa using h⟩

-- two records pass, and a third is written into the first slot
example : ∃ s : State Nat, Reached theCode s ∧ decide (s.taken = [7, 8] ∧ s.written = [7, 8, 9] ∧ s.ev = .writeOk) = true :=
  witness theCode (passTwo ++ [.write 9 2, .p 2, .p 0, .p 5]) _ (by decide +kernel)
-- a pointer to the first record is used in place
example : ∃ s : State Nat, Reached theCode s ∧ decide (s.taken = [] ∧ s.ev = .front 7) = true :=
  witness theCode [.write 7 0, .p 0, .p 0, .p 1, .front 0, .c 1, .use] _ (by decide +kernel)
-- a read may still report an empty queue when the record was written but the consumer does not know yet
example : ∃ s : State Nat, Reached theCode s ∧ decide (s.written = [7] ∧ s.ev = .readFailed) = true :=
  witness theCode [.write 7 0, .p 0, .p 0, .p 1, .read 0, .c 0] _ (by decide +kernel)

/-- C87: each of the four orders is needed: with a relaxed access in place of any of them, accesses to a record race. -/
theorem C87_orders_needed (c : Cfg) (hc : c ≠ theCode) : ∃ s : State Nat, Reached c s ∧ s.race = true := by
  obtain ⟨a, b, d, e⟩ := c
  have key : a = false ∨ b = false ∨ d = false ∨ e = false := by
    cases a <;> cases b <;> cases d <;> cases e <;> simp [theCode] at hc ⊢
  refine witness _ (passTwo ++ [.write 9 2, .p 2, .p 0]) (fun s => s.race) ?_
  cases a <;> cases b <;> cases d <;> cases e <;> first | exact absurd rfl hc | decide +kernel

end Verif.SpscRA
