import Verif.Spsc.Lemmas
/-!
# C10: `ProducerConsumerQueue` is a bounded FIFO under every interleaving of its two threads
-/
namespace Verif.Spsc
open Verif.Common
variable {α : Type}

/-- C10. In every interleaving: the records removed so far are exactly the first records written, in
order, nothing lost or repeated; at most `size - 1` are unread; no undefined access to a slot happens. -/
theorem spsc_fifo (s : State α) (h : Reachable Init step s) :
    (∃ unread, s.written = s.taken ++ unread ∧ unread.length ≤ s.size - 1) ∧ s.bad = false := by
  have hi := inv_reach h
  refine ⟨⟨s.written.drop s.taken.length, ?_, ?_⟩, hi.bad⟩
  · have := List.take_append_drop s.taken.length s.written
    rw [hi.pre] at this; exact this.symm
  · have := hi.cap; have := hi.le; rw [List.length_drop]; omega

/-- The slot a running producer call constructs into / a running consumer call reads, moves from,
destroys or has handed out as front pointer. -/
def producerSlot (s : State α) : Option Nat :=
  match s.prod with
  | .space _ cur _ => some cur
  | _ => none

def consumerSlot (s : State α) : Option Nat :=
  match s.cons with
  | .rAvail cur _ => some cur
  | .rMoved _ cur _ => some cur
  | .holding cur => some cur
  | .pLoaded _ cur _ => some cur
  | _ => none

/-- C10. A slot is never written while it is being read (or while the consumer holds a pointer to it). -/
theorem spsc_no_slot_race (s : State α) (h : Reachable Init step s) (i : Nat)
    (hp : producerSlot s = some i) : consumerSlot s ≠ some i := by
  have hi := inv_reach h
  have hsz := hi.size2; have hle := hi.le; have hcap := hi.cap
  have hw : i = s.written.length % s.size := by
    have hpi := hi.p
    unfold PInv at hpi; unfold producerSlot at hp
    cases hpp : s.prod <;> simp only [hpp] at hpi hp <;> simp only [Option.some.injEq, reduceCtorEq] at hp
    rw [← hp, hpi.1]; exact hi.w
  intro hc
  have hr : i = s.taken.length % s.size ∧ s.taken.length < s.written.length := by
    have hci := hi.c
    unfold CInv at hci; unfold consumerSlot at hc
    cases hcc : s.cons <;> simp only [hcc] at hci hc <;>
      simp only [Option.some.injEq, reduceCtorEq] at hc
    · exact ⟨by rw [← hc, hci.1]; exact hi.r, hci.2.2⟩
    · exact ⟨by rw [← hc, hci.1]; exact hi.r, lt_of_get hci.2.2⟩
    · exact ⟨by rw [← hc, hci.1]; exact hi.r, hci.2⟩
    · exact ⟨by rw [← hc, hci.1]; exact hi.r, lt_of_get hci.2.2⟩
  exact mod_ne (n := s.size) (a := s.written.length) (b := s.taken.length) (by omega) (by omega) (by omega)
    (hw ▸ hr.1)

/-- Reports made by one step. -/
theorem ev_spec {s s' : State α} {a : Act α} (h : Inv s) (hs : step s a = some s') :
    (s'.ev = .writeFailed → s'.written.length = s'.taken.length + (s'.size - 1)) ∧
    (s'.ev = .readFailed → s'.written = s'.taken) ∧
    (s'.ev = .frontNull → s'.written = s'.taken) ∧
    (∀ i, s'.ev = .front i → s'.slots i = s'.written[s'.taken.length]? ∧
      s'.taken.length < s'.written.length) ∧
    (∀ v, s'.ev = .readOk v → s'.taken.getLast? = some v) := by
  have hfull := full_iff h
  have hempty := empty_iff h
  have hfront := slot_front h
  have hall : s.r = s.w → s.written = s.taken := by
    intro e
    have e2 := hempty.mp e
    have := h.pre
    rw [← e2, List.take_length] at this; exact this
  cases a with
  | write x => simp only [step] at hs; split at hs <;> simp at hs; subst hs; simp
  | read => simp only [step] at hs; split at hs <;> simp at hs; subst hs; simp
  | front => simp only [step] at hs; split at hs <;> simp at hs; subst hs; simp
  | drop => simp only [step] at hs; split at hs <;> simp at hs; subst hs; simp
  | pop =>
    simp only [step] at hs
    split at hs
    · split at hs <;> simp at hs <;> subst hs <;> simp
    · simp at hs
  | p =>
    simp only [step] at hs
    have hp := h.p
    split at hs
    · simp at hs
    · rename_i hpp
      simp only [PInv, hpp] at hp
      subst hp
      split at hs <;> simp only [Option.some.injEq] at hs <;> subst hs
      · simp
      · rename_i hne
        simp only [ne_eq, Decidable.not_not] at hne
        simpa using hfull.mp hne
    · simp only [Option.some.injEq] at hs; subst hs; simp
    · simp only [Option.some.injEq] at hs; subst hs; simp
  | c =>
    simp only [step] at hs
    have hc := h.c
    cases hcc : s.cons with
    | idle => simp [hcc] at hs
    | holding => simp [hcc] at hs
    | rLoaded cur =>
      simp only [hcc] at hs
      simp only [CInv, hcc] at hc
      subst hc
      split at hs <;> simp only [Option.some.injEq] at hs <;> subst hs
      · rename_i he; simpa using hall he
      · simp
    | fLoaded cur =>
      simp only [hcc] at hs
      simp only [CInv, hcc] at hc
      subst hc
      split at hs <;> simp only [Option.some.injEq] at hs <;> subst hs
      · rename_i he; simpa using hall he
      · rename_i hne
        have hlt : s.taken.length < s.written.length := by
          have h1 : s.written.length ≠ s.taken.length := fun e => hne (hempty.mpr e)
          have := h.le; omega
        have hf := hfront hlt (by rw [hcc]; rfl)
        simpa [hf] using hlt
    | rAvail cur nxt =>
      simp only [hcc] at hs
      split at hs <;> simp at hs <;> subst hs <;> simp
    | rMoved v cur nxt => simp only [hcc, Option.some.injEq] at hs; subst hs; simp
    | pLoaded v cur nxt => simp only [hcc, Option.some.injEq] at hs; subst hs; simp
    | rDestroyed v nxt => simp only [hcc, Option.some.injEq] at hs; subst hs; simp
    | pDestroyed v nxt => simp only [hcc, Option.some.injEq] at hs; subst hs; simp

/-- C10. `write` fails only when `size - 1` records are unread; `read` fails and `frontPtr` returns null only
when nothing is unread; `frontPtr` points at the oldest unread record; `read` returns the record it
removes. All at the instant of the report, in every interleaving. -/
theorem spsc_reports (s : State α) (h : Reachable Init step s) :
    (s.ev = .writeFailed → s.written.length = s.taken.length + (s.size - 1)) ∧
    (s.ev = .readFailed → s.written = s.taken) ∧
    (s.ev = .frontNull → s.written = s.taken) ∧
    (∀ i, s.ev = .front i → s.slots i = s.written[s.taken.length]? ∧
      s.taken.length < s.written.length) ∧
    (∀ v, s.ev = .readOk v → s.taken.getLast? = some v) := by
  cases h with
  | init hi _ => obtain ⟨size, _, rfl⟩ := hi; simp
  | step hr hs _ => exact ev_spec (inv_reach hr) hs

/-- C10. The observers are exact at the instant of their loads. -/
theorem spsc_observers (s : State α) (h : Reachable Init step s) :
    sizeGuess s = s.written.length - s.taken.length ∧
    (isEmpty s = true ↔ s.written.length = s.taken.length) ∧
    (isFull s = true ↔ s.written.length = s.taken.length + (s.size - 1)) := by
  have hi := inv_reach h
  refine ⟨?_, by simp only [isEmpty, decide_eq_true_eq]; exact empty_iff hi,
    by simp only [isFull, decide_eq_true_eq]; exact full_iff hi⟩
  have hsz := hi.size2; have hle := hi.le; have hcap := hi.cap
  unfold sizeGuess
  rw [hi.w, hi.r]
  have h1 := Nat.mod_lt s.written.length (show 0 < s.size by omega)
  have h2 := Nat.mod_lt s.taken.length (show 0 < s.size by omega)
  have h3 := Nat.div_add_mod s.written.length s.size
  have h4 := Nat.div_add_mod s.taken.length s.size
  have h5 : s.taken.length / s.size ≤ s.written.length / s.size := Nat.div_le_div_right hle
  have h6 : s.written.length / s.size ≤ s.taken.length / s.size + 1 := by
    have : s.written.length / s.size ≤ (s.taken.length + s.size) / s.size :=
      Nat.div_le_div_right (by omega)
    rw [Nat.add_div_right _ (by omega)] at this; exact this
  rcases Nat.lt_or_ge (s.taken.length / s.size) (s.written.length / s.size) with hq | hq
  · have e : s.written.length / s.size = s.taken.length / s.size + 1 := by omega
    rw [e, Nat.mul_add, Nat.mul_one] at h3
    rw [if_pos (by omega)]; omega
  · have e : s.written.length / s.size = s.taken.length / s.size := by omega
    rw [e] at h3
    rw [if_neg (by omega)]; omega

/-- A concrete interleaving: size 2, the producer writes 7 while the consumer reads; a second write finds the
queue full. -/
example : ∃ s : State Nat, Reachable Init step s ∧ s.written = [7] ∧ s.taken = [] ∧ s.ev = .writeFailed :=
  ⟨{ size := 2, w := 1, slots := upd (fun _ => none) 0 (some 7), written := [7], ev := .writeFailed },
    (Reachable.exec (.init ⟨2, by decide, rfl⟩ trivial)
      [.write 7, .p, .p, .p, .write 8, .p] (by rfl)), rfl, rfl, rfl⟩
example : ∃ s : State Nat, Reachable Init step s ∧ s.taken = [7] ∧ s.ev = .readOk 7 :=
  ⟨_, (Reachable.exec (s := { size := 2 }) (.init ⟨2, by decide, rfl⟩ trivial)
      [.write 7, .p, .read, .p, .p, .c, .c, .c, .c] (by rfl)), rfl, rfl⟩

end Verif.Spsc
