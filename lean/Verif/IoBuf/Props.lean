import Verif.IoBuf.Lemmas
/-!
# C02 and C03: `IoBuf` is a lossless byte queue with the documented capacity contracts
-/
namespace Verif.IoBuf

/-- C02. For every initial capacity and every history of calls that respects the preconditions, no call
is undefined behaviour (no access outside the allocation), every observation is that of a byte queue,
and afterwards `InputBuffer()` shows exactly the unread bytes of that queue (all of them initialised). -/
theorem ioBuf_is_byte_queue (capacity : Nat) (h0 : 0 < capacity) (hc : capacity ≤ 2 ^ 63)
    (ops : List Op) :
    ∃ b, create capacity = some b ∧
      (Valid b ops → ∃ b', Common.run Buf.step b ops = some ((specRun [] ops).1, b') ∧
        b'.input = some ((specRun [] ops).2.map some) ∧
        b'.offs ≤ b'.size ∧ b'.size ≤ b'.cap) := by
  obtain ⟨b, hb, hr⟩ := create_rep h0 hc
  refine ⟨b, hb, fun hv => ?_⟩
  obtain ⟨b', hb', hr'⟩ := run_rep ops hr hv
  exact ⟨b', hb', input_of_rep hr', hr'.h1, hr'.h2⟩

/-- States reachable by in-contract histories. -/
def Reachable (b : Buf) : Prop :=
  ∃ c b0 ops outs, 0 < c ∧ c ≤ 2 ^ 63 ∧ create c = some b0 ∧ Valid b0 ops ∧
    Common.run Buf.step b0 ops = some (outs, b)

theorem Reachable.rep {b : Buf} (h : Reachable b) : ∃ q, Rep b q := by
  obtain ⟨c, b0, ops, outs, h0, hc, hb0, hv, hrun⟩ := h
  obtain ⟨b1, hb1, hr⟩ := create_rep h0 hc
  rw [hb0, Option.some.injEq] at hb1
  subst hb1
  obtain ⟨b', hb', hr'⟩ := run_rep ops hr hv
  rw [hrun, Option.some.injEq, Prod.mk.injEq] at hb'
  exact ⟨_, hb'.2 ▸ hr'⟩

/-- C03, `EnsureCapacity(n)`: afterwards at least `n` bytes can be appended, the unread bytes are
unchanged, and nothing at all happens when `n` already fits. -/
theorem ensureCapacity_contract (b : Buf) (hb : Reachable b) (n : Nat) (hn : b.size + n ≤ 2 ^ 63) :
    ∃ b', b.ensureCapacity n = some b' ∧ n ≤ b'.appendLen ∧ b'.input = b.input ∧
      (n ≤ b.appendLen → b' = b) := by
  obtain ⟨q, hr⟩ := hb.rep
  obtain ⟨b', hb', hr', ha, hid, _⟩ := ensure_rep hr hn
  exact ⟨b', hb', ha, by rw [input_of_rep hr, input_of_rep hr'], hid⟩

/-- C03, `Reserve(n)`: afterwards the capacity is at least `n` and never smaller than before, the unread
bytes are unchanged; the memory is replaced (generation changes) exactly when `n >= capacity`, and then
the new capacity is the least power of two that is at least `n`. -/
theorem reserve_contract (b : Buf) (hb : Reachable b) (n : Nat) (hn : n ≤ 2 ^ 63) :
    ∃ b', b.reserve n = some b' ∧ n ≤ b'.cap ∧ b.cap ≤ b'.cap ∧ b'.input = b.input ∧
      (n < b.cap → b' = b) ∧ (b.cap ≤ n → IsBitCeil n b'.cap ∧ b'.gen = b.gen + 1) := by
  obtain ⟨q, hr⟩ := hb.rep
  obtain ⟨b', hb', hr', h1, h2, h3, h4⟩ := reserve_rep hr hn
  exact ⟨b', hb', h1, h2, by rw [input_of_rep hr, input_of_rep hr'], h3,
    fun h => ⟨(h4 h).1, (h4 h).2.1⟩⟩

/-- C03, `ShrinkTo(t)`: the unread bytes are unchanged; it returns true exactly when `t` is below the
capacity and the least power of two that is at least `t` is below the capacity and holds the unread
bytes; then the capacity is that power of two and the memory was replaced; otherwise nothing changes. -/
theorem shrinkTo_contract (b : Buf) (hb : Reachable b) (t : Nat) (ht : t ≤ 2 ^ 63) :
    ∃ r b', b.shrinkTo t = some (r, b') ∧ b'.input = b.input ∧
      (r = true ↔ ∃ p, IsBitCeil t p ∧ t < b.cap ∧ p < b.cap ∧ b.inputLen ≤ p) ∧
      (r = true → IsBitCeil t b'.cap ∧ b'.gen = b.gen + 1) ∧ (r = false → b' = b) := by
  obtain ⟨q, hr⟩ := hb.rep
  obtain ⟨r, b', hb', hr', h1, h2, h3⟩ := shrink_rep hr ht
  refine ⟨r, b', hb', by rw [input_of_rep hr, input_of_rep hr'], ?_, h2, h3⟩
  rw [h1, hr.hl]; rfl

/-- C03, generation: `ConsumeInput`, `Compact` and committing never replace the memory. -/
theorem generation_stable (b : Buf) (hb : Reachable b) :
    (∀ n, ∃ b', b.consumeInput n = some b' ∧ b'.gen = b.gen ∧ b'.cap = b.cap) ∧
    (∃ b', b.compact = some b' ∧ b'.gen = b.gen ∧ b'.cap = b.cap) ∧
    (∀ bs : List UInt8, bs.length ≤ b.appendLen →
      ∃ b', b.fillAndCommit bs = some b' ∧ b'.gen = b.gen ∧ b'.cap = b.cap) := by
  obtain ⟨q, hr⟩ := hb.rep
  refine ⟨fun n => ?_, ?_, fun bs hbs => ?_⟩
  · obtain ⟨b', h1, _, h3, h4⟩ := consume_rep hr n; exact ⟨b', h1, h3, h4⟩
  · obtain ⟨b', h1, _, h3, h4, _⟩ := compact_rep hr; exact ⟨b', h1, h3, h4⟩
  · obtain ⟨b', h1, _, h3, h4⟩ := fill_rep hr hbs; exact ⟨b', h1, h3, h4⟩

/-- C02, move: the target gets the source's bytes (and the source the target's). -/
theorem move_transfers_content (self other : Buf) :
    (moveAssign self other).1.input = other.input ∧ (moveAssign self other).2.input = self.input :=
  ⟨rfl, rfl⟩

/-- A concrete history: grow, compact by consuming, shrink. -/
example : (create 2).bind (fun b => (Common.run Buf.step b
    [.writeAndCommit [1, 2, 3], .consumeInput 2, .writeAndCommit [4, 5, 6, 7, 8], .readAndConsume 3,
     .shrinkTo 3, .inputBuffer]).map Prod.fst)
    = some [.unit, .unit, .unit, .bytes [some 3, some 4, some 5], .unit,
      .bytes [some 6, some 7, some 8]] := by decide

/-- The hypotheses of the contracts are met by a non-trivial reachable state. -/
example : ∃ b, Reachable b ∧ b.input = some [some 2, some 3] ∧ b.cap = 4 :=
  ⟨_, ⟨2, _, [.writeAndCommit [1, 2, 3], .consumeInput 1], _, by decide, by decide, rfl,
    ⟨(by decide : 0 + 3 ≤ 2 ^ 63), fun _ _ _ => ⟨trivial, fun _ _ _ => trivial⟩⟩, rfl⟩, by decide, by decide⟩

end Verif.IoBuf
