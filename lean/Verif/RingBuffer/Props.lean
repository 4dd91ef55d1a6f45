import Verif.RingBuffer.Lemmas
/-!
# C01: `RingBuffer` is a bounded FIFO, also across counter wrap-around
-/
namespace Verif.RingBuffer
variable {α : Type}

/-- C01. A ring created with a power-of-two capacity gives, on every history of calls of any length,
exactly the outputs of a bounded FIFO of that capacity (both sides are `none` exactly when some call
violates its precondition, so in particular no in-contract call is undefined behaviour).
There is no bound on the number of calls, so the histories include those in which the 32-bit
counters wrap around. -/
theorem ringBuffer_is_bounded_fifo (k : Nat) (hk : k ≤ 31) (d : α) (ops : List (Op α)) :
    ∃ r, create (UInt32.ofNat (2 ^ k)) d = some r ∧
      (r.run ops).map Prod.fst = (specRun (2 ^ k) [] ops).map Prod.fst := by
  have hp := pow_le31 hk
  have hpos := Nat.two_pow_pos k
  have hc : (UInt32.ofNat (2 ^ k)).toNat = 2 ^ k := by
    rw [UInt32.toNat_ofNat']; omega
  have hm : (UInt32.ofNat (2 ^ k) - 1).toNat = 2 ^ k - 1 := by
    rw [UInt32.toNat_sub, hc, UInt32.toNat_one]; omega
  have h0 : (UInt32.ofNat (2 ^ k) - 1) &&& UInt32.ofNat (2 ^ k) = 0 := by
    apply UInt32.toNat_inj.mp
    rw [UInt32.and_comm, and_mask hm, hc]; simp
  refine ⟨_, by simp only [create, h0, if_true]; rfl, ?_⟩
  refine (run_refines ops (k := k) (q := []) ⟨hk, hc, hm, ?_, ?_, ?_, ?_⟩).1
  · simp [hc]
  · simp [RB.size]
  · simp
  · intro i hi; simp at hi

/-- C01, from any counter position: a ring whose counters stand anywhere (for instance just before
2^32) and whose slots hold the queue `q` also behaves as a bounded FIFO holding `q`. This is the
wrap-around case made explicit. -/
theorem ringBuffer_fifo_from_any_position (k : Nat) (hk : k ≤ 31) (head : UInt32) (buf q : List α)
    (hbuf : buf.length = 2 ^ k) (hq : q.length ≤ 2 ^ k)
    (hstored : ∀ i, i < q.length → buf[(head.toNat + i) % 2 ^ k]? = q[i]?)
    (ops : List (Op α)) :
    ((RB.mk (UInt32.ofNat (2 ^ k)) (UInt32.ofNat (2 ^ k) - 1) head
        (head + UInt32.ofNat q.length) buf).run ops).map Prod.fst
      = (specRun (2 ^ k) q ops).map Prod.fst := by
  have hp := pow_le31 hk
  have hpos := Nat.two_pow_pos k
  have hc : (UInt32.ofNat (2 ^ k)).toNat = 2 ^ k := by
    rw [UInt32.toNat_ofNat']; omega
  have hm : (UInt32.ofNat (2 ^ k) - 1).toNat = 2 ^ k - 1 := by
    rw [UInt32.toNat_sub, hc, UInt32.toNat_one]; omega
  refine (run_refines ops (k := k) ⟨hk, hc, hm, hbuf, ?_, hq, hstored⟩).1
  have := head.toNat_lt
  simp only [RB.size, UInt32.toNat_sub, UInt32.toNat_add, UInt32.toNat_ofNat']
  omega

/-- A concrete history (capacity 2, overriding and dequeueing). -/
example : (create 2 (0 : Nat)).bind (fun r => (r.run
    [.tryEmplace 1, .tryEmplace 2, .tryEmplace 3, .emplaceOrOverride 4, .get 1, .tryDeque,
     .size, .consumeHead 1, .tryDeque]).map Prod.fst)
    = some [.bool true, .bool true, .bool false, .bool true, .elem 4, .deque (some 2),
      .num 1, .unit, .deque none] := by decide

/-- A concrete history that wraps the counters: head starts at 2^32-1. -/
example : ((RB.mk 2 1 (0xFFFFFFFF : UInt32) 0 [5, 7]).run
    [.get 0, .tryEmplace 8, .full, .tryDeque, .tryDeque, .tryDeque]).map Prod.fst
    = some [.elem 7, .bool true, .bool true, .deque (some 7), .deque (some 8), .deque none] := by
  decide

end Verif.RingBuffer
