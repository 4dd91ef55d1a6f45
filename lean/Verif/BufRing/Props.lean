import Verif.BufRing.Lemmas

/-!
# C43: provided-buffer ring accounting

`Reach c s`: the group was registered with `n` buffers of `esize` bytes, and since then the kernel has
received and the client's callback has run any number of times, in any order the kernel may choose.
-/
namespace Verif.BufRing

/-- **C43** Whatever the history, processing the oldest completion is defined and hands the client
exactly the bytes of that completion, in order, in non-empty slices each of which lies inside one
buffer. -/
theorem C43_exact_bytes (c : Cfg) (h : Legal c) (s : Sys) (hr : Reach c s) (x : Compl) (rest : List Compl)
    (hp : s.pend = x :: rest) :
    ∃ ss s', step c s .process = some (some (x, ss), s') ∧ handed ss = bytes c x ∧
      ∀ sl ∈ ss, 0 < sl.len ∧ ∃ b, b < c.n ∧ b * c.esize ≤ sl.addr ∧ sl.addr + sl.len ≤ (b + 1) * c.esize := by
  obtain ⟨ss, g, e1, e2, e3, _, _⟩ := process_ok h (reach_inv h hr) hp
  refine ⟨ss, _, by simp only [step, hp, e1]; rfl, e2, ?_⟩
  intro sl hsl
  exact ⟨(e3 sl hsl).2, (e3 sl hsl).1⟩

theorem mod_window {N a b lo : Nat} (h1 : lo ≤ a) (h2 : a < lo + N) (h3 : lo ≤ b) (h4 : b < lo + N)
    (h : a % N = b % N) : a = b := by
  have ha := Nat.div_add_mod a N
  have hb := Nat.div_add_mod b N
  rw [h] at ha
  rcases Nat.lt_trichotomy (a / N) (b / N) with hq | hq | hq
  · have : N * (a / N + 1) ≤ N * (b / N) := Nat.mul_le_mul_left N hq
    rw [Nat.mul_add, Nat.mul_one] at this
    omega
  · rw [hq] at ha; omega
  · have : N * (b / N + 1) ≤ N * (a / N) := Nat.mul_le_mul_left N hq
    rw [Nat.mul_add, Nat.mul_one] at this
    omega

/-- **C43** The bytes of completions that wait to be processed are at pairwise different storage
offsets, inside the storage: the kernel never overwrites bytes the client has not seen. -/
theorem C43_disjoint (c : Cfg) (h : Legal c) (s : Sys) (hr : Reach c s) :
    (s.pend.flatMap (bytes c)).Nodup ∧ ∀ a ∈ s.pend.flatMap (bytes c), a < c.n * c.esize := by
  have hi := reach_inv h hr
  obtain ⟨off, hg, _, hq⟩ := hi.g
  obtain ⟨o1, o2⟩ := hq.ordered h.epos
  have hN : 0 < c.n * c.esize := Nat.mul_pos h.npos h.epos
  have hwin : ∀ x ∈ s.pend, ∀ i, i < x.len →
      s.head * c.esize ≤ x.start + i ∧ x.start + i < s.head * c.esize + c.n * c.esize := by
    intro x hx i hi2
    have h1 := o1 x hx
    have h2 := hi.win x hx
    rw [Nat.add_mul] at h2
    omega
  refine ⟨?_, ?_⟩
  · have : ∀ l : List Compl, (∀ x ∈ l, x ∈ s.pend) →
        l.Pairwise (fun x y => x.start + x.len ≤ y.start) → (l.flatMap (bytes c)).Nodup := by
      intro l
      induction l with
      | nil => intro _ _; simp
      | cons x l ih =>
        intro hm hp
        rw [List.flatMap_cons, List.nodup_append]
        refine ⟨?_, ih (fun y hy => hm y (List.mem_cons_of_mem _ hy)) (List.pairwise_cons.1 hp).2, ?_⟩
        · unfold bytes
          rw [List.nodup_iff_pairwise_ne, List.pairwise_map]
          refine List.Pairwise.imp_of_mem ?_ List.nodup_range
          intro i j hi2 hj hne e
          have a1 := hwin x (hm x (List.mem_cons_self ..)) i (List.mem_range.1 hi2)
          have a2 := hwin x (hm x (List.mem_cons_self ..)) j (List.mem_range.1 hj)
          have := mod_window a1.1 a1.2 a2.1 a2.2 e
          omega
        · intro a ha b hb e
          subst e
          obtain ⟨y, hy, hby⟩ := List.mem_flatMap.1 hb
          unfold bytes at ha hby
          obtain ⟨i, hi2, rfl⟩ := List.mem_map.1 ha
          obtain ⟨j, hj, e⟩ := List.mem_map.1 hby
          have a1 := hwin x (hm x (List.mem_cons_self ..)) i (List.mem_range.1 hi2)
          have a2 := hwin y (hm y (List.mem_cons_of_mem _ hy)) j (List.mem_range.1 hj)
          have := mod_window a2.1 a2.2 a1.1 a1.2 e
          have h3 := (List.pairwise_cons.1 hp).1 y hy
          have := List.mem_range.1 hi2
          omega
    exact this s.pend (fun _ h => h) o2
  · intro a ha
    obtain ⟨x, _, hx⟩ := List.mem_flatMap.1 ha
    obtain ⟨i, _, rfl⟩ := List.mem_map.1 hx
    exact Nat.mod_lt _ hN

/-- **C43** (consecutive) On an incremental ring, two completions the kernel posts one after the other
without giving up a buffer are handed out as consecutive bytes. -/
theorem C43_consecutive (c : Cfg) (hi : c.inc = true) (s : Sys) (l1 l2 : Nat) (m1 m2 skip : Bool)
    (o1 o2) (s1 s2 : Sys) (h1 : step c s (.recv l1 skip m1) = some (o1, s1))
    (h2 : step c s1 (.recv l2 false m2) = some (o2, s2)) :
    ∃ x y : Compl, s2.pend = s.pend ++ [x, y] ∧ x.len = l1 ∧ y.len = l2 ∧ y.start = x.start + x.len ∧
      bytes c x ++ bytes c y = (List.range (l1 + l2)).map fun i => (x.start + i) % (c.n * c.esize) := by
  simp only [step, Option.some.injEq, Prod.mk.injEq] at h1 h2
  obtain ⟨_, rfl⟩ := h1
  obtain ⟨_, rfl⟩ := h2
  refine ⟨⟨if skip then up c s.pos else s.pos, l1, m1⟩,
    ⟨(if skip then up c s.pos else s.pos) + l1, l2, m2⟩, ?_, rfl, rfl, rfl, ?_⟩
  · simp [Compl.stop, hi]
  · exact (from_add c _ l1 l2).symm

/-- **C43** (limit) The condition that the storage fits in 32 bits is needed: `bid * entry_size` is
computed in 32 bits, so in a ring of 16384 buffers of 512 KiB, which `RegisterBufferRing` accepts,
buffers 0 and 8192 are the same memory. -/
theorem C43_large_ring_aliases :
    let c : Cfg := ⟨16384, 524288, true⟩
    0 < c.n ∧ c.n < 32768 ∧ c.n ∣ 65536 ∧ 8192 < c.n ∧ base c 0 = base c 8192 := by
  refine ⟨by decide, by decide, by decide, by decide, by decide +kernel⟩

/-- A legal ring of four buffers of ten bytes. -/
theorem legal4 (inc : Bool) : Legal ⟨4, 10, inc⟩ := ⟨by cases inc <;> decide, by cases inc <;> decide, by cases inc <;> decide, by cases inc <;> decide⟩

/-- Its history: three bytes, four more in the same buffer, a bundle over the next boundary, one more
buffer given up; all processed. The slices are where the bytes are. -/
example :
    let c : Cfg := ⟨4, 10, true⟩
    let acts : List Act := [.recv 3 false true, .recv 4 false true, .recv 15 false false,
      .recv 5 true true, .process, .process, .process, .process]
    (acts.foldl (fun (p : Option (List (Option (Compl × List Slice)) × Sys)) a =>
      match p with
      | none => none
      | some (os, s) =>
        if decide (Allowed c s a) then
          match step c s a with
          | none => none
          | some (o, s') => some (os ++ [o], s')
        else none) (some ([], Sys.init c))).map (fun p => p.1.filterMap (fun o => o.map (·.2))) =
      some [[⟨0, 3⟩], [⟨3, 4⟩], [⟨7, 3⟩, ⟨10, 10⟩, ⟨20, 2⟩], [⟨30, 5⟩]] := by decide +kernel

end Verif.BufRing
