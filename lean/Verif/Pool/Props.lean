import Verif.Pool.Spec
import Mathlib.Data.Nat.ModEq
import Mathlib.Data.List.Nodup
/-!
C72: the threads of the pool are spread over the online CPUs and found by CPU; the choice of the next proactor; running a function
on all threads. C73: the strings of the pool.
-/
namespace Verif.Pool
open Verif.Common

/-! ### Pinning -/

theorem filter_range'_cons (b : Bool) (bs : List Bool) (a : Nat) :
    ((List.range' a (b :: bs).length).filter fun c => (b :: bs)[c - a]? == some true) =
      (if b then [a] else []) ++ (List.range' (a + 1) bs.length).filter fun c => bs[c - (a + 1)]? == some true := by
  rw [List.length_cons, List.range'_succ]
  have : ((List.range' (a + 1) bs.length).filter fun c => (b :: bs)[c - a]? == some true) =
      (List.range' (a + 1) bs.length).filter fun c => bs[c - (a + 1)]? == some true := by
    apply List.filter_congr
    intro c hc
    have := (List.mem_range'_1.1 hc).1
    rw [show c - a = (c - (a + 1)) + 1 from by omega, List.getElem?_cons_succ]
  cases b with
  | true => rw [List.filter_cons_of_pos (by simp), this]; rfl
  | false => rw [List.filter_cons_of_neg (by simp), this]; rfl

theorem scan_spec (n : Nat) : ∀ (bs : List Bool) (a : Nat) (arr : List Nat), 0 < bs.count true → arr.length + bs.count true = n →
    (scan n bs a arr).1 = arr ++ ((List.range' a bs.length).filter fun c => bs[c - a]? == some true) ∧
    (∀ c ∈ (List.range' a bs.length).filter fun c => bs[c - a]? == some true, c ≤ (scan n bs a arr).2)
  | [], a, arr, h0, _ => by simp at h0
  | b :: bs, a, arr, h0, hn => by
    rw [filter_range'_cons]
    cases b with
    | false =>
      rw [List.count_cons_of_ne (by decide)] at h0 hn
      have := scan_spec n bs (a + 1) arr h0 hn
      simpa [scan] using this
    | true =>
      rw [List.count_cons_self] at hn
      simp only [scan, if_true]
      by_cases hz : bs.count true = 0
      · rw [if_pos (by rw [List.length_append, List.length_singleton]; omega)]
        have hnil : ((List.range' (a + 1) bs.length).filter fun c => bs[c - (a + 1)]? == some true) = [] := by
          rw [List.filter_eq_nil_iff]
          intro c _ hc
          exact (List.count_eq_zero.1 hz) (List.mem_of_getElem? (by simpa using hc))
        rw [hnil]
        refine ⟨by simp, fun c hc => ?_⟩
        simp at hc
        omega
      · rw [if_neg (by rw [List.length_append, List.length_singleton]; omega)]
        have := scan_spec n bs (a + 1) (arr ++ [a]) (by omega) (by rw [List.length_append, List.length_singleton]; omega)
        refine ⟨by rw [this.1, List.append_assoc], fun c hc => ?_⟩
        rcases List.mem_append.1 hc with hc | hc
        · rw [List.mem_singleton.1 hc]
          -- the list behind is not empty and its members are larger
          obtain ⟨j, hj, hjt⟩ := List.mem_iff_getElem.1 (List.count_pos_iff.1 (Nat.pos_of_ne_zero hz))
          have hm : a + 1 + j ∈ (List.range' (a + 1) bs.length).filter fun c => bs[c - (a + 1)]? == some true := by
            rw [List.mem_filter]
            refine ⟨List.mem_range'_1.2 ⟨by omega, by omega⟩, ?_⟩
            rw [show a + 1 + j - (a + 1) = j from by omega, List.getElem?_eq_getElem hj, hjt]
            rfl
          have := this.2 _ hm
          omega
        · exact this.2 c hc

theorem online_range' (online : List Bool) :
    ((List.range' 0 online.length).filter fun c => online[c - 0]? == some true) = onlineCpus online := by
  rw [onlineCpus, List.range_eq_range']
  rfl

theorem online_length : ∀ (bs : List Bool) (a : Nat),
    ((List.range' a bs.length).filter fun c => bs[c - a]? == some true).length = bs.count true
  | [], a => rfl
  | b :: bs, a => by
    rw [filter_range'_cons, List.length_append, online_length bs (a + 1)]
    cases b <;> simp [Nat.add_comm]

theorem resize_get (m c : Nat) : (resize [] m)[c]? = if c < m then some [] else none := by
  simp [resize, List.getElem?_replicate]

theorem pin_spec (arr : List Nat) (n : Nat) (rc : Nat → Bool) (hn : 0 < n) (harr : arr.length = n) :
    ∀ (is : List Nat) (ct : List (List Nat)), (∀ c ∈ arr, c < ct.length) →
      ∃ ct', pin arr n rc is ct = some ct' ∧ ct'.length = ct.length ∧
        ∀ (c : Nat) (l : List Nat), ct[c]? = some l → ct'[c]? = some (l ++ is.filter fun i => rc i && (arr[i % n]? == some c))
  | [], ct, _ => ⟨ct, rfl, rfl, fun c l h => by simpa using h⟩
  | i :: is, ct, hc => by
    have hi : i % n < arr.length := by rw [harr]; exact Nat.mod_lt _ hn
    have ha := List.getElem?_eq_getElem hi
    have hci : arr[i % n] < ct.length := hc _ (List.getElem_mem _)
    have hg := List.getElem?_eq_getElem hci
    unfold pin
    rw [ha]
    simp only [hg]
    obtain ⟨ct', h1, h2, h3⟩ := pin_spec arr n rc hn harr is (if rc i then ct.set arr[i % n] (ct[arr[i % n]] ++ [i]) else ct)
      (fun c hcc => by split <;> simpa using hc c hcc)
    refine ⟨ct', h1, by rw [h2]; split <;> simp, fun c l hl => ?_⟩
    by_cases hr : rc i = true
    · rw [if_pos hr] at h3
      by_cases he : arr[i % n] = c
      · have hset : (ct.set arr[i % n] (ct[arr[i % n]] ++ [i]))[c]? = some (l ++ [i]) := by
          subst he
          rw [List.getElem?_set, if_pos rfl, if_pos hci]
          rw [hg] at hl
          cases hl; rfl
        rw [h3 c _ hset, List.filter_cons_of_pos (by simp [hr, he, ha]), List.append_assoc]
        rfl
      · have hset : (ct.set arr[i % n] (ct[arr[i % n]] ++ [i]))[c]? = some l := by
          rw [List.getElem?_set, if_neg he]; exact hl
        rw [h3 c _ hset, List.filter_cons_of_neg (by simp [ha, he])]
    · rw [if_neg hr] at h3
      rw [h3 c l hl, List.filter_cons_of_neg (by simp [hr])]

/-- C72, the threads of a CPU: in a pool that pins its threads, `MapCpuToThreads` gives for each CPU exactly the threads that were
pinned to it, in order: thread `i` is pinned to the `i`-th online CPU, counted round. No check fails. -/
theorem C72_pinned (online : List Bool) (size : Nat) (rc : Nat → Bool) (hn : 0 < cpuCount online) :
    ∃ ct, setup [] online size true rc = some ct ∧
      ∀ c, mapCpu ct c = (List.range size).filter fun i => rc i && ((onlineCpus online)[i % cpuCount online]? == some c) := by
  have hs := scan_spec (cpuCount online) online 0 [] hn (by simp [cpuCount])
  rw [online_range', List.nil_append] at hs
  have hlen : (onlineCpus online).length = cpuCount online := by rw [← online_range']; exact online_length online 0
  unfold setup
  simp only [hs.1, hlen, if_true]
  have hrl : (resize [] ((scan (cpuCount online) online 0 []).2 + 1)).length = (scan (cpuCount online) online 0 []).2 + 1 := by
    simp [resize]
  obtain ⟨ct', h1, h2, h3⟩ := pin_spec (onlineCpus online) (cpuCount online) rc hn hlen (List.range size)
    (resize [] ((scan (cpuCount online) online 0 []).2 + 1)) (fun c hc => by
      rw [hrl]; have := hs.2 c hc; omega)
  refine ⟨ct', h1, fun c => ?_⟩
  unfold mapCpu
  by_cases hc : c < ct'.length
  · rw [if_neg (by omega)]
    have hg : (resize [] ((scan (cpuCount online) online 0 []).2 + 1))[c]? = some [] := by
      rw [resize_get, if_pos (by omega)]
    rw [h3 c [] hg, List.nil_append]
    rfl
  · rw [if_pos (by omega), List.filter_eq_nil_iff.2]
    intro i _ hi
    simp only [Bool.and_eq_true, beq_iff_eq] at hi
    have := hs.2 c (List.mem_of_getElem? hi.2)
    omega

/-- C72, only online CPUs have threads, and every thread whose pinning succeeded is found at exactly one CPU. -/
theorem C72_found_once (online : List Bool) (size : Nat) (rc : Nat → Bool) (hn : 0 < cpuCount online) (i : Nat) (hi : i < size)
    (hr : rc i = true) : ∃ ct, setup [] online size true rc = some ct ∧
      ∃ c, online[c]? = some true ∧ i ∈ mapCpu ct c ∧ ∀ c', i ∈ mapCpu ct c' → c' = c := by
  obtain ⟨ct, h1, h2⟩ := C72_pinned online size rc hn
  have hlen : (onlineCpus online).length = cpuCount online := by rw [← online_range']; exact online_length online 0
  have hlt : i % cpuCount online < (onlineCpus online).length := by rw [hlen]; exact Nat.mod_lt _ hn
  refine ⟨ct, h1, (onlineCpus online)[i % cpuCount online], ?_, ?_, fun c' hc' => ?_⟩
  · have := List.getElem_mem hlt
    have h3 : online[(onlineCpus online)[i % cpuCount online]]? == some true := (List.mem_filter.1 this).2
    exact beq_iff_eq.1 h3
  · rw [h2]
    simp [hi, hr, List.getElem?_eq_getElem hlt]
  · rw [h2] at hc'
    have := (List.mem_filter.1 hc').2
    simp only [List.getElem?_eq_getElem hlt, Bool.and_eq_true, beq_iff_eq, Option.some.injEq] at this
    exact this.2.symm

theorem count_mod (n r : Nat) (hr : r < n) : ∀ size, ((List.range size).filter fun i => decide (i % n = r)).length = (size + n - 1 - r) / n
  | 0 => by
    rw [List.range_zero]
    exact (Nat.div_eq_of_lt (by omega)).symm
  | s + 1 => by
    rw [List.range_succ, List.filter_append, List.length_append, count_mod n r hr s,
      show s + 1 + n - 1 - r = (s + n - 1 - r) + 1 from by omega, Nat.succ_div]
    congr 1
    by_cases hd : s % n = r
    · rw [List.filter_cons_of_pos (by simpa using hd), if_pos]
      · rfl
      · rw [show s + n - 1 - r + 1 = (s / n + 1) * n from ?_]
        · exact Nat.dvd_mul_left _ _
        · have := Nat.div_add_mod s n
          rw [Nat.add_mul, Nat.mul_comm]; omega
    · rw [List.filter_cons_of_neg (by simpa using hd), if_neg]
      · rfl
      · intro hdv
        apply hd
        have h1 : (s + n - r) % n = 0 := Nat.mod_eq_zero_of_dvd (by rw [show s + n - r = s + n - 1 - r + 1 from by omega]; exact hdv)
        have h2 : s + n = (s + n - r) + r := by omega
        have : (s + n) % n = r := by
          rw [h2, Nat.add_mod, h1, Nat.zero_add, Nat.mod_mod, Nat.mod_eq_of_lt hr]
        rwa [Nat.add_mod_right] at this

/-- C72, the threads are spread evenly: if no pinning fails, each online CPU has the number of threads divided by the number of
CPUs, or one more. -/
theorem C72_balanced (online : List Bool) (size : Nat) (hn : 0 < cpuCount online) (c : Nat) (hc : online[c]? = some true) :
    ∃ ct, setup [] online size true (fun _ => true) = some ct ∧
      size / cpuCount online ≤ (mapCpu ct c).length ∧ (mapCpu ct c).length ≤ size / cpuCount online + 1 := by
  obtain ⟨ct, h1, h2⟩ := C72_pinned online size (fun _ => true) hn
  refine ⟨ct, h1, ?_⟩
  have hlen : (onlineCpus online).length = cpuCount online := by rw [← online_range']; exact online_length online 0
  have hmem : c ∈ onlineCpus online := by
    unfold onlineCpus
    rw [List.mem_filter, List.mem_range]
    exact ⟨(List.getElem?_eq_some_iff.1 hc).1, by simp [hc]⟩
  obtain ⟨r, hr, hrc⟩ := List.mem_iff_getElem.1 hmem
  have hnd : (onlineCpus online).Nodup := List.Nodup.filter _ List.nodup_range
  have hcount : mapCpu ct c = (List.range size).filter fun i => decide (i % cpuCount online = r) := by
    rw [h2]
    apply List.filter_congr
    intro i _
    have hi : i % cpuCount online < (onlineCpus online).length := by rw [hlen]; exact Nat.mod_lt _ hn
    rw [List.getElem?_eq_getElem hi, Bool.true_and, Bool.eq_iff_iff]
    simp only [beq_iff_eq, Option.some.injEq, decide_eq_true_eq]
    rw [← hrc]
    exact ⟨fun h => (List.Nodup.getElem_inj_iff hnd).1 h, fun h => by simp [h]⟩
  rw [hcount, count_mod _ _ (by rw [← hlen]; exact hr)]
  rw [hlen] at hr
  refine ⟨Nat.div_le_div_right (by omega), ?_⟩
  rw [← Nat.add_div_right _ hn]
  exact Nat.div_le_div_right (by omega)

/-- Four CPUs of which the third is offline, five threads. -/
example : (setup [] [true, true, false, true] 5 true fun _ => true) = some [[0, 3], [1, 4], [], [2]] := by decide

/-- C72, a pool that runs a second time after `Stop`: the proactors of the first run are never deleted. -/
theorem C72_second_run_leaks (size : Nat) (online : List Bool) (rc : Nat → Bool) (s1 s2 : P)
    (h1 : (P.new size).start online rc = some s1) (h2 : s1.stop.start online rc = some s2) : s2.destroy = List.range size := by
  unfold P.start at h1
  simp only [P.new, Bool.false_eq_true, if_false] at h1
  split at h1
  · cases h1
  · cases h1
    unfold P.start at h2
    simp only [P.stop, Bool.false_eq_true, if_false] at h2
    split at h2
    · cases h2
    · cases h2
      unfold P.destroy
      simp only [List.nil_append, Nat.zero_add, List.map_id', List.filter_append]
      rw [List.filter_eq_self.2, List.filter_eq_nil_iff.2, List.append_nil]
      · intro p hp
        simpa using hp
      · intro p hp
        have := List.mem_range.1 hp
        simp only [Bool.not_eq_true', List.contains_eq_mem, decide_eq_false_iff_not, List.mem_map, List.mem_range]
        rintro ⟨q, _, h⟩
        omega

/-- C72, and it lists its threads twice. -/
theorem C72_second_run_doubles : ∃ s1 s2 : P, (P.new 2).start [true, true] (fun _ => true) = some s1 ∧
    s1.stop.start [true, true] (fun _ => true) = some s2 ∧ mapCpu s1.ct 1 = [1] ∧ mapCpu s2.ct 1 = [1, 1] :=
  ⟨_, _, rfl, rfl, by decide, by decide⟩

/-! ### The next proactor -/

theorem ninv {s : N} (h : Reachable NInit nstep s) :
    s.next < s.size ∧ (∀ (c i : Nat), s.cs[c]? = some (.loaded i) → i < s.size) ∧ ∀ i ∈ s.got, i < s.size := by
  refine Reachable.invariant (fun s => s.next < s.size ∧ (∀ (c i : Nat), s.cs[c]? = some (.loaded i) → i < s.size) ∧
    ∀ i ∈ s.got, i < s.size) ?_ ?_ h
  · rintro s ⟨h1, h2, h3, h4⟩
    refine ⟨by omega, fun c i hc => ?_, by simp [h3]⟩
    have := h4 _ (List.mem_of_getElem? hc)
    cases this
  · rintro s a s' ⟨h1, h2, h3⟩ hs
    cases a with
    | load c =>
      simp only [nstep] at hs
      split at hs
      · cases hs
        refine ⟨h1, fun c' i hc => ?_, h3⟩
        simp only [List.getElem?_set] at hc
        split at hc
        · split at hc
          · cases hc; exact h1
          · cases hc
        · exact h2 c' i hc
      · cases hs
    | store c =>
      simp only [nstep] at hs
      split at hs
      · rename_i i hi
        have := h2 c i hi
        cases hs
        refine ⟨?_, fun c' i' hc => ?_, fun i' hi' => ?_⟩
        · show (if i + 1 ≥ s.size then 0 else i + 1) < s.size
          split <;> omega
        · simp only [List.getElem?_set] at hc
          split at hc
          · split at hc
            · cases hc
            · cases hc
          · exact h2 c' i' hc
        · rcases List.mem_append.1 hi' with h | h
          · exact h3 i' h
          · rw [List.mem_singleton.1 h]; exact this
      · cases hs

/-- C72, `GetNextProactor` returns a proactor of the pool, for any interleaving of its callers. -/
theorem C72_next_in_pool {s : N} (h : Reachable NInit nstep s) : ∀ i ∈ s.got, i < s.size := (ninv h).2.2

/-- C72, calls one after another go round: the `k`-th call returns proactor `k` modulo the size. -/
theorem C72_round_robin (size : Nat) (hs : 0 < size) (k : Nat) :
    exec nstep ⟨size, 0, [.idle], []⟩ (callsInRow k) = some ⟨size, k % size, [.idle], (List.range k).map (· % size)⟩ := by
  induction k with
  | zero => simp [callsInRow, exec, Nat.zero_mod]
  | succ k ih =>
    rw [callsInRow, exec_append, ih]
    simp only [Option.bind_some, exec, nstep, List.getElem?_cons_zero, List.set_cons_zero]
    rw [List.range_succ, List.map_append]
    have hlt := Nat.mod_lt k hs
    have : (if k % size + 1 ≥ size then 0 else k % size + 1) = (k + 1) % size := by
      rw [Nat.add_mod]
      by_cases h1 : size = 1
      · subst h1; simp [Nat.mod_one]
      · rw [Nat.mod_eq_of_lt (show 1 < size by omega)]
        by_cases h2 : k % size + 1 ≥ size
        · rw [if_pos h2, show k % size + 1 = size from by omega, Nat.mod_self]
        · rw [if_neg h2, Nat.mod_eq_of_lt (a := k % size + 1) (by omega)]
    rw [this]
    rfl

/-- C72, callers that race may get the same proactor. -/
theorem C72_race_repeats : ∃ s, Reachable NInit nstep s ∧ s.got = [0, 0] ∧ s.size = 3 :=
  ⟨_, Reachable.exec (.init ⟨by decide, rfl, rfl, by decide⟩ trivial)
    (s := ⟨3, 0, [.idle, .idle], []⟩) [.load 0, .load 1, .store 0, .store 1] rfl, rfl, rfl⟩

/-! ### Running a function on all threads -/

theorem ainv {s : A} (h : Reachable AInit astep s) :
    (s.pending ++ s.ran).Perm (List.range s.sent) ∧ s.cnt + s.ran.length = s.size ∧ s.sent ≤ s.size
    ∧ (s.ret = true → s.sent = s.size ∧ s.cnt = 0) := by
  refine Reachable.invariant (fun s => (s.pending ++ s.ran).Perm (List.range s.sent) ∧ s.cnt + s.ran.length = s.size ∧
    s.sent ≤ s.size ∧ (s.ret = true → s.sent = s.size ∧ s.cnt = 0)) ?_ ?_ h
  · intro s hs
    rw [hs]
    exact ⟨List.Perm.refl _, rfl, Nat.zero_le _, fun h => (by cases h)⟩
  · rintro s a s' ⟨h1, h2, h3, h4⟩ hs
    have hlen := h1.length_eq
    rw [List.length_append, List.length_range] at hlen
    cases a with
    | send =>
      simp only [astep] at hs
      split at hs
      · cases hs
        refine ⟨?_, h2, by show s.sent + 1 ≤ s.size; omega, fun h => ?_⟩
        · show ((s.pending ++ [s.sent]) ++ s.ran).Perm (List.range (s.sent + 1))
          rw [List.range_succ, List.append_assoc]
          exact (List.perm_middle (l₁ := s.pending)).trans
            ((List.Perm.cons _ h1).trans (List.perm_append_singleton _ _).symm)
        · have := (h4 h).1
          omega
      · cases hs
    | run i =>
      simp only [astep] at hs
      split at hs
      · rename_i hi
        cases hs
        have hpos : 0 < s.pending.length := List.length_pos_of_mem hi
        refine ⟨?_, ?_, h3, fun h => ?_⟩
        · show ((s.pending.erase i) ++ (s.ran ++ [i])).Perm _
          refine List.Perm.trans ?_ h1
          rw [← List.append_assoc]
          refine (List.perm_append_singleton _ _).trans ?_
          exact ((List.perm_cons_erase hi).symm.append_right s.ran)
        · show s.cnt - 1 + (s.ran ++ [i]).length = s.size
          rw [List.length_append, List.length_singleton]
          omega
        · have := (h4 h).2
          omega
      · cases hs
    | ret =>
      simp only [astep] at hs
      split at hs
      · rename_i hc
        cases hs
        exact ⟨h1, h2, h3, fun _ => ⟨hc.1, hc.2.1⟩⟩
      · cases hs

/-- C72, running on all threads: a call that waits returns only after each thread of the pool has run the function, each exactly
once. -/
theorem C72_await_all {s : A} (h : Reachable AInit astep s) (hr : s.ret = true) : s.ran.Perm (List.range s.size) := by
  obtain ⟨h1, h2, _, h4⟩ := ainv h
  obtain ⟨h5, h6⟩ := h4 hr
  have hlen := h1.length_eq
  rw [List.length_append, List.length_range] at hlen
  have : s.pending = [] := List.length_eq_zero_iff.1 (by omega)
  rw [this, h5] at h1
  exact h1

/-- C72, and it does return: until then a thread or the caller can go on. -/
theorem C72_await_progress {s : A} (h : Reachable AInit astep s) (hr : s.ret = false) : ∃ a s', astep s a = some s' := by
  obtain ⟨h1, h2, h3, _⟩ := ainv h
  have hlen := h1.length_eq
  rw [List.length_append, List.length_range] at hlen
  by_cases hs : s.sent < s.size
  · exact ⟨.send, _, if_pos hs⟩
  · cases hp : s.pending with
    | nil =>
      rw [hp, List.length_nil] at hlen
      exact ⟨.ret, _, if_pos ⟨by omega, by omega, hr⟩⟩
    | cons i l => exact ⟨.run i, _, if_pos (by rw [hp]; exact List.mem_cons_self ..)⟩

example : ∃ s, Reachable AInit astep s ∧ s.ret = true ∧ s.ran = [1, 0, 2] :=
  ⟨_, Reachable.exec (.init (show AInit ⟨3, 0, [], [], 3, false⟩ from rfl) trivial) [.send, .send, .run 1, .run 0, .send, .run 2, .ret] rfl, rfl, rfl⟩

/-! ### Strings -/

theorem gfind_none {set : List (Str × Nat)} {src : Str} (h : gfind set src = none) (b : Nat) : (src, b) ∉ set := by
  intro hm
  unfold gfind at h
  rw [Option.map_eq_none_iff, List.find?_eq_none] at h
  exact h _ hm (by simp)

theorem gfind_some {set : List (Str × Nat)} {src : Str} {b : Nat} (h : gfind set src = some b) : (src, b) ∈ set := by
  unfold gfind at h
  obtain ⟨e, he, rfl⟩ := Option.map_eq_some_iff.1 h
  have h1 := List.find?_some he
  have h2 := List.mem_of_find?_eq_some he
  rw [beq_iff_eq] at h1
  rw [← h1]
  exact h2

/-- What holds of the strings: the set lists the blocks in order with their bytes, no string is there twice, and a call that is
done has its string's block. -/
structure GI (s : G) : Prop where
  zip : s.set = s.arena.zipIdx
  nodup : s.arena.Nodup
  look : ∀ (c : Nat) (src : Str), s.cs[c]? = some (.look src) → src ≠ []
  add : ∀ (c : Nat) (src : Str), s.cs[c]? = some (.add src) → src ≠ []
  done : ∀ (c : Nat) (src : Str) (o : Option Nat), s.cs[c]? = some (.done src o) →
    (src = [] ∧ o = none) ∨ (src ≠ [] ∧ ∃ b, o = some b ∧ s.arena[b]? = some src)
  ne : [] ∉ s.arena

theorem GI.zip_mem {s : G} (h : GI s) {src : Str} {b : Nat} (hm : (src, b) ∈ s.set) : s.arena[b]? = some src := by
  rw [h.zip] at hm
  exact List.mk_mem_zipIdx_iff_getElem?.1 hm

theorem GI.set_done {s : G} (h : GI s) {c : Nat} {src : Str} {b : Nat} (hne : src ≠ []) (hb : s.arena[b]? = some src) :
    GI { s with cs := s.cs.set c (.done src (some b)) } := by
  refine ⟨h.zip, h.nodup, fun k x hk => ?_, fun k x hk => ?_, fun k x o hk => ?_, h.ne⟩ <;>
    simp only [List.getElem?_set] at hk <;> split at hk
  · split at hk <;> cases hk
  · exact h.look k x hk
  · split at hk <;> cases hk
  · exact h.add k x hk
  · split at hk
    · cases hk; exact Or.inr ⟨hne, b, rfl, hb⟩
    · cases hk
  · exact h.done k x o hk

theorem gi_step {s s' : G} {a : GAct} (h : GI s) (hs : gstep s a = some s') : GI s' := by
  cases a with
  | call src =>
    simp only [gstep, Option.some.injEq] at hs
    subst hs
    have key : ∀ (k : Nat) (p : GPc), (s.cs ++ [if src = [] then GPc.done src none else .look src])[k]? = some p →
        s.cs[k]? = some p ∨ p = if src = [] then GPc.done src none else .look src := by
      intro k p hk
      rw [List.getElem?_append] at hk
      split at hk
      · exact Or.inl hk
      · right
        have := List.mem_of_getElem? hk
        simpa using this
    refine ⟨h.zip, h.nodup, fun k x hk => ?_, fun k x hk => ?_, fun k x o hk => ?_, h.ne⟩ <;> rcases key k _ hk with hk | hk
    · exact h.look k x hk
    · split at hk
      · cases hk
      · cases hk; assumption
    · exact h.add k x hk
    · split at hk <;> cases hk
    · exact h.done k x o hk
    · split at hk
      · cases hk; exact Or.inl ⟨by assumption, rfl⟩
      · cases hk
  | step c =>
    simp only [gstep] at hs
    split at hs
    · rename_i src hc
      split at hs
      · rename_i b hb
        cases hs
        exact h.set_done (h.look c src hc) (h.zip_mem (gfind_some hb))
      · cases hs
        refine ⟨h.zip, h.nodup, fun k x hk => ?_, fun k x hk => ?_, fun k x o hk => ?_, h.ne⟩ <;>
          simp only [List.getElem?_set] at hk <;> split at hk
        · split at hk <;> cases hk
        · exact h.look k x hk
        · split at hk
          · cases hk; exact h.look c src hc
          · cases hk
        · exact h.add k x hk
        · split at hk <;> cases hk
        · exact h.done k x o hk
    · rename_i src hc
      have hne := h.add c src hc
      split at hs
      · rename_i b hb
        cases hs
        exact h.set_done hne (h.zip_mem (gfind_some hb))
      · rename_i hf
        cases hs
        have hnot : src ∉ s.arena := by
          intro hm
          obtain ⟨b, hb, he⟩ := List.mem_iff_getElem.1 hm
          apply gfind_none hf b
          rw [h.zip]
          exact List.mk_mem_zipIdx_iff_getElem?.2 (by rw [List.getElem?_eq_getElem hb, he])
        have hw : GI { s with set := s.set ++ [(src, s.arena.length)], arena := s.arena ++ [src] } := by
          refine ⟨?_, ?_, h.look, h.add, fun k x o hk => ?_, ?_⟩
          · show s.set ++ [(src, s.arena.length)] = (s.arena ++ [src]).zipIdx
            rw [List.zipIdx_append, ← h.zip]
            simp
          · show (s.arena ++ [src]).Nodup
            rw [List.nodup_append]
            refine ⟨h.nodup, by simp, fun a ha b hb e => ?_⟩
            rw [List.mem_singleton.1 hb] at e
            exact hnot (e ▸ ha)
          · rcases h.done k x o hk with h1 | ⟨h1, b, h2, h3⟩
            · exact Or.inl h1
            · refine Or.inr ⟨h1, b, h2, ?_⟩
              show (s.arena ++ [src])[b]? = some x
              rw [List.getElem?_append_left (List.getElem?_eq_some_iff.1 h3).1]
              exact h3
          · show [] ∉ s.arena ++ [src]
            intro hm
            rcases List.mem_append.1 hm with hm | hm
            · exact h.ne hm
            · exact hne (List.mem_singleton.1 hm).symm
        exact hw.set_done hne (by show (s.arena ++ [src])[s.arena.length]? = some src; simp)
    · cases hs

theorem gi {s : G} (h : Reachable (· = G.init) gstep s) : GI s :=
  Reachable.invariant GI (fun s hs => by
    subst hs
    exact ⟨rfl, List.nodup_nil, fun c x hc => (by cases hc), fun c x hc => (by cases hc), fun c x o hc => (by cases hc),
      List.not_mem_nil⟩) (fun _ _ _ hi hs => gi_step hi hs) h

/-- C73, `GetString` returns a block with the bytes of its argument, which the pool owns; an empty argument is returned as it is. -/
theorem C73_same_bytes {s : G} (h : Reachable (· = G.init) gstep s) {c : Nat} {src : Str} {o : Option Nat}
    (hc : s.cs[c]? = some (.done src o)) :
    (src = [] ∧ o = none) ∨ (src ≠ [] ∧ ∃ b, o = some b ∧ s.arena[b]? = some src) := (gi h).done c src o hc

/-- C73, two calls, by whatever threads, return the same block exactly if their arguments are equal. -/
theorem C73_interned {s : G} (h : Reachable (· = G.init) gstep s) {c d : Nat} {x y : Str} {o p : Option Nat}
    (hc : s.cs[c]? = some (.done x o)) (hd : s.cs[d]? = some (.done y p)) : o = p ↔ x = y := by
  have hi := gi h
  rcases hi.done c x o hc with ⟨h1, h2⟩ | ⟨h1, b, h2, h3⟩ <;> rcases hi.done d y p hd with ⟨k1, k2⟩ | ⟨k1, b', k2, k3⟩
  · simp [h1, h2, k1, k2]
  · rw [h1, h2, k2]
    exact ⟨fun e => (by cases e), fun e => absurd e.symm k1⟩
  · rw [k1, k2, h2]
    exact ⟨fun e => (by cases e), fun e => absurd e h1⟩
  · rw [h2, k2]
    constructor
    · intro e
      cases e
      rw [h3] at k3
      exact Option.some.inj k3
    · rintro rfl
      obtain ⟨hb, e1⟩ := List.getElem?_eq_some_iff.1 h3
      obtain ⟨hb', e2⟩ := List.getElem?_eq_some_iff.1 k3
      rw [(List.Nodup.getElem_inj_iff hi.nodup).1 (e1.trans e2.symm)]

/-- C73, one block per string: however many calls race, a string is copied once. -/
theorem C73_copied_once {s : G} (h : Reachable (· = G.init) gstep s) : s.arena.Nodup := (gi h).nodup

/-- C73, a block that was returned stays as it is: no later step changes or moves it. -/
theorem C73_stable {s s' : G} (acts : List GAct) (he : exec gstep s acts = some s') : s.arena <+: s'.arena := by
  induction acts generalizing s with
  | nil => cases he; exact List.prefix_refl _
  | cons a as ih =>
    simp only [exec] at he
    cases hst : gstep s a with
    | none => rw [hst] at he; cases he
    | some s1 =>
      rw [hst] at he
      refine List.IsPrefix.trans ?_ (ih he)
      cases a with
      | call src => cases hst; exact List.prefix_refl _
      | step c =>
        simp only [gstep] at hst
        split at hst
        · split at hst <;> cases hst <;> exact List.prefix_refl _
        · split at hst
          · cases hst; exact List.prefix_refl _
          · cases hst; exact List.prefix_append _ _
        · cases hst

/-- Two callers race for one string, a third asks for another one. -/
example : ∃ s, Reachable (· = G.init) gstep s ∧ s.cs = [.done [7] (some 0), .done [7] (some 0), .done [8] (some 1), .done [] none] :=
  ⟨_, Reachable.exec (.init rfl trivial)
    [.call [7], .call [7], .step 0, .step 1, .step 1, .step 0, .call [8], .call [], .step 2, .step 2] rfl, rfl⟩

end Verif.Pool
