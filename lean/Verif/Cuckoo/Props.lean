import Verif.Cuckoo.Total
/-!
# C12: the cuckoo map behaves like a dictionary

The specification is `Spec.lean`. Histories are those the class allows: `Common.run dictStep` is defined.
-/
namespace Verif.Cuckoo

/-- A map made by the constructor with capacity `c`, after the calls `ops`, which the class allows and which
answered `os`; `d` is the dictionary the caller has in mind. -/
structure After (g0 : Nat → Nat) (f c : Nat) (ops : List Op) (os : List Obs) (t : Table) (d : Dict) : Prop where
  ran : ∃ t0, create g0 c = some t0 ∧ Common.run (step g0 f) t0 ops = some (os, t)
  legal : ∃ os', Common.run dictStep Dict.new ops = some (os', d)

theorem After.inv {g0 : Nat → Nat} {f c : Nat} {ops : List Op} {os : List Obs} {t : Table} {d : Dict}
    (h : After g0 f c ops os t d) (hf : Obs.compacted false ∉ os) :
    Common.run dictStep Dict.new ops = some (os, d) ∧ (∃ L, R t d L) ∧ t.cnt % 2 = 1 := by
  obtain ⟨t0, h1, h2⟩ := h.ran
  obtain ⟨os', h3⟩ := h.legal
  obtain ⟨a1, a2⟩ := create_ok h1
  obtain ⟨b1, b2, b3⟩ := run_ok ops t0 t Dict.new d [] os os' a1 h2 h3 hf
  rw [b1]
  exact ⟨h3, b2, b3 a2⟩

/-- The constructor always succeeds. -/
theorem C12_create (g0 : Nat → Nat) (c : Nat) : ∃ t, create g0 c = some t := init_total _ _ _

/-- **A dictionary**: whatever calls are made, as long as Compact does not fail, every call answers as the
dictionary does: Insert and find show the value of the first insertion of the key, growing and compacting
lose nothing, and size() is the number of keys. Missing: histories in which Compact answered false (where it
is false, see `C12_compact_false`), and 32-bit overflow of bucket numbers. -/
theorem C12_dictionary_partial {g0 : Nat → Nat} {f c : Nat} {ops : List Op} {os : List Obs} {t : Table}
    {d : Dict} (h : After g0 f c ops os t d) (hf : Obs.compacted false ∉ os) :
    Common.run dictStep Dict.new ops = some (os, d) := (h.inv hf).1

/-- Afterwards, find answers exactly for the keys of the dictionary, with their values. -/
theorem C12_find {g0 : Nat → Nat} {f c : Nat} {ops : List Op} {os : List Obs} {t : Table}
    {d : Dict} (h : After g0 f c ops os t d) (hf : Obs.compacted false ∉ os) {k : Nat}
    (hk : d.emptyKey ≠ some k) (hk0 : d.emptyKey = none → k ≠ 0) :
    (find t k).map (fromDense t) = (d.get k).map (Slot.mk k) := by
  obtain ⟨_, ⟨L, hR⟩, _⟩ := h.inv hf
  have hd : dictStep d (.find k) = some (.found ((d.get k).map (Slot.mk k)), d) := by
    simp only [dictStep]
    rw [if_neg]
    cases hE : d.emptyKey with
    | none => exact hk0 hE
    | some e =>
      rw [hE] at hk
      intro e'
      exact hk (by rw [e']; rfl)
  have := (step_ok (g0 := g0) (f := f) hR (op := .find k) rfl hd (by intro e; cases e)).1
  simpa using this

/-- No key is stored twice: two different ids of the table never hold the same key. -/
theorem C12_unique {g0 : Nat → Nat} {f c : Nat} {ops : List Op} {os : List Obs} {t : Table}
    {d : Dict} (h : After g0 f c ops os t d) (hf : Obs.compacted false ∉ os) {i j : Nat}
    (hi : i < capacity t) (hj : j < capacity t) (he : (fromDense t i).key ≠ t.empty)
    (hij : (fromDense t i).key = (fromDense t j).key) : i = j := by
  obtain ⟨_, ⟨L, hR⟩, _⟩ := h.inv hf
  unfold capacity bucketLen at hi hj
  unfold fromDense bucketLen at he hij
  obtain ⟨h1, h2⟩ := hR.rep.uniq (i / 4) (i % 4) (j / 4) (j % 4) (by omega) (by omega) (by omega) (by omega) he hij
  omega

/-- **Calls return**: if every growth asks for more buckets, each call the class allows returns without a
failed check. -/
theorem C12_calls_return {g0 : Nat → Nat} {f c : Nat} {ops : List Op} {os : List Obs} {t : Table}
    {d : Dict} (h : After g0 f c ops os t d) (hf : Obs.compacted false ∉ os) (hg : ∀ n, n < t.growth n)
    {op : Op} (hl : (dictStep d op).isSome = true) :
    ∃ f0, ∀ f', f0 ≤ f' → (step g0 f' t op).isSome = true := by
  obtain ⟨_, ⟨L, hR⟩, _⟩ := h.inv hf
  cases op with
  | setEmpty k =>
    refine ⟨0, fun f' _ => ?_⟩
    simp only [dictStep] at hl
    split at hl
    · rename_i hn
      have : t.emptySet = false := by rw [hR.emptySet, hn]; rfl
      simp [step, setEmptyKey, this]
    · cases hl
  | insert k v =>
    have hk : k ≠ t.empty := by
      intro e
      simp only [dictStep] at hl
      cases hE : d.emptyKey with
      | none =>
        rw [hE] at hl
        cases hl
      | some x =>
        have := hR.empty
        rw [hE] at hl this
        simp only [e, this, Option.getD_some, if_true] at hl
        cases hl
    obtain ⟨f0, h0⟩ := insert_total hR.rep hg k v hk
    refine ⟨f0, fun f' hf' => ?_⟩
    obtain ⟨⟨⟨x, b⟩, t1⟩, hi⟩ := Option.isSome_iff_exists.1 (h0 f' hf')
    simp only [step]
    rw [hi]
    rfl
  | find k => exact ⟨0, fun _ _ => rfl⟩
  | reserve n =>
    obtain ⟨f0, h0⟩ := reserve_total hR.rep hg g0 n
    refine ⟨f0, fun f' hf' => ?_⟩
    obtain ⟨t1, hi⟩ := Option.isSome_iff_exists.1 (h0 f' hf')
    simp only [step]
    rw [hi]
    rfl
  | setGrowth g => exact ⟨0, fun _ _ => rfl⟩
  | clear => exact ⟨0, fun _ _ => rfl⟩
  | compact r =>
    refine ⟨0, fun f' _ => ?_⟩
    obtain ⟨ok, t1, h1, _⟩ := compact_ok hR.rep (r t.size)
    simp only [step]
    rw [h1]
    rfl
  | size => exact ⟨0, fun _ _ => rfl⟩

/-- The number of buckets is a prime not less than asked for, and the constructor's promise holds up to
rounding: room for `c` entries, less at most three. -/
theorem C12_capacity {g0 : Nat → Nat} {c : Nat} {t : Table} (h : create g0 c = some t) :
    t.cnt.Prime ∧ c ≤ capacity t + 3 := by
  unfold create init at h
  have hm : minBuckets = 16 := rfl
  have hb : bucketLen = 4 := rfl
  cases hp : getPrime (max minBuckets (c / bucketLen)) with
  | none =>
    rw [hp] at h
    cases h
  | some n =>
    rw [hp] at h
    simp only [Option.some.injEq] at h
    subst h
    obtain ⟨h1, _, h3⟩ := getPrime_some hp
    refine ⟨(isPrime_iff (by simp only [allocate]; omega)).1 h3, ?_⟩
    simp only [capacity, allocate]
    rw [hb] at h1 ⊢
    omega

/-- **The constructor allocates less than asked for**: "Allocates space for at least the given number of
key-values", but asked for 71 it has room for 68. -/
theorem C12_capacity_short (g0 : Nat → Nat) : ∃ t, create g0 71 = some t ∧ capacity t = 68 := ⟨_, rfl, rfl⟩

/-! ### Nothing is ever relocated by Insert -/

/-- findIn after one slot changed from the empty key to another key. -/
theorem findIn_insertInto {t : Table} {b i c k' : Nat} (he : (t.buf b i).key = t.empty)
    (h1 : k' ≠ t.empty) (h2 : k' ≠ t.pkey) : findIn (insertInto t b i) c k' = findIn t c k' := by
  unfold findIn
  congr 1
  funext j
  rw [buf_insert, put_apply]
  split
  · rename_i e
    rw [e.1, e.2, he]
    have a1 : ((cur t).key == k') = false := by
      change (t.pkey == k') = false
      simp only [beq_eq_false_iff_ne]
      exact fun e => h2 e.symm
    have a2 : (t.empty == k') = false := by
      simp only [beq_eq_false_iff_ne]
      exact fun e => h1 e.symm
    rw [a1, a2]
  · rfl

theorem find_insertInto {t : Table} {b i k' : Nat} (he : (t.buf b i).key = t.empty)
    (h1 : k' ≠ t.empty) (h2 : k' ≠ t.pkey) : find (insertInto t b i) k' = find t k' := by
  unfold find
  rw [findIn_insertInto he h1 h2, findIn_insertInto he h1 h2]
  rfl

theorem find_congr {t t' : Table} (hb : t'.buf = t.buf) (hc : t'.cnt = t.cnt) (k : Nat) :
    find t' k = find t k := by
  unfold find findIn
  rw [hb, hc]

/-- With an odd number of buckets Insert takes a free slot of the key's two buckets, or grows. -/
theorem insert_cases {f : Nat} {t t' : Table} {L : List Slot} {k v : Nat} {r : Option Nat × Bool}
    (hR : Rep t L) (hk : k ≠ t.empty) (ho : t.cnt % 2 = 1) (hnew : find t k = none)
    (h : insert f t k v = some (r, t')) :
    (t'.cnt = t.cnt ∧ (∀ k', k' ≠ t.empty → k' ≠ k → find t' k' = find t k') ∧
      ¬ (Full t (id0 t.cnt k) ∧ Full t (id1 t.cnt k))) ∨ t.cnt < t'.cnt := by
  unfold insert at h
  rw [hnew] at h
  simp only at h
  have hnot : k ∉ L.map Slot.key := by
    intro hm
    obtain ⟨s, hs, rfl⟩ := List.mem_map.1 hm
    obtain ⟨d, h1, _⟩ := find_mem hR hs
    rw [hnew] at h1
    cases h1
  have hsame := setPVal_same t ⟨k, v⟩
  have hcur := cur_setPVal t ⟨k, v⟩
  have hbuf := setPVal_buf t k v
  simp only at hsame hcur
  generalize setPVal { t with pkey := k } v = t1 at *
  have hpk : t1.pkey = k := congrArg Slot.key hcur
  have hR1 : Rep t1 L := hR.congr hbuf hsame.cnt hsame.empty
  have hP1 : Pend t1 L := ⟨by rw [hpk, hsame.empty]; exact hk, by rw [hpk]; exact hnot⟩
  have ho1 : t1.cnt % 2 = 1 := by rw [hsame.cnt]; exact ho
  have hfull : ∀ b, Full t1 b ↔ Full t b := by
    intro b
    unfold Full
    rw [hbuf, hsame.empty]
  have hins : ∀ b i, firstEmpty t1 b = some i → ∀ k', k' ≠ t.empty → k' ≠ k →
      find { insertInto t1 b i with size := (insertInto t1 b i).size + 1 } k' = find t k' := by
    intro b i hi k' h1 h2
    have e1 := find_insertInto (firstEmpty_some hi).2 (by rw [hsame.empty]; exact h1 : k' ≠ t1.empty)
      (by rw [hpk]; exact h2 : k' ≠ t1.pkey)
    have e2 := find_congr hbuf hsame.cnt k'
    exact (find_congr (t := insertInto t1 b i) rfl rfl k').trans (e1.trans e2)
  cases f with
  | zero => cases h
  | succ f =>
    simp only [insertLoop, shiftsLimit_odd ho1, hpk] at h
    cases h0 : firstEmpty t1 (id0 t1.cnt k) with
    | some i =>
      simp only [roll, h0, Option.some.injEq, Prod.mk.injEq] at h
      obtain ⟨_, rfl⟩ := h
      refine Or.inl ⟨hsame.cnt, hins _ i h0, ?_⟩
      rintro ⟨hf, _⟩
      have := firstEmpty_full ((hfull _).2 hf)
      rw [hsame.cnt, this] at h0
      cases h0
    | none =>
      cases h1 : firstEmpty t1 (id1 t1.cnt k) with
      | some i =>
        simp only [roll, h0, h1, Option.some.injEq, Prod.mk.injEq] at h
        obtain ⟨_, rfl⟩ := h
        refine Or.inl ⟨hsame.cnt, hins _ i h1, ?_⟩
        rintro ⟨_, hf⟩
        have := firstEmpty_full ((hfull _).2 hf)
        rw [hsame.cnt, this] at h1
        cases h1
      | none =>
        rw [roll_zero (firstEmpty_none h0) (firstEmpty_none h1)] at h
        simp only at h
        refine Or.inr ?_
        have hR2 : Rep { t1 with rnd := t1.rnd + 2 } L := hR1.congr rfl rfl rfl
        cases hg : grow (f + 1) { t1 with rnd := t1.rnd + 2 } 0 with
        | none =>
          rw [hg] at h
          cases h
        | some t2 =>
          rw [hg] at h
          simp only at h
          obtain ⟨g1, g2, g3⟩ := grow_ok hR2 hg
          have hpk2 : t2.pkey = t1.pkey := congrArg Slot.key g3
          cases hl : insertLoop (f + 1) f t2 true with
          | none =>
            rw [hl] at h
            cases h
          | some x =>
            obtain ⟨t3, dd, gg⟩ := x
            rw [hl] at h
            simp only [Option.some.injEq, Prod.mk.injEq] at h
            obtain ⟨_, rfl⟩ := h
            have := (insertLoop_odd (f + 1) f t2 true L g2
              ⟨by rw [hpk2, g1.empty]; exact hP1.1, by rw [hpk2]; exact hP1.2⟩ (grow_odd hR2 hg) t3 dd gg hl).2
            have hc := g1.cnt
            have hc1 := hsame.cnt
            simp only at hc ⊢
            omega

/-- **Ids stay valid until the table grows**: an Insert that does not change the capacity does not move the
other entries. (The header says that Insert invalidates all ids.) -/
theorem C12_ids_stable {g0 : Nat → Nat} {f c : Nat} {ops : List Op} {os : List Obs} {t : Table}
    {d : Dict} (h : After g0 f c ops os t d) (hf : Obs.compacted false ∉ os) {k v : Nat}
    (hk : k ≠ t.empty) {r : Option Nat × Bool} {t' : Table} {f' : Nat}
    (hi : insert f' t k v = some (r, t')) (hc : capacity t' = capacity t) {k' : Nat} (hk' : k' ≠ t.empty)
    {i : Nat} (hfnd : find t k' = some i) : find t' k' = some i := by
  obtain ⟨_, ⟨L, hR⟩, ho⟩ := h.inv hf
  cases hnew : find t k with
  | some x =>
    unfold insert at hi
    rw [hnew] at hi
    simp only [Option.some.injEq, Prod.mk.injEq] at hi
    rw [← hi.2]
    exact hfnd
  | none =>
    have hne : k' ≠ k := by
      intro e
      rw [e, hnew] at hfnd
      cases hfnd
    rcases insert_cases hR.rep hk ho hnew hi with ⟨_, h2, _⟩ | h2
    · rw [h2 k' hk' hne]
      exact hfnd
    · unfold capacity bucketLen at hc
      omega

/-- **Insert never relocates**: the limit of shifts is twice the number of trailing zeros of the bucket
count, and bucket counts are odd primes; so inserting a new key whose eight slots are taken always grows the
table, however empty the rest of it is. -/
theorem C12_never_relocates {g0 : Nat → Nat} {f c : Nat} {ops : List Op} {os : List Obs} {t : Table}
    {d : Dict} (h : After g0 f c ops os t d) (hf : Obs.compacted false ∉ os) {k v : Nat}
    (hk : k ≠ t.empty) (hnew : find t k = none)
    (hfull : ∀ i, i < 4 → (t.buf (id0 t.cnt k) i).key ≠ t.empty ∧ (t.buf (id1 t.cnt k) i).key ≠ t.empty)
    {r : Option Nat × Bool} {t' : Table} {f' : Nat} (hi : insert f' t k v = some (r, t')) :
    capacity t < capacity t' := by
  obtain ⟨_, ⟨L, hR⟩, ho⟩ := h.inv hf
  rcases insert_cases hR.rep hk ho hnew hi with ⟨_, _, h2⟩ | h2
  · exact absurd ⟨fun i hi => (hfull i hi).1, fun i hi => (hfull i hi).2⟩ h2
  · unfold capacity bucketLen
    omega

/-! ### Compact -/

/-- **Compact that answers false has lost a key**: the old array is gone, and some key of the dictionary is
no longer found; size() still counts it. -/
theorem C12_compact_false {g0 : Nat → Nat} {f c : Nat} {ops : List Op} {os : List Obs} {t : Table}
    {d : Dict} (h : After g0 f c ops os t d) (hf : Obs.compacted false ∉ os) {r : Nat → Nat} {t' : Table}
    (hs : step g0 f t (.compact r) = some (.compacted false, t')) :
    ∃ k v, d.get k = some v ∧ find t' k = none ∧ t'.size = d.size := by
  obtain ⟨_, ⟨L, hR⟩, _⟩ := h.inv hf
  simp only [step] at hs
  obtain ⟨ok, t1, h1, h2, h3, _⟩ := compact_ok hR.rep (r t.size)
  rw [h1] at hs
  simp only [Option.some.injEq, Prod.mk.injEq, Obs.compacted.injEq] at hs
  obtain ⟨rfl, rfl⟩ := hs
  obtain ⟨L1, lost, a1, a2, a3⟩ := h3
  cases lost with
  | nil => exact absurd rfl a1
  | cons s lost =>
    have hsL : s ∈ L := a3.mem_iff.1 (List.mem_append_right _ List.mem_cons_self)
    have hn := (a3.map Slot.key).nodup_iff.2 hR.rep.nodup
    refine ⟨s.key, s.val, (hR.get _ _).2 hsL, ?_, h2.size.trans hR.size⟩
    refine find_not_mem a2 (by rw [h2.empty]; exact (hR.rep.complete s hsL).1) ?_
    intro hm
    rw [List.map_append, List.nodup_append] at hn
    exact hn.2.2 _ hm _ (List.mem_map_of_mem List.mem_cons_self) rfl

/-- At most eight keys share two buckets. -/
theorem crowd {t : Table} {L : List Slot} (hR : Rep t L) {ks : List Nat} (hn : ks.Nodup)
    (hsub : ∀ k ∈ ks, k ∈ L.map Slot.key) {b0 b1 : Nat}
    (hid : ∀ k ∈ ks, id0 t.cnt k = b0 ∧ id1 t.cnt k = b1) : ks.length ≤ 8 := by
  have hs : ks ⊆ [(t.buf b0 0).key, (t.buf b0 1).key, (t.buf b0 2).key, (t.buf b0 3).key,
      (t.buf b1 0).key, (t.buf b1 1).key, (t.buf b1 2).key, (t.buf b1 3).key] := by
    intro k hk
    obtain ⟨s, hs, rfl⟩ := List.mem_map.1 (hsub k hk)
    obtain ⟨he, b, i, hb, hi, e⟩ := hR.complete s hs
    have hh := (hR.sound b i hb hi (by rw [e]; exact he)).2
    rw [e] at hh
    obtain ⟨h0, h1⟩ := hid _ hk
    have hi' : i = 0 ∨ i = 1 ∨ i = 2 ∨ i = 3 := by omega
    rcases hh with e2 | e2
    · rw [h0] at e2
      subst e2
      rcases hi' with rfl | rfl | rfl | rfl <;> rw [← e] <;> simp
    · rw [h1] at e2
      subst e2
      rcases hi' with rfl | rfl | rfl | rfl <;> rw [← e] <;> simp
  exact (hn.subperm hs).length_le

/-- Nine keys with the same two buckets for 17, 19, 23, 29 and 31 buckets. -/
def crowdA : List Nat :=
  [0, 633329445552738, 914806562409185, 2042892608608900, 5418395450333283, 5913177836536449,
    18647727955001572, 19212872630491175, 19775822594429473]

/-- Nine keys with the same two buckets for 37, 41, 43, 47 and 53 buckets. -/
def crowdB : List Nat :=
  [0, 866382179490333348, 883903994642074337, 2613004780874792994, 2617717298456222240,
    9247086312237826277, 9513645309905862690, 12107646138246578246, 12110814920027789446]

/-- Setting the empty key to 1 and inserting the seventeen keys. -/
def crowdOps : List Op := .setEmpty 1 :: (crowdA ++ crowdB.tail).map (fun k => .insert k (k % 100))

/-- The default growth, 1.2 times and one more. -/
def growth12 (n : Nat) : Nat := n * 12 / 10 + 1

/-- Everything after the constructor, in one value. -/
def crowdRun : Option (List Obs × Table) :=
  match create growth12 512 with
  | none => none
  | some t0 => Common.run (step growth12 3) t0 crowdOps

/-- The dictionary after those calls. -/
def crowdDict : Option (List Obs × Dict) := Common.run dictStep Dict.new crowdOps

theorem crowd_run : crowdRun.any (fun p => p.1.all (· ≠ .compacted false) && p.2.cnt == 131 && p.2.size == 17)
    = true := by decide +kernel

theorem crowd_dict : crowdDict.any (fun p => (crowdA ++ crowdB).all (fun k => (p.2.get k).isSome)
    && p.2.emptyKey == some 1) = true := by decide +kernel

theorem crowd_tries : getPrime (max minBuckets (1 + 17 * 107 / 100 / bucketLen)) = some 17 ∧
    tries 10 17 = [17, 19, 23, 29, 31, 37, 41, 43, 47, 53] := by decide +kernel

theorem crowdA_ids : ∀ n ∈ [17, 19, 23, 29, 31], ∀ k ∈ crowdA, id0 n k = id0 n 0 ∧ id1 n k = id1 n 0 := by
  decide +kernel

theorem crowdB_ids : ∀ n ∈ [37, 41, 43, 47, 53], ∀ k ∈ crowdB, id0 n k = id0 n 0 ∧ id1 n k = id1 n 0 := by
  decide +kernel

/-- **Compact loses keys**: seventeen keys inserted in a map made for 512; Compact(1.07) answers false, and
one of the keys is gone. -/
theorem C12_compact_loses : ∃ os t d t' k v, After growth12 3 512 crowdOps os t d ∧
    Obs.compacted false ∉ os ∧ step growth12 3 t (.compact (fun n => n * 107 / 100)) = some (.compacted false, t') ∧
    d.get k = some v ∧ find t' k = none ∧ t'.size = 17 := by
  have hrun := crowd_run
  have hdict := crowd_dict
  obtain ⟨⟨os, t⟩, h1, h2⟩ := (Option.any_eq_true _ _).1 hrun
  obtain ⟨⟨os', d⟩, h3, h4⟩ := (Option.any_eq_true _ _).1 hdict
  simp only [Bool.and_eq_true, beq_iff_eq, List.all_eq_true, decide_eq_true_eq] at h2 h4
  obtain ⟨⟨n1, n2⟩, n3⟩ := h2
  obtain ⟨m1, m2⟩ := h4
  have hA : After growth12 3 512 crowdOps os t d := by
    refine ⟨?_, os', h3⟩
    unfold crowdRun at h1
    cases hc : create growth12 512 with
    | none =>
      rw [hc] at h1
      cases h1
    | some t0 =>
      rw [hc] at h1
      exact ⟨t0, rfl, h1⟩
  have hf : Obs.compacted false ∉ os := fun hm => n1 _ hm rfl
  obtain ⟨_, ⟨L, hR⟩, _⟩ := hA.inv hf
  obtain ⟨ok, t', c1, c2, c3, c4⟩ := compact_ok hR.rep (t.size * 107 / 100)
  have hin : ∀ k ∈ crowdA ++ crowdB, k ∈ L.map Slot.key := by
    intro k hk
    obtain ⟨v, hv⟩ := Option.isSome_iff_exists.1 (m1 k hk)
    exact List.mem_map_of_mem (f := Slot.key) ((hR.get k v).1 hv)
  have hok : ok = false := by
    cases ok with
    | false => rfl
    | true =>
      exfalso
      rcases c4 with ⟨_, _, c5⟩ | ⟨n, c5, c6⟩
      · omega
      · rw [n3] at c5
        rw [crowd_tries.1] at c5
        cases c5
        rw [crowd_tries.2] at c6
        have hspl : t'.cnt ∈ [17, 19, 23, 29, 31] ∨ t'.cnt ∈ [37, 41, 43, 47, 53] := by
          simp only [List.mem_cons, List.not_mem_nil, or_false] at c6 ⊢
          omega
        rcases hspl with hn | hn
        · have := crowd c3 (ks := crowdA) (by decide +kernel)
            (fun k hk => hin k (List.mem_append_left _ hk)) (crowdA_ids _ hn)
          exact absurd this (by decide)
        · have := crowd c3 (ks := crowdB) (by decide +kernel)
            (fun k hk => hin k (List.mem_append_right _ hk)) (crowdB_ids _ hn)
          exact absurd this (by decide)
  subst hok
  have hstep : step growth12 3 t (.compact (fun n => n * 107 / 100)) = some (.compacted false, t') := by
    simp only [step]
    rw [c1]
  obtain ⟨k, v, e1, e2, e3⟩ := C12_compact_false hA hf hstep
  refine ⟨os, t, d, t', k, v, hA, hf, hstep, e1, e2, ?_⟩
  rw [c2.size]
  exact n3

/-! ### The empty key, and iteration -/

/-- **The empty key is found** although it was never inserted (the rules forbid it, nothing checks it). -/
theorem C12_find_empty (g0 : Nat → Nat) : ∃ t t' : Table, create g0 0 = some t ∧
    step g0 1 t (.setEmpty 7) = some (.unit, t') ∧ t'.size = 0 ∧ find t' 7 ≠ none := by
  refine ⟨_, _, rfl, rfl, rfl, ?_⟩
  have : find { (allocate ⟨0, fun _ _ => ⟨0, 0⟩, 0, false, 0, 0, false, 0, 0, 0, g0⟩ 17) with
      empty := 7, emptySet := true, buf := fun b i => ⟨7, 0⟩ } 7 = some (toDense (id0 17 7) 0) := rfl
  intro e
  exact absurd (this.symm.trans e) (by simp)

/-- **Advancing the iterator past the last entry reads outside the array**: from any id after which only
empty slots follow, `++` reads the key at id Capacity(). -/
theorem C12_iterator_out (t : Table) : ∀ (f cur : Nat), cur < capacity t → capacity t - cur ≤ f →
    (∀ i, cur < i → i < capacity t → (fromDense t i).key = t.empty) →
    capacity t ∈ (iterNext t f cur).2 := by
  intro f
  induction f with
  | zero =>
    intro cur h1 h2
    omega
  | succ f ih =>
    intro cur h1 h2 h3
    simp only [iterNext]
    rw [if_pos h1]
    by_cases hc : cur + 1 = capacity t
    · split
      · exact List.mem_singleton.2 hc.symm
      · exact List.mem_cons.2 (Or.inl hc.symm)
    · have he := h3 (cur + 1) (by omega) (by omega)
      rw [if_neg (fun h => h he)]
      refine List.mem_cons_of_mem _ (ih (cur + 1) (by omega) (by omega) ?_)
      intro i hi1 hi2
      exact h3 i (by omega) hi2

/-! ### Examples -/

/-- A history that grows the table: setting the empty key, 9 keys of one bucket pair, a second insertion. -/
def growOps : List Op :=
  .setEmpty 1 :: crowdA.map (fun k => .insert k (k % 100)) ++
    [.insert 914806562409185 5, .find 914806562409185, .find 3, .size, .compact (fun n => n), .reserve 200]

example : (match create growth12 0 with
    | none => false
    | some t0 => match Common.run (step growth12 5) t0 growOps with
      | none => false
      | some (os, t) => os.drop 9 == [.inserted (some ⟨19775822594429473, 73⟩) true,
          .inserted (some ⟨914806562409185, 85⟩) false, .found (some ⟨914806562409185, 85⟩), .found none,
          .size 9, .compacted true, .unit] && t.cnt == 53) = true := by decide +kernel

example (n : Nat) : n < growth12 n := by
  unfold growth12
  omega

example : (Common.run dictStep Dict.new growOps).isSome = true := by decide +kernel

end Verif.Cuckoo
