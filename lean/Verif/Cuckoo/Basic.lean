import Verif.Cuckoo.Spec
/-!
# Tables and the entries they hold

`Rep t L`: the table holds exactly the entries `L`, each once and in one of the buckets of its key.
-/
namespace Verif.Cuckoo

/-- The pending entry. -/
def cur (t : Table) : Slot := ⟨t.pkey, t.pval⟩

/-- `b` is one of the two buckets of `k`. -/
def Home (n b k : Nat) : Prop := b = id0 n k ∨ b = id1 n k

structure Rep (t : Table) (L : List Slot) : Prop where
  cnt2 : 2 ≤ t.cnt
  sound : ∀ b i, b < t.cnt → i < 4 → (t.buf b i).key ≠ t.empty →
    t.buf b i ∈ L ∧ Home t.cnt b (t.buf b i).key
  complete : ∀ s ∈ L, s.key ≠ t.empty ∧ ∃ b i, b < t.cnt ∧ i < 4 ∧ t.buf b i = s
  uniq : ∀ b i b' i', b < t.cnt → i < 4 → b' < t.cnt → i' < 4 → (t.buf b i).key ≠ t.empty →
    (t.buf b i).key = (t.buf b' i').key → b = b' ∧ i = i'
  nodup : (L.map Slot.key).Nodup

/-- The pending key is not in the table. -/
def Pend (t : Table) (L : List Slot) : Prop := t.pkey ≠ t.empty ∧ t.pkey ∉ L.map Slot.key

/-- Every slot of the bucket is in use. -/
def Full (t : Table) (b : Nat) : Prop := ∀ i, i < 4 → (t.buf b i).key ≠ t.empty

/-- The fields that moving entries around does not touch. -/
structure Same (t t' : Table) : Prop where
  cnt : t'.cnt = t.cnt
  empty : t'.empty = t.empty
  emptySet : t'.emptySet = t.emptySet
  size : t'.size = t.size
  growth : t'.growth = t.growth

theorem Same.refl (t : Table) : Same t t := ⟨rfl, rfl, rfl, rfl, rfl⟩

theorem Same.trans {a b c : Table} (h : Same a b) (k : Same b c) : Same a c :=
  ⟨k.cnt.trans h.cnt, k.empty.trans h.empty, k.emptySet.trans h.emptySet, k.size.trans h.size,
    k.growth.trans h.growth⟩

theorem hash1_lt {n : Nat} (h : 2 ≤ n) (k : Nat) : hash1 n k < n := Nat.mod_lt _ (by omega)

theorem hash2_lt {n : Nat} (h : 2 ≤ n) (k : Nat) : hash2 n k < n := Nat.mod_lt _ (by omega)

theorem id0_lt {n : Nat} (h : 2 ≤ n) (k : Nat) : id0 n k < n := hash1_lt h k

theorem id1_lt {n : Nat} (h : 2 ≤ n) (k : Nat) : id1 n k < n := by
  unfold id1
  split
  · exact Nat.mod_lt _ (by omega)
  · exact hash2_lt h k

theorem id_ne {n : Nat} (h : 2 ≤ n) (k : Nat) : id1 n k ≠ id0 n k := by
  have h1 := hash1_lt h k
  unfold id1 id0
  split
  · rename_i e
    rw [e]
    intro c
    by_cases hc : hash1 n k + 1 < n
    · rw [Nat.mod_eq_of_lt hc] at c
      omega
    · have : hash1 n k + 1 = n := by omega
      rw [this, Nat.mod_self] at c
      omega
  · assumption

theorem Home.lt {n b k : Nat} (h : 2 ≤ n) (hh : Home n b k) : b < n := by
  rcases hh with e | e
  · rw [e]
    exact id0_lt h k
  · rw [e]
    exact id1_lt h k

theorem nextBucket_home (n b k : Nat) : Home n (nextBucket n b k) k := by
  unfold nextBucket Home
  split
  · exact Or.inr rfl
  · exact Or.inl rfl

theorem nextBucket_lt {n : Nat} (h : 2 ≤ n) (b k : Nat) : nextBucket n b k < n :=
  (nextBucket_home n b k).lt h

theorem nextBucket_ne {n b k : Nat} (h : 2 ≤ n) : nextBucket n b k ≠ b := by
  unfold nextBucket
  split
  · rename_i e
    rw [e]
    exact id_ne h k
  · rename_i e
    exact fun c => e c.symm

/-- The two buckets of a key are `b` and `nextBucket b`. -/
theorem Home.next {n b c k : Nat} (hb : Home n b k) (hc : Home n c k) : c = b ∨ c = nextBucket n b k := by
  unfold Home at *
  unfold nextBucket
  split <;> grind

theorem nextBucket_next {n b k : Nat} (h : 2 ≤ n) (hb : Home n b k) :
    nextBucket n (nextBucket n b k) k = b := by
  have := id_ne h k
  unfold Home at hb
  unfold nextBucket
  grind

theorem range4 : List.range bucketLen = [0, 1, 2, 3] := rfl

theorem firstEmpty_some {t : Table} {b i : Nat} (h : firstEmpty t b = some i) :
    i < 4 ∧ (t.buf b i).key = t.empty := by
  unfold firstEmpty at h
  have h1 := List.find?_some h
  have h2 := List.mem_of_find?_eq_some h
  refine ⟨List.mem_range.1 h2, by simpa using h1⟩

theorem firstEmpty_none {t : Table} {b : Nat} (h : firstEmpty t b = none) : Full t b := by
  unfold firstEmpty at h
  intro i hi
  have := List.find?_eq_none.1 h i (List.mem_range.2 hi)
  simpa using this

theorem firstEmpty_full {t : Table} {b : Nat} (h : Full t b) : firstEmpty t b = none := by
  unfold firstEmpty
  refine List.find?_eq_none.2 ?_
  intro i hi
  have := h i (List.mem_range.1 hi)
  simpa using this

theorem put_same (f : Buf) (b i : Nat) (s : Slot) : put f b i s b i = s := by simp [put]

theorem put_apply (f : Buf) (b i : Nat) (s : Slot) (b' i' : Nat) :
    put f b i s b' i' = if b' = b ∧ i' = i then s else f b' i' := rfl

theorem fromDense_to (t : Table) {b i : Nat} (hi : i < 4) : fromDense t (toDense b i) = t.buf b i := by
  have h1 : (b * 4 + i) / 4 = b := by omega
  have h2 : (b * 4 + i) % 4 = i := by omega
  unfold fromDense toDense bucketLen
  rw [h1, h2]

theorem insertInto_same (t : Table) (b i : Nat) : Same t (insertInto t b i) := ⟨rfl, rfl, rfl, rfl, rfl⟩

theorem swapPending_same (t : Table) (b i : Nat) : Same t (swapPending t b i) := ⟨rfl, rfl, rfl, rfl, rfl⟩

theorem cur_swap (t : Table) (b i : Nat) : cur (swapPending t b i) = t.buf b i := by
  unfold cur swapPending Table.pval
  cases t.half <;> rfl

theorem buf_swap (t : Table) (b i : Nat) : (swapPending t b i).buf = put t.buf b i (cur t) := rfl

theorem buf_insert (t : Table) (b i : Nat) : (insertInto t b i).buf = put t.buf b i (cur t) := rfl

theorem cur_setPVal (t : Table) (s : Slot) : cur (setPVal { t with pkey := s.key } s.val) = s := by
  unfold cur setPVal Table.pval
  cases t with
  | mk cnt buf empty emptySet size pkey half tmp0 tmp1 rnd growth => cases half <;> rfl

theorem setPVal_same (t : Table) (s : Slot) : Same t (setPVal { t with pkey := s.key } s.val) := by
  unfold setPVal
  cases t.half <;> exact ⟨rfl, rfl, rfl, rfl, rfl⟩

theorem setPVal_buf (t : Table) (k v : Nat) : (setPVal { t with pkey := k } v).buf = t.buf := by
  unfold setPVal
  cases t.half <;> rfl

/-- Only the array, the bucket count and the empty key matter. -/
theorem Rep.congr {t t' : Table} {L : List Slot} (h : Rep t L) (hb : t'.buf = t.buf)
    (hc : t'.cnt = t.cnt) (he : t'.empty = t.empty) : Rep t' L := by
  obtain ⟨a, b, c, d, e⟩ := h
  constructor
  · rw [hc]; exact a
  · rw [hb, hc, he]; exact b
  · rw [hb, hc, he]; exact c
  · rw [hb, hc, he]; exact d
  · exact e

theorem Rep.perm {t : Table} {L L' : List Slot} (h : Rep t L) (p : L.Perm L') : Rep t L' := by
  obtain ⟨a, b, c, d, e⟩ := h
  refine ⟨a, ?_, ?_, d, ?_⟩
  · intro x i h1 h2 h3
    exact ⟨p.mem_iff.1 (b x i h1 h2 h3).1, (b x i h1 h2 h3).2⟩
  · intro s hs
    exact c s (p.mem_iff.2 hs)
  · exact (p.map _).nodup_iff.1 e

theorem Pend.perm {t : Table} {L L' : List Slot} (h : Pend t L) (p : L.Perm L') : Pend t L' := by
  refine ⟨h.1, fun hm => h.2 ?_⟩
  exact (p.map _).mem_iff.2 hm

/-- Putting the pending entry in a free slot of one of its buckets. -/
theorem Rep.insertInto {t : Table} {L : List Slot} (h : Rep t L) (hp : Pend t L) {b i : Nat}
    (hi : i < 4) (he : (t.buf b i).key = t.empty) (hb : Home t.cnt b t.pkey) :
    Rep (insertInto t b i) (cur t :: L) := by
  have hlt := hb.lt h.cnt2
  obtain ⟨a, s, c, u, n⟩ := h
  obtain ⟨p1, p2⟩ := hp
  have hnot : ∀ b' i', b' < t.cnt → i' < 4 → (t.buf b' i').key ≠ t.pkey := by
    intro b' i' h1 h2 h3
    have := (s b' i' h1 h2 (by rw [h3]; exact p1)).1
    exact p2 (h3 ▸ List.mem_map_of_mem this)
  have hbuf : ∀ b' i', (Cuckoo.insertInto t b i).buf b' i' = if b' = b ∧ i' = i then cur t else t.buf b' i' :=
    fun _ _ => rfl
  have hck : (cur t).key = t.pkey := rfl
  refine ⟨a, ?_, ?_, ?_, ?_⟩
  · intro b' i' h1 h2 h3
    rw [hbuf] at h3 ⊢
    split
    · rename_i e
      refine ⟨List.mem_cons_self, ?_⟩
      rw [e.1]
      exact hb
    · rename_i e
      rw [if_neg e] at h3
      have := s b' i' h1 h2 h3
      exact ⟨List.mem_cons_of_mem _ this.1, this.2⟩
  · intro x hx
    rcases List.mem_cons.1 hx with e | e
    · subst e
      exact ⟨p1, b, i, hlt, hi, by rw [hbuf]; simp⟩
    · obtain ⟨q1, b', i', q2, q3, q4⟩ := c x e
      refine ⟨q1, b', i', q2, q3, ?_⟩
      rw [hbuf, if_neg]
      · exact q4
      · rintro ⟨rfl, rfl⟩
        rw [q4] at he
        exact q1 he
  · intro b1 i1 b2 i2 h1 h2 h3 h4 h5 h6
    have := u b1 i1 b2 i2 h1 h2 h3 h4
    have n1 := hnot b1 i1 h1 h2
    have n2 := hnot b2 i2 h3 h4
    simp only [hbuf] at h5 h6
    change _ ≠ t.empty at h5
    grind
  · simp only [List.map_cons, List.nodup_cons]
    exact ⟨p2, n⟩

/-- Exchanging the pending entry with an entry of one of its buckets. -/
theorem Rep.swap {t : Table} {L : List Slot} (h : Rep t L) (hp : Pend t L) {b i : Nat}
    (hi : i < 4) (he : (t.buf b i).key ≠ t.empty) (hb : Home t.cnt b t.pkey) :
    ∃ L', Rep (swapPending t b i) L' ∧ Pend (swapPending t b i) L' ∧
      (cur (swapPending t b i) :: L').Perm (cur t :: L) ∧
      Home t.cnt b (swapPending t b i).pkey := by
  have hlt := hb.lt h.cnt2
  obtain ⟨a, s, c, u, n⟩ := h
  obtain ⟨p1, p2⟩ := hp
  obtain ⟨hm, hhome⟩ := s b i hlt hi he
  have hnot : ∀ b' i', b' < t.cnt → i' < 4 → (t.buf b' i').key ≠ t.pkey := by
    intro b' i' h1 h2 h3
    have := (s b' i' h1 h2 (by rw [h3]; exact p1)).1
    exact p2 (h3 ▸ List.mem_map_of_mem this)
  have hbuf : ∀ b' i', (swapPending t b i).buf b' i' = if b' = b ∧ i' = i then cur t else t.buf b' i' :=
    fun _ _ => rfl
  have hck : (cur t).key = t.pkey := rfl
  have hcs : cur (swapPending t b i) = t.buf b i := cur_swap t b i
  have hperm := List.perm_cons_erase hm
  have hnod : (t.buf b i).key ∉ (L.erase (t.buf b i)).map Slot.key ∧
      ((L.erase (t.buf b i)).map Slot.key).Nodup := by
    have := (hperm.map Slot.key).nodup_iff.1 n
    simpa using this
  refine ⟨cur t :: L.erase (t.buf b i), ⟨a, ?_, ?_, ?_, ?_⟩, ?_, ?_, ?_⟩
  · intro b' i' h1 h2 h3
    rw [hbuf] at h3 ⊢
    split
    · rename_i e
      refine ⟨List.mem_cons_self, ?_⟩
      rw [e.1]
      exact hb
    · rename_i e
      rw [if_neg e] at h3
      have := s b' i' h1 h2 h3
      refine ⟨List.mem_cons_of_mem _ ?_, this.2⟩
      have hne : t.buf b' i' ≠ t.buf b i := by
        intro c2
        exact e (u b' i' b i h1 h2 hlt hi h3 (by rw [c2]))
      exact (List.mem_erase_of_ne hne).2 this.1
  · intro x hx
    rcases List.mem_cons.1 hx with e | e
    · subst e
      exact ⟨p1, b, i, hlt, hi, by rw [hbuf]; simp⟩
    · obtain ⟨q1, b', i', q2, q3, q4⟩ := c x (List.mem_of_mem_erase e)
      refine ⟨q1, b', i', q2, q3, ?_⟩
      rw [hbuf, if_neg]
      · exact q4
      · rintro ⟨rfl, rfl⟩
        rw [q4] at hnod
        exact hnod.1 (List.mem_map_of_mem (by rw [q4] at e; exact e))
  · intro b1 i1 b2 i2 h1 h2 h3 h4 h5 h6
    have := u b1 i1 b2 i2 h1 h2 h3 h4
    have n1 := hnot b1 i1 h1 h2
    have n2 := hnot b2 i2 h3 h4
    simp only [hbuf] at h5 h6
    change _ ≠ t.empty at h5
    grind
  · simp only [List.map_cons, List.nodup_cons]
    refine ⟨?_, hnod.2⟩
    intro hx
    obtain ⟨y, hy, e⟩ := List.mem_map.1 hx
    rw [hck] at e
    exact p2 (e ▸ List.mem_map_of_mem (List.mem_of_mem_erase hy))
  · refine ⟨?_, ?_⟩
    · exact he
    · change (t.buf b i).key ∉ _
      simp only [List.map_cons, List.mem_cons, not_or]
      exact ⟨hnot b i hlt hi, hnod.1⟩
  · rw [hcs]
    exact (List.Perm.swap _ _ _).trans (List.Perm.cons _ hperm.symm)
  · exact hhome

theorem Full.swap {t : Table} {b i c : Nat} (h : Full t c) (hp : t.pkey ≠ t.empty) :
    Full (swapPending t b i) c := by
  intro j hj
  have := h j hj
  change ((put t.buf b i (cur t)) c j).key ≠ t.empty
  rw [put_apply]
  split
  · exact hp
  · exact this

theorem Full.insertInto {t : Table} {b i c : Nat} (h : Full t c) (hp : t.pkey ≠ t.empty) :
    Full (insertInto t b i) c := by
  intro j hj
  have := h j hj
  change ((put t.buf b i (cur t)) c j).key ≠ t.empty
  rw [put_apply]
  split
  · exact hp
  · exact this

/-- An entry of the table is found. -/
theorem find_mem {t : Table} {L : List Slot} (h : Rep t L) {s : Slot} (hs : s ∈ L) :
    ∃ d, find t s.key = some d ∧ fromDense t d = s := by
  obtain ⟨he, b, i, hb, hi, e⟩ := h.complete s hs
  have hkey : ∀ b' i', b' < t.cnt → i' < 4 → (t.buf b' i').key = s.key → t.buf b' i' = s := by
    intro b' i' h1 h2 h3
    have := h.uniq b' i' b i h1 h2 hb hi (by rw [h3]; exact he) (by rw [h3, e])
    rw [this.1, this.2, e]
  have hin : ∀ c j, findIn t c s.key = some j → c < t.cnt → j < 4 ∧ t.buf c j = s := by
    intro c j h1 hc
    unfold findIn at h1
    have h2 := List.find?_some h1
    have h3 := List.mem_range.1 (List.mem_of_find?_eq_some h1)
    exact ⟨h3, hkey c j hc h3 (by simpa using h2)⟩
  have hout : ∀ c, findIn t c s.key = none → c ≠ b := by
    rintro c h1 rfl
    unfold findIn at h1
    have := List.find?_eq_none.1 h1 i (List.mem_range.2 hi)
    simp [e] at this
  have hh := (h.sound b i hb hi (by rw [e]; exact he)).2
  rw [e] at hh
  unfold find
  cases h0 : findIn t (id0 t.cnt s.key) s.key with
  | some j =>
    have := hin _ _ h0 (id0_lt h.cnt2 _)
    exact ⟨_, rfl, by rw [fromDense_to t this.1]; exact this.2⟩
  | none =>
    cases h1 : findIn t (id1 t.cnt s.key) s.key with
    | some j =>
      have := hin _ _ h1 (id1_lt h.cnt2 _)
      exact ⟨_, rfl, by rw [fromDense_to t this.1]; exact this.2⟩
    | none =>
      have a1 := hout _ h0
      have a2 := hout _ h1
      rcases hh with e1 | e1 <;> simp_all

/-- A key that is not in the table is not found. -/
theorem find_not_mem {t : Table} {L : List Slot} (h : Rep t L) {k : Nat} (hk : k ≠ t.empty)
    (hn : k ∉ L.map Slot.key) : find t k = none := by
  have hin : ∀ c, c < t.cnt → findIn t c k = none := by
    intro c hc
    unfold findIn
    refine List.find?_eq_none.2 ?_
    intro j hj hjk
    have hkey : (t.buf c j).key = k := by simpa using hjk
    have := (h.sound c j hc (List.mem_range.1 hj) (by rw [hkey]; exact hk)).1
    exact hn (hkey ▸ List.mem_map_of_mem this)
  unfold find
  rw [hin _ (id0_lt h.cnt2 k), hin _ (id1_lt h.cnt2 k)]

/-- What is found is in the table. -/
theorem find_some {t : Table} {L : List Slot} (h : Rep t L) {k d : Nat} (hk : k ≠ t.empty)
    (hf : find t k = some d) : fromDense t d ∈ L ∧ (fromDense t d).key = k := by
  by_cases hn : k ∈ L.map Slot.key
  · obtain ⟨s, hs, e⟩ := List.mem_map.1 hn
    obtain ⟨d', h1, h2⟩ := find_mem h hs
    rw [e, hf] at h1
    cases h1
    rw [h2]
    exact ⟨hs, e⟩
  · rw [find_not_mem h hk hn] at hf
    cases hf

end Verif.Cuckoo
