import Verif.PodArray.Spec

namespace Verif.PodArray

theorem bitCeil_pow (n : Nat) : ∃ e, bitCeil n = 2 ^ e := by
  unfold bitCeil
  split
  · exact ⟨0, rfl⟩
  · exact ⟨_, rfl⟩

theorem le_bitCeil (n : Nat) : n ≤ bitCeil n := by
  unfold bitCeil
  split
  · assumption
  · have : n - 1 < 2 ^ ((n - 1).log2 + 1) := Nat.lt_log2_self
    omega

theorem fresh_length (c : Cfg) (n : Nat) : (fresh c n).length = n := by simp [fresh]

/-- `bs` holds the elements of `l`, where `l` says what they are. -/
def Enc (k : Nat) : Spec → List Nat → Prop
  | [], bs => bs = []
  | e :: l, bs => (bs.take k).length = k ∧ (∀ x, e = some x → bs.take k = x) ∧ Enc k l (bs.drop k)

theorem Enc.len {k : Nat} : ∀ {l : Spec} {bs : List Nat}, Enc k l bs → bs.length = l.length * k
  | [], _, h => by simp [Enc] at h; simp [h]
  | e :: l, bs, ⟨h1, _, h3⟩ => by
    have := Enc.len h3
    simp only [List.length_drop, List.length_take, List.length_cons, Nat.succ_mul] at *
    omega

theorem Enc.append {k : Nat} : ∀ {l l' : Spec} {a b : List Nat}, Enc k l a → Enc k l' b →
    Enc k (l ++ l') (a ++ b)
  | [], _, _, _, h, h' => by simp [Enc] at h; simpa [h] using h'
  | e :: l, l', a, b, ⟨h1, h2, h3⟩, h' => by
    have hk : k ≤ a.length := by simp only [List.length_take] at h1; omega
    refine ⟨?_, ?_, ?_⟩
    · rw [List.take_append_of_le_length hk]; exact h1
    · rw [List.take_append_of_le_length hk]; exact h2
    · rw [List.drop_append_of_le_length hk]; exact h3.append h'

theorem Enc.take {k : Nat} : ∀ {l : Spec} {a : List Nat} (n : Nat), Enc k l a →
    Enc k (l.take n) (a.take (n * k))
  | [], a, n, h => by simp [Enc] at h ⊢; right; exact h
  | e :: l, a, 0, _ => by simp [Enc]
  | e :: l, a, n + 1, ⟨h1, h2, h3⟩ => by
    have hk : min k ((n + 1) * k) = k := by rw [Nat.succ_mul]; omega
    rw [List.take_succ_cons]
    refine ⟨?_, ?_, ?_⟩
    · rw [List.take_take, hk]; exact h1
    · rw [List.take_take, hk]; exact h2
    · rw [List.drop_take]
      have : (n + 1) * k - k = n * k := by rw [Nat.succ_mul]; omega
      rw [this]; exact h3.take n

theorem Enc.drop {k : Nat} : ∀ {l : Spec} {a : List Nat} (n : Nat), Enc k l a →
    Enc k (l.drop n) (a.drop (n * k))
  | [], a, n, h => by simp [Enc] at h ⊢; simp [h]
  | e :: l, a, 0, h => by simpa using h
  | e :: l, a, n + 1, ⟨h1, h2, h3⟩ => by
    rw [List.drop_succ_cons]
    have : (n + 1) * k = k + n * k := by rw [Nat.succ_mul]; omega
    rw [this, ← List.drop_drop]; exact h3.drop n

theorem enc_junk {k : Nat} : ∀ (n : Nat) (a : List Nat), a.length = n * k →
    Enc k (List.replicate n none) a
  | 0, a, h => by simpa [Enc] using h
  | n + 1, a, h => by
    rw [Nat.succ_mul] at h
    refine ⟨by rw [List.length_take]; omega, by simp, ?_⟩
    exact enc_junk n _ (by rw [List.length_drop]; omega)

theorem enc_bytes {k : Nat} : ∀ (xs : List (List Nat)), sized k xs → Enc k (xs.map some) (bytes xs)
  | [], _ => by simp [Enc, bytes]
  | x :: xs, h => by
    have hx : x.length = k := h x (by simp)
    have h' : sized k xs := fun y hy => h y (by simp [hy])
    have hb : bytes (x :: xs) = x ++ bytes xs := by simp [bytes]
    rw [hb]
    refine ⟨?_, ?_, ?_⟩
    · rw [List.take_append_of_le_length (by omega), List.length_take]; omega
    · intro y hy
      rw [List.take_append_of_le_length (by omega), List.take_of_length_le (by omega)]
      exact Option.some.inj hy
    · rw [List.drop_append_of_le_length (by omega), List.drop_of_length_le (by omega)]
      exact enc_bytes xs h'

theorem Enc.get {k : Nat} {l : Spec} {a : List Nat} (h : Enc k l a) {i : Nat} {x : List Nat}
    (hx : l[i]? = some (some x)) : (a.drop (i * k)).take k = x := by
  have := h.drop i
  obtain ⟨hi, he⟩ := List.getElem?_eq_some_iff.1 hx
  rw [List.drop_eq_getElem_cons hi] at this
  exact this.2.1 x he

theorem bytes_length {k : Nat} {xs : List (List Nat)} (h : sized k xs) :
    (bytes xs).length = xs.length * k := by
  have := (enc_bytes xs h).len
  simpa using this

theorem sized_replicate {k n : Nat} {x : List Nat} (h : x.length = k) : sized k (List.replicate n x) := by
  intro y hy; rw [List.eq_of_mem_replicate hy]; exact h

/-- The block holds the elements. -/
structure R (c : Cfg) (s : St) (l : Spec) : Prop where
  len : s.len = l.length * c.k
  cap : s.len ≤ allocated s
  dvd : c.k ∣ allocated s
  pos : s.blk ≠ none → 0 < allocated s
  own : ∀ o mem, s.blk = some (o, mem) → o = s.mr
  enc : ∀ o mem, s.blk = some (o, mem) → Enc c.k l (mem.take s.len)

/-- The configurations in which the array works. -/
structure Good (c : Cfg) : Prop where
  pow : ∃ j, c.k = 2 ^ j

theorem Good.pos {c : Cfg} (g : Good c) : 0 < c.k := by
  obtain ⟨j, h⟩ := g.pow; rw [h]; exact Nat.pow_pos (by omega)

theorem dvd_bitCeil {c : Cfg} (g : Good c) {n : Nat} (h : c.k ≤ n) : c.k ∣ bitCeil n := by
  obtain ⟨j, hj⟩ := g.pow
  obtain ⟨e, he⟩ := bitCeil_pow n
  have hn := le_bitCeil n
  rw [he] at hn ⊢
  rw [hj] at h ⊢
  exact Nat.pow_dvd_pow 2 ((Nat.pow_le_pow_iff_right (by omega : 1 < 2)).1 (by omega))

/-- A block of at least the given number of bytes, with the same elements. -/
theorem realloc_R {c : Cfg} (g : Good c) {s : St} {l : Spec} (h : R c s l) {b : Nat}
    (hk : c.k ≤ b) (hl : s.len ≤ b) :
    ∃ s', realloc c s b = some s' ∧ R c s' l ∧ s'.len = s.len ∧ b ≤ allocated s' ∧
      s'.mr = s.mr ∧ s'.blk ≠ none := by
  have hb := le_bitCeil b
  unfold realloc
  cases hs : s.blk with
  | none =>
    have h0 : s.len = 0 := by have := h.cap; simp [allocated, hs] at this; exact this
    have hl0 : l = [] := by
      have := h.len; rw [h0] at this
      have hz := g.pos
      cases l with
      | nil => rfl
      | cons _ _ => simp [Nat.succ_mul] at this; omega
    refine ⟨_, rfl, ⟨?_, ?_, ?_, ?_, ?_, ?_⟩, ?_, ?_, rfl, ?_⟩
    · simp [alloc, hl0]
    · simp [alloc]
    · simp only [alloc, allocated, fresh_length]; exact dvd_bitCeil g hk
    · intro _; simp only [alloc, allocated, fresh_length]; have := g.pos; omega
    · intro o mem hm; simp only [alloc, Option.some.injEq, Prod.mk.injEq] at hm ⊢; exact hm.1.symm
    · intro o mem hm; simp [alloc, hl0, Enc]
    · simp [alloc, h0]
    · simp only [alloc, allocated, fresh_length]; exact hb
    · simp [alloc]
  | some p =>
    obtain ⟨o, mem⟩ := p
    have ho := h.own o mem hs
    have hc : s.len ≤ mem.length := by have := h.cap; simpa [allocated, hs] using this
    have hcond : s.len ≤ (fresh c (bitCeil b)).length ∧ s.len ≤ mem.length ∧ o = s.mr := by
      rw [fresh_length]; exact ⟨by omega, hc, ho⟩
    have hlen : (mem.take s.len ++ (fresh c (bitCeil b)).drop s.len).length = bitCeil b := by
      simp only [List.length_append, List.length_take, List.length_drop, fresh_length]; omega
    dsimp only
    rw [if_pos hcond]
    refine ⟨_, rfl, ⟨h.len, ?_, ?_, ?_, ?_, ?_⟩, rfl, ?_, rfl, by simp⟩
    · simp only [allocated, hlen]; omega
    · simp only [allocated, hlen]; exact dvd_bitCeil g hk
    · intro _; simp only [allocated, hlen]; have := g.pos; omega
    · intro o' mem' hm; simp only [Option.some.injEq, Prod.mk.injEq] at hm; exact hm.1.symm
    · intro o' mem' hm
      simp only [Option.some.injEq, Prod.mk.injEq] at hm
      obtain ⟨_, rfl⟩ := hm
      dsimp only
      rw [List.take_append_of_le_length (by simp; omega), List.take_take, Nat.min_self]
      exact h.enc o mem hs
    · simp only [allocated, hlen]; exact hb

theorem minMem_ge (c : Cfg) (n : Nat) : n * c.k ≤ minMem c n := by unfold minMem; omega

theorem le_cap {c : Cfg} {s : St} {n : Nat} (h : n ≤ capacity c s) :
    n * c.k ≤ allocated s := by
  unfold capacity at h
  exact Nat.le_trans (Nat.mul_le_mul_right _ h) (Nat.div_mul_le_self _ _)

theorem reserve_R {c : Cfg} (g : Good c) {s : St} {l : Spec} (h : R c s l) (n : Nat) :
    ∃ s', reserve c s n = some s' ∧ R c s' l ∧ s'.len = s.len ∧ n * c.k ≤ allocated s' ∧
      s'.mr = s.mr := by
  unfold reserve
  split
  · rename_i hn
    have h1 : allocated s ≤ n * c.k := by
      unfold capacity at hn
      have := Nat.lt_mul_of_div_lt hn g.pos
      omega
    have h2 : c.k ≤ n * c.k := by
      have : 0 < n := by omega
      exact Nat.le_mul_of_pos_left _ this
    have h3 := minMem_ge c n
    have h4 := h.cap
    obtain ⟨s', e, r, e1, e2, e3, _⟩ := realloc_R g h (b := minMem c n) (by omega) (by omega)
    exact ⟨s', e, r, e1, by omega, e3⟩
  · rename_i hn
    exact ⟨s, rfl, h, rfl, le_cap (by omega), rfl⟩

theorem ensure_R {c : Cfg} (g : Good c) {s : St} {l : Spec} (h : R c s l) (n : Nat) :
    ∃ s', ensure c s n = some s' ∧ R c s' l ∧ s'.len = s.len ∧ n * c.k ≤ allocated s' ∧
      s'.mr = s.mr := by
  unfold ensure
  split
  · obtain ⟨s', e, r, e1, e2, e3⟩ := reserve_R g h (bitCeil n)
    exact ⟨s', e, r, e1, Nat.le_trans (Nat.mul_le_mul_right _ (le_bitCeil n)) e2, e3⟩
  · exact ⟨s, rfl, h, rfl, le_cap (by omega), rfl⟩

theorem grow_R {c : Cfg} (g : Good c) {s : St} {l : Spec} (h : R c s l) (hf : s.len = allocated s) :
    ∃ s', grow c s = some s' ∧ R c s' l ∧ s'.len = s.len ∧ s.len + c.k ≤ allocated s' ∧
      s'.mr = s.mr := by
  have hp := g.pos
  unfold grow
  cases hs : s.blk with
  | none =>
    have h0 : s.len = 0 := by rw [hf]; simp [allocated, hs]
    have hm := minMem_ge c 1
    obtain ⟨s', e, r, e1, e2, e3, _⟩ := realloc_R g h (b := max c.A (minMem c 1)) (by omega) (by omega)
    refine ⟨s', ?_, r, e1, by omega, e3⟩
    simpa [realloc, hs] using e
  | some p =>
    obtain ⟨q, hq⟩ := h.dvd
    have hcap : capacity c s = q := by unfold capacity; rw [hq]; exact Nat.mul_div_cancel_left _ hp
    have hm := minMem_ge c (capacity c s * 2)
    rw [hcap] at hm ⊢
    by_cases hq0 : q = 0
    · -- an allocated block is never shorter than an element
      subst hq0
      have := h.pos (by simp [hs])
      omega
    · have hx : c.k ≤ c.k * q := Nat.le_mul_of_pos_right _ (by omega)
      have he : q * 2 * c.k = c.k * q + c.k * q := by rw [Nat.mul_comm c.k q]; rw [Nat.mul_comm q 2, Nat.mul_assoc]; omega
      obtain ⟨s', e, r, e1, e2, e3, _⟩ := realloc_R g h (b := minMem c (q * 2)) (by omega) (by omega)
      exact ⟨s', e, r, e1, by omega, e3⟩

/-- A write that fits inside the block. -/
theorem write_R {s : St} {off : Nat} {bs : List Nat}
    (hf : off + bs.length ≤ allocated s) :
    ∃ s', write s off bs = some s' ∧ s'.len = s.len ∧ s'.mr = s.mr ∧ allocated s' = allocated s ∧
      (s.blk = none → s' = s ∧ bs = [] ∧ off = 0) ∧
      ∀ o mem, s.blk = some (o, mem) →
        s'.blk = some (o, mem.take off ++ bs ++ mem.drop (off + bs.length)) := by
  unfold write
  cases hs : s.blk with
  | none =>
    have : off = 0 ∧ bs = [] := by simp [allocated, hs] at hf; exact hf
    exact ⟨s, by simp [this.2], rfl, rfl, rfl, fun _ => ⟨rfl, this.2, this.1⟩, by simp⟩
  | some p =>
    obtain ⟨o, mem⟩ := p
    have hc : off + bs.length ≤ mem.length := by simpa [allocated, hs] using hf
    dsimp only
    rw [if_pos hc]
    refine ⟨_, rfl, rfl, rfl, ?_, by simp, ?_⟩
    · simp only [allocated, hs, List.length_append, List.length_take, List.length_drop]; omega
    · intro o' mem' hm
      simp only [Option.some.injEq, Prod.mk.injEq] at hm
      rw [hm.1, hm.2]

/-- Replace the length and the elements of a block. -/
theorem R.mk' {c : Cfg} {s s' : St} {l l' : Spec} (h : R c s l) (n : Nat)
    (hmr : s'.mr = s.mr) (ha : allocated s' = allocated s) (hn : s'.len = n * c.k) (hl : l'.length = n)
    (hfit : n * c.k ≤ allocated s) (hnone : s.blk = none → s'.blk = none)
    (henc : ∀ o mem, s.blk = some (o, mem) → ∃ mem', s'.blk = some (o, mem') ∧ Enc c.k l' (mem'.take s'.len)) :
    R c s' l' := by
  refine ⟨by rw [hn, hl], by rw [hn, ha]; exact hfit, ha ▸ h.dvd, ?_, ?_, ?_⟩
  · intro hb
    rw [ha]
    exact h.pos (fun e => hb (hnone e))
  · intro o mem hm
    cases hs : s.blk with
    | none => rw [hnone hs] at hm; simp at hm
    | some p =>
      obtain ⟨mem', e, _⟩ := henc p.1 p.2 hs
      rw [e] at hm
      simp only [Option.some.injEq, Prod.mk.injEq] at hm
      rw [← hm.1, hmr]
      exact h.own p.1 p.2 hs
  · intro o mem hm
    cases hs : s.blk with
    | none => rw [hnone hs] at hm; simp at hm
    | some p =>
      obtain ⟨mem', e, h'⟩ := henc p.1 p.2 hs
      rw [e] at hm
      simp only [Option.some.injEq, Prod.mk.injEq] at hm
      rw [← hm.2]
      exact h'

theorem R.mem_len {c : Cfg} {s : St} {l : Spec} (h : R c s l) {o : Nat} {mem : List Nat}
    (hs : s.blk = some (o, mem)) : s.len ≤ mem.length := by
  have := h.cap; simpa [allocated, hs] using this

/-- Writing elements behind the last one and lengthening the array. -/
theorem writeEnd_R {c : Cfg} {s : St} {l : Spec} (h : R c s l) {xs : List (List Nat)}
    (hx : sized c.k xs) (hf : s.len + xs.length * c.k ≤ allocated s) :
    ∃ s', write s s.len (bytes xs) = some s' ∧ s'.mr = s.mr ∧
      R c { s' with len := s.len + xs.length * c.k } (l ++ xs.map some) := by
  have hb := bytes_length hx
  obtain ⟨s', e, e1, e2, e3, e4, e5⟩ := write_R (s := s) (off := s.len) (bs := bytes xs) (by omega)
  have hsum : s.len + xs.length * c.k = (l.length + xs.length) * c.k := by rw [h.len, Nat.add_mul]
  refine ⟨s', e, e2, h.mk' (l.length + xs.length) e2 e3 hsum (by simp) (by omega) ?_ ?_⟩
  · intro hs; rw [(e4 hs).1]; exact hs
  · intro o mem hs
    have hm := h.mem_len hs
    refine ⟨_, e5 o mem hs, ?_⟩
    have : (mem.take s.len ++ bytes xs ++ mem.drop (s.len + (bytes xs).length)).take (s.len + xs.length * c.k)
        = mem.take s.len ++ bytes xs := by
      rw [List.take_append_of_le_length (by simp; omega), List.take_of_length_le (by simp; omega)]
    dsimp only
    rw [this]
    exact (h.enc o mem hs).append (enc_bytes xs hx)

/-- Overwriting the array from its beginning. -/
theorem writeAll_R {c : Cfg} {s : St} {l : Spec} (h : R c s l) {xs : List (List Nat)}
    (hx : sized c.k xs) (hf : xs.length * c.k ≤ allocated s) :
    ∃ s', write s 0 (bytes xs) = some s' ∧ s'.mr = s.mr ∧ s'.len = s.len ∧
      R c { s' with len := xs.length * c.k } (xs.map some) := by
  have hb := bytes_length hx
  obtain ⟨s', e, e1, e2, e3, e4, e5⟩ := write_R (s := s) (off := 0) (bs := bytes xs) (by omega)
  refine ⟨s', e, e2, e1, h.mk' xs.length e2 e3 rfl (by simp) (by omega) ?_ ?_⟩
  · intro hs; rw [(e4 hs).1]; exact hs
  · intro o mem hs
    refine ⟨_, e5 o mem hs, ?_⟩
    dsimp only
    rw [List.take_zero, List.nil_append, List.take_append_of_le_length (by omega),
      List.take_of_length_le (by omega)]
    exact enc_bytes xs hx

/-- Truncating or lengthening within the block. -/
theorem setLen_R {c : Cfg} {s : St} {l : Spec} (h : R c s l) (n : Nat) (hf : n * c.k ≤ allocated s) :
    R c { s with len := n * c.k } (setLen n none l) := by
  refine h.mk' n rfl rfl rfl (by simp [setLen]; omega) hf (fun e => e) ?_
  intro o mem hs
  have hm := h.mem_len hs
  have hf' : n * c.k ≤ mem.length := by simpa [allocated, hs] using hf
  refine ⟨mem, hs, ?_⟩
  dsimp only
  by_cases hn : n ≤ l.length
  · have e := (h.enc o mem hs).take n
    rw [List.take_take, h.len, Nat.min_eq_left (Nat.mul_le_mul_right _ hn)] at e
    have : n - l.length = 0 := by omega
    simpa [setLen, this] using e
  · have hle : l.length * c.k ≤ n * c.k := Nat.mul_le_mul_right _ (by omega)
    have e1 := (h.enc o mem hs)
    rw [h.len] at e1
    have hsub : n * c.k - l.length * c.k = (n - l.length) * c.k := (Nat.sub_mul _ _ _).symm
    have e2 : Enc c.k (List.replicate (n - l.length) none) ((mem.drop (l.length * c.k)).take ((n - l.length) * c.k)) := by
      apply enc_junk
      rw [List.length_take, List.length_drop]
      omega
    have e3 := e1.append e2
    have : mem.take (l.length * c.k) ++ (mem.drop (l.length * c.k)).take ((n - l.length) * c.k) = mem.take (n * c.k) := by
      rw [← List.take_add]
      congr 1
      omega
    rw [this] at e3
    rw [setLen, List.take_of_length_le (by omega)]
    exact e3

theorem resize_R {c : Cfg} (g : Good c) {s : St} {l : Spec} (h : R c s l) (n : Nat) :
    ∃ s', resize c s n = some s' ∧ R c s' (setLen n none l) ∧ s'.mr = s.mr ∧ s'.len = n * c.k ∧
      n * c.k ≤ allocated s' := by
  obtain ⟨s1, e, r, e1, e2, e3⟩ := reserve_R g h n
  unfold resize
  rw [e]
  exact ⟨_, rfl, setLen_R r n e2, e3, rfl, e2⟩

theorem insertAt_R {c : Cfg} (g : Good c) {s : St} {l : Spec} (h : R c s l) (i : Nat)
    (xs : List (List Nat)) (hx : sized c.k xs) (hi : i ≤ l.length) :
    ∃ s', insertAt c s i xs = some s' ∧ R c s' (l.take i ++ xs.map some ++ l.drop i) ∧
      s'.mr = s.mr := by
  have hsz : size c s = l.length := by unfold size; rw [h.len]; exact Nat.mul_div_cancel _ g.pos
  obtain ⟨s1, e, r, e1, e2, e3⟩ := ensure_R g h (l.length + xs.length)
  have hb := bytes_length hx
  have hik : i * c.k ≤ l.length * c.k := Nat.mul_le_mul_right _ hi
  have hlen := h.len
  rw [Nat.add_mul] at e2
  have hlist : (l.take i ++ xs.map some ++ l.drop i).length = l.length + xs.length := by
    simp; omega
  unfold insertAt
  simp only [hsz, e]
  cases hs : s1.blk with
  | none =>
    have h0 : allocated s1 = 0 := by simp [allocated, hs]
    have hp := g.pos
    have hx0 : xs = [] := by
      cases xs with
      | nil => rfl
      | cons a b => simp [Nat.succ_mul] at e2; omega
    have hl0 : l = [] := by
      cases l with
      | nil => rfl
      | cons a b => simp [Nat.succ_mul] at e2; omega
    subst hx0 hl0
    have hs0 : s.len = 0 := by simpa using hlen
    simp only [hs0, Nat.zero_sub, if_true, write, hs, bytes, List.flatten_nil, List.length_nil,
      Nat.zero_mul, Nat.add_zero]
    refine ⟨_, rfl, ?_, e3⟩
    rw [← hs]
    simpa using r
  | some p =>
    obtain ⟨o, mem⟩ := p
    have hm := r.mem_len hs
    have hal : allocated s1 = mem.length := by simp [allocated, hs]
    have henc := r.enc o mem hs
    -- the moved bytes
    have hrd : readBytes s1 (s1.len - (s.len - i * c.k)) (s.len - i * c.k)
        = (mem.take s1.len).drop (i * c.k) := by
      simp only [readBytes, hs]
      rw [List.drop_take]
      have : s1.len - (s.len - i * c.k) = i * c.k := by omega
      rw [this]
      congr 1
      omega
    have htl : ((mem.take s1.len).drop (i * c.k)).length = s.len - i * c.k := by
      rw [List.length_drop, List.length_take]; omega
    have hoff : s1.len + xs.length * c.k - (s.len - i * c.k) = i * c.k + xs.length * c.k := by omega
    -- after the move
    have step1 : ∃ s2, (if s.len - i * c.k = 0 then some s1
           else write s1 (s1.len + xs.length * c.k - (s.len - i * c.k))
              (readBytes s1 (s1.len - (s.len - i * c.k)) (s.len - i * c.k))) = some s2 ∧
        s2.len = s1.len ∧ s2.mr = s1.mr ∧ allocated s2 = allocated s1 ∧
        ∃ mem2, s2.blk = some (o, mem2) ∧ mem2.length = mem.length ∧
          mem2.take (i * c.k) = mem.take (i * c.k) ∧
          (mem2.drop (i * c.k + xs.length * c.k)).take (s.len - i * c.k) = (mem.take s1.len).drop (i * c.k) := by
      by_cases hz : s.len - i * c.k = 0
      · rw [if_pos hz]
        refine ⟨s1, rfl, rfl, rfl, rfl, mem, hs, rfl, rfl, ?_⟩
        rw [hz, List.take_zero]
        exact (List.length_eq_zero_iff.1 (by rw [htl, hz])).symm
      · rw [if_neg hz, hrd, hoff]
        obtain ⟨s2, w, w1, w2, w3, _, w5⟩ := write_R (s := s1) (off := i * c.k + xs.length * c.k)
          (bs := (mem.take s1.len).drop (i * c.k)) (by omega)
        refine ⟨s2, w, w1, w2, w3, _, w5 o mem hs, ?_, ?_, ?_⟩
        · simp only [List.length_append, List.length_take, List.length_drop]; omega
        · rw [List.append_assoc, List.take_append_of_le_length (by rw [List.length_take]; omega), List.take_take]
          congr 1; omega
        · rw [List.append_assoc, List.drop_append_of_le_length (by rw [List.length_take]; omega),
            List.drop_of_length_le (by rw [List.length_take]; omega), List.nil_append,
            List.take_append_of_le_length (by omega), List.take_of_length_le (by omega)]
    obtain ⟨s2, w, w1, w2, w3, mem2, w4, w5, w6, w7⟩ := step1
    have hmv : s2.len - (s.len - i * c.k) = i * c.k := by omega
    obtain ⟨s3, v, v1, v2, v3, _, v5⟩ := write_R (s := s2) (off := i * c.k) (bs := bytes xs)
      (by rw [w3, hal]; omega)
    simp only [w, hmv, v]
    refine ⟨_, rfl, r.mk' (l.length + xs.length) (by rw [v2, w2]) (v3.trans w3) ?_ hlist
      (by rw [Nat.add_mul]; omega) (by simp [hs]) ?_, by dsimp only; rw [v2, w2, e3]⟩
    · dsimp only; rw [v1, w1, e1, hlen, Nat.add_mul]
    · intro o' mem' hs'
      rw [hs] at hs'
      simp only [Option.some.injEq, Prod.mk.injEq] at hs'
      obtain ⟨rfl, rfl⟩ := hs'
      refine ⟨_, v5 o mem2 w4, ?_⟩
      dsimp only
      have key : (mem2.take (i * c.k) ++ bytes xs ++ mem2.drop (i * c.k + (bytes xs).length)).take
          (s3.len + xs.length * c.k) = mem.take (i * c.k) ++ bytes xs ++ (mem.take s1.len).drop (i * c.k) := by
        rw [List.take_append, w6, hb]
        have h1 : (mem.take (i * c.k) ++ bytes xs).length = i * c.k + xs.length * c.k := by
          rw [List.length_append, List.length_take, hb]; omega
        rw [List.take_of_length_le (by omega), h1]
        have h2 : s3.len + xs.length * c.k - (i * c.k + xs.length * c.k) = s.len - i * c.k := by omega
        rw [h2, w7]
      rw [key]
      have a1 := henc.take i
      rw [List.take_take, Nat.min_eq_left (by omega)] at a1
      exact (a1.append (enc_bytes xs hx)).append (henc.drop i)

theorem step_R {c : Cfg} (g : Good c) {s : St} {l l' : Spec} (h : R c s l) (op : Op)
    (hop : specStep c.k l op = some l') :
    ∃ s', step c s op = some s' ∧ R c s' l' ∧ s'.mr = s.mr := by
  have hsz : size c s = l.length := by unfold size; rw [h.len]; exact Nat.mul_div_cancel _ g.pos
  cases op with
  | push x =>
    simp only [specStep, Option.ite_none_right_eq_some, Option.some.injEq] at hop
    obtain ⟨hx, rfl⟩ := hop
    have hx1 : sized c.k [x] := by intro y hy; simp at hy; rw [hy]; exact hx
    have : ∃ s1, (if s.len = allocated s then grow c s else some s) = some s1 ∧ R c s1 l ∧
        s1.mr = s.mr ∧ s1.len + c.k ≤ allocated s1 := by
      split
      · obtain ⟨s1, e, r, e1, e2, e3⟩ := grow_R g h ‹_›
        exact ⟨s1, e, r, e3, by omega⟩
      · refine ⟨s, rfl, h, rfl, ?_⟩
        obtain ⟨q, hq⟩ := h.dvd
        have h1 := h.cap
        have h2 := h.len
        have : l.length < q := by
          apply Nat.lt_of_mul_lt_mul_left (a := c.k)
          rw [Nat.mul_comm c.k l.length]
          omega
        have h3 : (l.length + 1) * c.k ≤ q * c.k := Nat.mul_le_mul_right _ this
        rw [Nat.succ_mul, Nat.mul_comm q] at h3
        omega
    obtain ⟨s1, e, r, e3, e4⟩ := this
    obtain ⟨s2, w, w1, w2⟩ := writeEnd_R r hx1 (by simpa using e4)
    have hbx : bytes [x] = x := by simp [bytes]
    rw [hbx] at w
    have hl2 : s2.len = s1.len := by
      obtain ⟨s2', w', w1', _⟩ := write_R (s := s1) (off := s1.len) (bs := x) (by rw [hx]; omega)
      rw [w] at w'; rw [Option.some.inj w']; exact w1'
    simp only [step, pushBack, e, w]
    refine ⟨_, rfl, ?_, w1.trans e3⟩
    simpa [hl2] using w2
  | pop =>
    simp only [specStep, Option.ite_none_left_eq_some, Option.some.injEq] at hop
    obtain ⟨hne, rfl⟩ := hop
    refine ⟨_, rfl, ?_, rfl⟩
    have hpos : 0 < l.length := List.length_pos_iff.2 hne
    have := setLen_R h (l.length - 1) (by
      have := h.cap; rw [h.len] at this
      exact Nat.le_trans (Nat.mul_le_mul_right _ (by omega)) this)
    rw [Nat.sub_mul, Nat.one_mul, ← h.len] at this
    have hd : l.dropLast = setLen (l.length - 1) none l := by
      have : l.length - 1 - l.length = 0 := by omega
      rw [setLen, this, List.dropLast_eq_take]; simp
    rw [hd]
    exact this
  | reserve n =>
    simp only [specStep, Option.some.injEq] at hop
    obtain ⟨s1, e, r, _, _, e3⟩ := reserve_R g h n
    exact ⟨s1, e, hop ▸ r, e3⟩
  | resize n =>
    simp only [specStep, Option.some.injEq] at hop
    obtain ⟨s1, e, r, e3, _⟩ := resize_R g h n
    exact ⟨s1, e, hop ▸ r, e3⟩
  | fill n x =>
    simp only [specStep, Option.ite_none_right_eq_some, Option.some.injEq] at hop
    obtain ⟨hx, rfl⟩ := hop
    simp only [step, resizeFill, hsz]
    split
    · rename_i hn
      obtain ⟨s1, e, r, e1, e2, e3⟩ := reserve_R g h n
      have hsum : s.len + (n - l.length) * c.k = n * c.k := by
        rw [h.len, Nat.sub_mul]
        have := Nat.mul_le_mul_right c.k (by omega : l.length ≤ n)
        omega
      obtain ⟨s2, w, w1, w2⟩ := writeEnd_R r (xs := List.replicate (n - l.length) x)
        (sized_replicate hx) (by simp; omega)
      simp only [e, w]
      refine ⟨_, rfl, ?_, w1.trans e3⟩
      rw [List.length_replicate, e1, hsum, List.map_replicate] at w2
      rw [setLen, List.take_of_length_le (by omega)]
      exact w2
    · rename_i hn
      have := setLen_R h n (Nat.le_trans (Nat.mul_le_mul_right _ (by omega)) (h.len ▸ h.cap))
      refine ⟨_, rfl, ?_, rfl⟩
      have h0 : n - l.length = 0 := by omega
      simpa [setLen, h0] using this
  | append xs =>
    simp only [specStep, Option.ite_none_right_eq_some, Option.some.injEq] at hop
    obtain ⟨hx, rfl⟩ := hop
    obtain ⟨s1, e, r, e1, e2, e3⟩ := ensure_R g h (l.length + xs.length)
    rw [Nat.add_mul, ← h.len] at e2
    obtain ⟨s2, w, w1, w2⟩ := writeEnd_R r hx (by omega)
    have hl2 : s2.len = s1.len := by
      obtain ⟨s2', w', w1', _⟩ := write_R (s := s1) (off := s1.len) (bs := bytes xs)
        (by rw [bytes_length hx]; omega)
      rw [w] at w'; rw [Option.some.inj w']; exact w1'
    simp only [step, append, hsz, e, w]
    exact ⟨_, rfl, by rw [hl2]; exact w2, w1.trans e3⟩
  | insert i xs =>
    simp only [specStep, Option.ite_none_right_eq_some, Option.some.injEq] at hop
    obtain ⟨⟨hx, hi⟩, rfl⟩ := hop
    exact insertAt_R g h i xs hx hi
  | assignN n x =>
    simp only [specStep, Option.ite_none_right_eq_some, Option.some.injEq] at hop
    obtain ⟨hx, rfl⟩ := hop
    obtain ⟨s1, e, r, e3, e4, e5⟩ := resize_R g h n
    obtain ⟨s2, w, w1, w2, w3⟩ := writeAll_R r (xs := List.replicate n x) (sized_replicate hx) (by simpa using e5)
    simp only [step, assignN, e, w]
    refine ⟨_, rfl, ?_, w1.trans e3⟩
    rw [List.length_replicate, List.map_replicate, ← e4, ← w2] at w3
    exact w3
  | assign xs =>
    simp only [specStep, Option.ite_none_right_eq_some, Option.some.injEq] at hop
    obtain ⟨hx, rfl⟩ := hop
    obtain ⟨s1, e, r, e1, e2, e3⟩ := ensure_R g h xs.length
    obtain ⟨s2, w, w1, w2, w3⟩ := writeAll_R r hx e2
    simp only [step, assignL, e, w]
    exact ⟨_, rfl, w3, w1.trans e3⟩
  | clear =>
    simp only [specStep, Option.some.injEq] at hop
    subst hop
    refine ⟨_, rfl, ?_, rfl⟩
    have := setLen_R h 0 (by omega)
    simpa [setLen] using this

theorem run_R {c : Cfg} (g : Good c) : ∀ (ops : List Op) {s : St} {l l' : Spec}, R c s l →
    specRun c.k l ops = some l' → ∃ s', run c s ops = some s' ∧ R c s' l' ∧ s'.mr = s.mr
  | [], s, l, l', h, e => ⟨s, rfl, by simp only [specRun, Option.some.injEq] at e; exact e ▸ h, rfl⟩
  | o :: os, s, l, l', h, e => by
    simp only [specRun] at e
    cases ho : specStep c.k l o with
    | none => simp [ho] at e
    | some l1 =>
      simp only [ho] at e
      obtain ⟨s1, e1, r1, m1⟩ := step_R g h o ho
      obtain ⟨s2, e2, r2, m2⟩ := run_R g os r1 e
      exact ⟨s2, by simp only [run, e1]; exact e2, r2, m2.trans m1⟩

theorem init_R (c : Cfg) (mr : Nat) : R c (init mr) [] :=
  ⟨by simp [init], by simp [init], ⟨0, by simp [init, allocated]⟩, by simp [init], by simp [init], by simp [init]⟩

theorem R.get {c : Cfg} {s : St} {l : Spec} (h : R c s l) {i : Nat} {x : List Nat}
    (hx : l[i]? = some (some x)) (hp : 0 < c.k) : get c s i = x := by
  have hi : i < l.length := (List.getElem?_eq_some_iff.1 hx).1
  cases hs : s.blk with
  | none =>
    have := h.cap; have h2 := h.len
    simp [allocated, hs] at this
    have : l.length * c.k = 0 := by omega
    rcases Nat.mul_eq_zero.1 this with h3 | h3 <;> omega
  | some p =>
    obtain ⟨o, mem⟩ := p
    have := (h.enc o mem hs).get hx
    simp only [PodArray.get, readBytes, hs]
    rw [← this, List.drop_take, List.take_take]
    congr 1
    have h1 : (i + 1) * c.k ≤ l.length * c.k := Nat.mul_le_mul_right _ hi
    rw [Nat.succ_mul] at h1
    have := h.len
    omega

theorem R.size {c : Cfg} {s : St} {l : Spec} (h : R c s l) (hp : 0 < c.k) : size c s = l.length := by
  unfold PodArray.size; rw [h.len]; exact Nat.mul_div_cancel _ hp

theorem R.destroy {c : Cfg} {s : St} {l : Spec} (h : R c s l) : destroy s = some () := by
  unfold PodArray.destroy
  cases hs : s.blk with
  | none => rfl
  | some p => simp [h.own p.1 p.2 hs]

theorem R.holds {c : Cfg} {s : St} {l : Spec} (h : R c s l) (hp : 0 < c.k) : Holds c s l :=
  ⟨h.size hp, fun _ _ hx => h.get hx hp, Nat.div_le_div_right h.cap, h.destroy⟩

end Verif.PodArray
