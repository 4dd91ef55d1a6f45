import Verif.Hash.Spec
import Mathlib.Data.Fintype.EquivFin
/-!
# C113, C114: the hash functions
-/
namespace Verif.Hash

/-! ## Words and bytes -/

theorem le_lt (d : Bytes) : le d < 256 ^ d.length := by
  induction d with
  | nil => simp [le]
  | cons b bs ih =>
    simp only [le, List.length_cons, Nat.pow_succ]
    have := b.isLt
    omega

theorem le_inj : ∀ {a b : Bytes}, a.length = b.length → le a = le b → a = b
  | [], [], _, _ => rfl
  | [], _ :: _, h, _ => by simp at h
  | _ :: _, [], h, _ => by simp at h
  | x :: xs, y :: ys, h, e => by
    simp only [le] at e
    have hx := x.isLt; have hy := y.isLt
    have e1 : x = y := BitVec.eq_of_toNat_eq (by omega)
    have e2 : xs = ys := le_inj (by simpa using h) (by omega)
    rw [e1, e2]

theorem or_shift (a : Nat) (b : Nat) (k : Nat) (h : a < 2 ^ k) : a ||| (b <<< k) = a + b * 2 ^ k := by
  rw [Nat.or_comm, ← Nat.shiftLeft_add_eq_or_of_lt h, Nat.shiftLeft_eq, Nat.add_comm]

theorem xor_shift (a : Nat) (b : Nat) (k : Nat) (h : a < 2 ^ k) : (b <<< k) ^^^ a = a + b * 2 ^ k := by
  rw [← or_shift a b k h]
  apply Nat.eq_of_testBit_eq
  intro i
  rw [Nat.testBit_xor, Nat.testBit_or, Nat.testBit_shiftLeft]
  by_cases hi : k ≤ i
  · have : a.testBit i = false := Nat.testBit_lt_two_pow (Nat.lt_of_lt_of_le h (Nat.pow_le_pow_right (by decide) hi))
    simp [this]
  · simp [hi]

theorem word4 (b0 b1 b2 b3 : Byte) : (b0.setWidth 32 ||| (b1.setWidth 32 <<< 8) ||| (b2.setWidth 32 <<< 16) ||| (b3.setWidth 32 <<< 24) : W) = BitVec.ofNat 32 (le [b0, b1, b2, b3]) := by
  have h0 := b0.isLt; have h1 := b1.isLt; have h2 := b2.isLt; have h3 := b3.isLt
  apply BitVec.eq_of_toNat_eq
  simp only [BitVec.toNat_or, BitVec.toNat_shiftLeft, BitVec.toNat_setWidth, BitVec.toNat_ofNat, le]
  have e1 : (b1.toNat % 2 ^ 32) <<< 8 % 2 ^ 32 = b1.toNat <<< 8 := by simp only [Nat.shiftLeft_eq]; omega
  have e2 : (b2.toNat % 2 ^ 32) <<< 16 % 2 ^ 32 = b2.toNat <<< 16 := by simp only [Nat.shiftLeft_eq]; omega
  have e3 : (b3.toNat % 2 ^ 32) <<< 24 % 2 ^ 32 = b3.toNat <<< 24 := by simp only [Nat.shiftLeft_eq]; omega
  rw [e1, e2, e3, show b0.toNat % 2 ^ 32 = b0.toNat by omega, or_shift _ _ 8 (by omega), or_shift _ _ 16 (by omega), or_shift _ _ 24 (by omega)]
  omega

theorem word3 (b0 b1 b2 : Byte) : ((b2.setWidth 32 <<< 16) ^^^ (b1.setWidth 32 <<< 8) ^^^ b0.setWidth 32 : W) = BitVec.ofNat 32 (le [b0, b1, b2]) := by
  have h0 := b0.isLt; have h1 := b1.isLt; have h2 := b2.isLt
  apply BitVec.eq_of_toNat_eq
  simp only [BitVec.toNat_xor, BitVec.toNat_shiftLeft, BitVec.toNat_setWidth, BitVec.toNat_ofNat, le]
  have e1 : (b1.toNat % 2 ^ 32) <<< 8 % 2 ^ 32 = b1.toNat <<< 8 := by simp only [Nat.shiftLeft_eq]; omega
  have e2 : (b2.toNat % 2 ^ 32) <<< 16 % 2 ^ 32 = b2.toNat <<< 16 := by simp only [Nat.shiftLeft_eq]; omega
  rw [e1, e2, show b0.toNat % 2 ^ 32 = b0.toNat by omega, Nat.xor_assoc, xor_shift _ _ 8 (by omega), xor_shift _ _ 16 (by omega)]
  omega

theorem word2 (b0 b1 : Byte) : ((b1.setWidth 32 <<< 8) ^^^ b0.setWidth 32 : W) = BitVec.ofNat 32 (le [b0, b1]) := by
  have h0 := b0.isLt; have h1 := b1.isLt
  apply BitVec.eq_of_toNat_eq
  simp only [BitVec.toNat_xor, BitVec.toNat_shiftLeft, BitVec.toNat_setWidth, BitVec.toNat_ofNat, le]
  have e1 : (b1.toNat % 2 ^ 32) <<< 8 % 2 ^ 32 = b1.toNat <<< 8 := by simp only [Nat.shiftLeft_eq]; omega
  rw [e1, show b0.toNat % 2 ^ 32 = b0.toNat by omega, xor_shift _ _ 8 (by omega)]
  omega

theorem word1 (b0 : Byte) : (b0.setWidth 32 : W) = BitVec.ofNat 32 (le [b0]) := by
  apply BitVec.eq_of_toNat_eq
  simp [le]

theorem rotl_eq (x : W) (r : Nat) (h : r < 32) : rotl32 x r = x.rotateLeft r := by
  rw [rotl32, BitVec.rotateLeft, BitVec.rotateLeftAux, Nat.mod_eq_of_lt h]

theorem scramble_eq (k : W) : scramble k = refK k := by rw [scramble, refK, rotl_eq _ _ (by decide)]

theorem fmix_eq (h : W) : fmix h = refF h := by simp only [fmix, refF]

/-! ## The code computes the published function -/

theorem peek_nat (d : Bytes) (k : Nat) : peek d (k : Nat) = d[k]? := by
  simp [peek]

theorem load_eq (d : Bytes) (j nb : Nat) : load d ((nb * 4 : Nat) + 4 * ((j : Int) - nb)) = load d ((4 * j : Nat) : Int) := by
  congr 1; omega

theorem load_cons (a b c e : Byte) (d : Bytes) (j : Nat) : load (a :: b :: c :: e :: d) ((4 * (j + 1) : Nat) : Int) = load d ((4 * j : Nat) : Int) := by
  have p : ∀ k, peek (a :: b :: c :: e :: d) ((4 * (j + 1) : Nat) + (k : Nat) : Int) = peek d ((4 * j : Nat) + (k : Nat) : Int) := by
    intro k
    have e1 : ((4 * (j + 1) : Nat) + (k : Nat) : Int) = ((4 * j + k + 4 : Nat) : Int) := by omega
    have e2 : ((4 * j : Nat) + (k : Nat) : Int) = ((4 * j + k : Nat) : Int) := by omega
    rw [e1, e2, peek_nat, peek_nat]
    rfl
  have p0 : peek (a :: b :: c :: e :: d) ((4 * (j + 1) : Nat) : Int) = peek d ((4 * j : Nat) : Int) := by simpa using p 0
  simp only [load]
  rw [p0]
  have q1 : peek (a :: b :: c :: e :: d) (((4 * (j + 1) : Nat) : Int) + 1) = peek d (((4 * j : Nat) : Int) + 1) := p 1
  have q2 : peek (a :: b :: c :: e :: d) (((4 * (j + 1) : Nat) : Int) + 2) = peek d (((4 * j : Nat) : Int) + 2) := p 2
  have q3 : peek (a :: b :: c :: e :: d) (((4 * (j + 1) : Nat) : Int) + 3) = peek d (((4 * j : Nat) : Int) + 3) := p 3
  rw [q1, q2, q3]

/-- A round with the offset from the start of the data. -/
def round' (d : Bytes) (h : W) (j : Nat) : Option W := (load d ((4 * j : Nat) : Int)).map fun k => mix h (scramble k)

theorem round_eq (d : Bytes) (nb : Nat) : round d nb = round' d := by
  funext h j
  simp only [round, round', load_eq]
  cases load d ((4 * j : Nat) : Int) <;> rfl

theorem foldlM_shift (f g : W → Nat → Option W) (hfg : ∀ h j, f h (j + 1) = g h j) (n : Nat) (h : W) :
    ((List.range n).map (· + 1)).foldlM f h = (List.range n).foldlM g h := by
  rw [List.foldlM_map]
  congr 1
  funext h j
  exact hfg h j

theorem tail_cons (a b c e : Byte) (d : Bytes) (t : Nat) (h : W) (m : Nat) : tail (a :: b :: c :: e :: d) (t + 4) h m = tail d t h m := by
  have p : ∀ k, peek (a :: b :: c :: e :: d) ((t + 4 + k : Nat) : Int) = peek d ((t + k : Nat) : Int) := by
    intro k
    rw [peek_nat, peek_nat, show t + 4 + k = t + k + 4 by omega]
    rfl
  have p0 : peek (a :: b :: c :: e :: d) ((t + 4 : Nat) : Int) = peek d ((t : Nat) : Int) := p 0
  match m with
  | 0 => rfl
  | 1 => simp only [tail, p0]
  | 2 => simp only [tail, p0, p 1]
  | 3 => simp only [tail, p0, p 1, p 2]
  | _ + 4 => rfl

theorem range_succ' (n : Nat) : List.range (n + 1) = 0 :: (List.range n).map (· + 1) := List.range_succ_eq_map

theorem refBody_cons (h : W) (b0 b1 b2 b3 : Byte) (rest : Bytes) :
    refBody h (b0 :: b1 :: b2 :: b3 :: rest) = refBody (refStep h (BitVec.ofNat 32 (le [b0, b1, b2, b3]))) rest := by
  simp only [refBody, words, leftover, List.foldl_cons]

theorem body_eq (d : Bytes) : ∀ (h : W) (x : Bytes) (n : Nat), n = d.length / 4 →
    ((List.range n).foldlM (round' (d ++ x)) h).bind (fun h => tail (d ++ x) (n * 4) h (d.length % 4)) = some (refBody h d) := by
  induction d using leftover.induct with
  | case1 b0 b1 b2 b3 rest ih =>
    intro h x n hn
    obtain ⟨m, rfl⟩ : ∃ m, n = m + 1 := ⟨n - 1, by simp only [List.length_cons] at hn; omega⟩
    have hm : m = rest.length / 4 := by simp only [List.length_cons] at hn; omega
    have hl : (b0 :: b1 :: b2 :: b3 :: rest).length % 4 = rest.length % 4 := by simp only [List.length_cons]; omega
    have r0 : round' (b0 :: b1 :: b2 :: b3 :: (rest ++ x)) h 0 = some (refStep h (BitVec.ofNat 32 (le [b0, b1, b2, b3]))) := by
      have l0 : load (b0 :: b1 :: b2 :: b3 :: (rest ++ x)) ((4 * 0 : Nat) : Int) = some (BitVec.ofNat 32 (le [b0, b1, b2, b3])) := by
        rw [← word4]; simp [load, peek]
      rw [round', l0, Option.map_some, mix, refStep, scramble_eq, rotl_eq _ _ (by decide)]
    rw [hl, range_succ', List.foldlM_cons]
    simp only [List.cons_append]
    rw [r0]
    simp only [Option.bind_eq_bind, Option.bind_some]
    rw [foldlM_shift _ (round' (rest ++ x)) (fun h j => by rw [round', round', load_cons]), show (m + 1) * 4 = m * 4 + 4 by omega]
    simp only [tail_cons]
    rw [ih _ x m hm, refBody_cons]
  | case2 d hd =>
    intro h x n hn
    match d, hd with
    | [], _ =>
      subst hn
      have z : refLast h (BitVec.ofNat 32 (le [])) = h := by
        rw [refLast, show refK (BitVec.ofNat 32 (le [])) = 0#32 by decide, BitVec.xor_zero]
      simp only [refBody, words, leftover, List.foldl_nil, z]
      simp [tail]
    | [b0], _ =>
      subst hn
      simp only [refBody, words, leftover, List.foldl_nil]
      rw [← word1, refLast, ← scramble_eq]
      simp [tail, peek]
    | [b0, b1], _ =>
      subst hn
      simp only [refBody, words, leftover, List.foldl_nil]
      rw [← word2, refLast, ← scramble_eq]
      simp [tail, peek]
    | [b0, b1, b2], _ =>
      subst hn
      simp only [refBody, words, leftover, List.foldl_nil]
      rw [← word3, refLast, ← scramble_eq]
      simp [tail, peek]
    | a :: b :: c :: e :: r, hd => exact absurd rfl (hd a b c e r)

/-- The function reads nothing outside of the `len` bytes it was passed, whatever comes after them, and returns the published
MurmurHash3_x86_32 of these bytes, for every length and every seed. -/
theorem C113_murmur (d after : Bytes) (len seed : W) (hl : d.length = len.toNat) :
    murmur d len seed = some (ref d seed) ∧ murmur (d ++ after) len seed = some (ref d seed) := by
  have key : ∀ x, murmur (d ++ x) len seed = some (ref d seed) := by
    intro x
    have hb := body_eq d seed x (len.toNat / 4) (by rw [hl])
    rw [hl] at hb
    have e : murmur (d ++ x) len seed = (((List.range (len.toNat / 4)).foldlM (round' (d ++ x)) seed).bind
        (fun h => tail (d ++ x) (len.toNat / 4 * 4) h (len.toNat % 4))).bind (fun h => some (fmix (h ^^^ len))) := by
      simp only [murmur, round_eq]
      cases (List.range (len.toNat / 4)).foldlM (round' (d ++ x)) seed <;> rfl
    rw [e, hb, Option.bind_some, fmix_eq, ref]
    congr 3
    exact BitVec.eq_of_toNat_eq (by rw [BitVec.toNat_ofNat, hl, Nat.mod_eq_of_lt len.isLt])
  exact ⟨by have := key []; rwa [List.append_nil] at this, key after⟩

/-- Test vectors of the published function, evaluated by the kernel. -/
example : murmur [] 0 0 = some 0x00000000#32 ∧ murmur [] 0 1 = some 0x514E28B7#32 ∧
    murmur [0x21, 0x43, 0x65, 0x87] 4 0x5082EDEE = some 0x2362F9DE#32 ∧ murmur [0x21, 0x43, 0x65] 3 0 = some 0x7E4A8634#32 := by decide +kernel

/-! ## Which inputs cannot collide -/

theorem xs_inj (k : Nat) (hk : 0 < k) : Function.Injective (fun x : W => x ^^^ (x >>> k)) := by
  intro x y h
  have hb : ∀ i, (x.getLsbD i ^^ x.getLsbD (k + i)) = (y.getLsbD i ^^ y.getLsbD (k + i)) := by
    intro i
    have := congrArg (fun z : W => z.getLsbD i) h
    simpa using this
  have key : ∀ d i, 32 ≤ i + d → x.getLsbD i = y.getLsbD i := by
    intro d
    induction d with
    | zero => intro i hi; rw [BitVec.getLsbD_of_ge x i (by omega), BitVec.getLsbD_of_ge y i (by omega)]
    | succ d ih =>
      intro i hi
      have h1 := ih (k + i) (by omega)
      have h2 := hb i
      rw [h1] at h2
      simpa using h2
  exact BitVec.eq_of_getLsbD_eq fun i _ => key 32 i (by omega)

theorem mul_inj (c d : W) (h : c * d = 1) : Function.Injective (fun x : W => x * c) := by
  intro x y hxy
  have := congrArg (fun z : W => z * d) hxy
  simpa [BitVec.mul_assoc, h] using this

theorem rot_inj (r : Nat) (hr : r < 32) : Function.Injective (fun x : W => x.rotateLeft r) := by
  intro x y h
  apply BitVec.eq_of_getLsbD_eq
  intro j hj
  have hb : ∀ i, (x.rotateLeft r).getLsbD i = (y.rotateLeft r).getLsbD i := fun i => congrArg (fun z : W => z.getLsbD i) h
  by_cases hjr : j < 32 - r
  · have := hb (j + r)
    rw [BitVec.getLsbD_rotateLeft_of_le hr, BitVec.getLsbD_rotateLeft_of_le hr] at this
    simpa [show ¬ (j + r < r) by omega, show j + r < 32 by omega] using this
  · have := hb (j - (32 - r))
    rw [BitVec.getLsbD_rotateLeft_of_le hr, BitVec.getLsbD_rotateLeft_of_le hr] at this
    simpa [show j - (32 - r) < r by omega, show 32 - r + (j - (32 - r)) = j by omega] using this

theorem refK_inj : Function.Injective refK := by
  intro x y h
  rw [refK, refK] at h
  exact mul_inj _ 0xdee13bb1#32 (by decide) (rot_inj 15 (by decide) (mul_inj _ 0x56ed309b#32 (by decide) h))

theorem refF_inj : Function.Injective refF := by
  intro x y h
  have e : ∀ z, refF z = (fun x : W => x ^^^ (x >>> 16)) ((fun x : W => x * 0xc2b2ae35#32) ((fun x : W => x ^^^ (x >>> 13))
      ((fun x : W => x * 0x85ebca6b#32) ((fun x : W => x ^^^ (x >>> 16)) z)))) := fun z => by simp only [refF]
  rw [e, e] at h
  exact xs_inj 16 (by decide) (mul_inj _ 0xa5cb9243#32 (by decide) (xs_inj 13 (by decide)
    (mul_inj _ 0x7ed1b41d#32 (by decide) (xs_inj 16 (by decide) h))))

theorem xor_left_inj' {a b c : W} (h : a ^^^ b = a ^^^ c) : b = c := (BitVec.xor_right_inj a).1 h

theorem xor_right_inj' {a b c : W} (h : b ^^^ a = c ^^^ a) : b = c := (BitVec.xor_left_inj a).1 h

theorem refStep_inj {h k h' k' : W} (e : refStep h k = refStep h' k') : h ^^^ refK k = h' ^^^ refK k' := by
  rw [refStep, refStep] at e
  exact rot_inj 13 (by decide) (mul_inj _ 0xcccccccd#32 (by decide) ((BitVec.add_left_inj _).1 e))

theorem foldl_inj {A B : Type} (f : A → B → A) (hf : ∀ k {h h'}, f h k = f h' k → h = h') (ws : List B) :
    ∀ {h h' : A}, ws.foldl f h = ws.foldl f h' → h = h' := by
  induction ws with
  | nil => intro h h' e; exact e
  | cons w ws ih =>
    intro h h' e
    rw [List.foldl_cons, List.foldl_cons] at e
    exact hf w (ih e)

theorem refLast_inj {h k h' k' : W} (e : refLast h k = refLast h' k') : h ^^^ refK k = h' ^^^ refK k' := by
  rw [refLast, refLast] at e
  exact e

attribute [local irreducible] refStep refK refLast refF

theorem refBody_inj (d : Bytes) {h h' : W} (e : refBody h d = refBody h' d) : h = h' := by
  rw [refBody, refBody] at e
  exact foldl_inj (fun h k => refStep h (BitVec.ofNat 32 k)) (fun k h h' e => xor_right_inj' (refStep_inj e)) _ (xor_right_inj' (refLast_inj e))

theorem ofNat_le_inj {a b : Bytes} (hl : a.length = b.length) (h4 : a.length ≤ 4) (h : BitVec.ofNat 32 (le a) = BitVec.ofNat 32 (le b)) : a = b := by
  apply le_inj hl
  have h1 := congrArg BitVec.toNat h
  have ha := le_lt a; have hb := le_lt b
  have hp : 256 ^ a.length ≤ 256 ^ 4 := Nat.pow_le_pow_right (by decide) h4
  rw [← hl] at hb
  simp only [BitVec.toNat_ofNat] at h1
  generalize 256 ^ a.length = q at *
  omega

theorem short (d : Bytes) (h : d.length < 4) : words d = [] ∧ leftover d = d := by
  match d, h with
  | [], _ => exact ⟨rfl, rfl⟩
  | [_], _ => exact ⟨rfl, rfl⟩
  | [_, _], _ => exact ⟨rfl, rfl⟩
  | [_, _, _], _ => exact ⟨rfl, rfl⟩
  | _ :: _ :: _ :: _ :: _, h => simp only [List.length_cons] at h; omega

theorem long (d : Bytes) (h : 4 ≤ d.length) : ∃ b0 b1 b2 b3 rest, d = b0 :: b1 :: b2 :: b3 :: rest := by
  match d, h with
  | b0 :: b1 :: b2 :: b3 :: rest, _ => exact ⟨b0, b1, b2, b3, rest, rfl⟩
  | [], h => simp at h
  | [_], h => simp at h
  | [_, _], h => simp at h
  | [_, _, _], h => simp at h

theorem refBody_block : ∀ (k : Nat) {a b : Bytes} (h : W), OneBlock k a b → refBody h a ≠ refBody h b := by
  intro k
  induction k with
  | zero =>
    rintro a b h ⟨hl, hne, -, hd⟩ e
    by_cases h4 : a.length < 4
    · rw [refBody, refBody, (short a h4).1, (short a h4).2, (short b (by omega)).1, (short b (by omega)).2] at e
      rw [List.foldl_nil] at e
      exact hne (ofNat_le_inj hl (by omega) (refK_inj (xor_left_inj' (refLast_inj e))))
    · obtain ⟨a0, a1, a2, a3, r, rfl⟩ := long a (by omega)
      obtain ⟨b0, b1, b2, b3, r', rfl⟩ := long b (by omega)
      have hr : r = r' := by simpa using hd
      subst hr
      rw [refBody_cons, refBody_cons] at e
      have := ofNat_le_inj (a := [a0, a1, a2, a3]) (b := [b0, b1, b2, b3]) rfl (by simp) (refK_inj (xor_left_inj' (refStep_inj (refBody_inj r e))))
      simp only [List.cons.injEq, and_true] at this
      obtain ⟨rfl, rfl, rfl, rfl⟩ := this
      exact hne rfl
  | succ k ih =>
    rintro a b h ⟨hl, hne, ht, hd⟩ e
    by_cases h4 : a.length < 4
    · rw [List.take_of_length_le (by omega), List.take_of_length_le (by omega)] at ht
      exact hne ht
    · obtain ⟨a0, a1, a2, a3, r, rfl⟩ := long a (by omega)
      obtain ⟨b0, b1, b2, b3, r', rfl⟩ := long b (by omega)
      rw [show 4 * (k + 1) = 4 * k + 1 + 1 + 1 + 1 by omega] at ht
      simp only [List.take_succ_cons, List.cons.injEq] at ht
      obtain ⟨rfl, rfl, rfl, rfl, ht⟩ := ht
      rw [show 4 * (k + 1) + 4 = 4 * k + 4 + 1 + 1 + 1 + 1 by omega] at hd
      simp only [List.drop_succ_cons] at hd
      rw [refBody_cons, refBody_cons] at e
      exact ih _ ⟨by simpa using hl, fun e' => hne (by rw [e']), ht, hd⟩ e

/-- Two byte strings of the same length that differ in one aligned block of four bytes never have the same hash; in particular
strings of four bytes never collide. And different seeds give different hashes of the same bytes. -/
theorem C113_no_collision {a b : Bytes} {len seed : W} (ha : a.length = len.toNat) :
    (∀ k, OneBlock k a b → murmur a len seed ≠ murmur b len seed) ∧ ∀ seed', murmur a len seed = murmur a len seed' → seed = seed' := by
  constructor
  · intro k h e
    rw [(C113_murmur a [] len seed ha).1, (C113_murmur b [] len seed (by rw [← h.1]; exact ha)).1] at e
    have e := refF_inj (Option.some.inj e)
    rw [h.1] at e
    exact refBody_block k seed h (xor_right_inj' e)
  · intro seed' e
    rw [(C113_murmur a [] len seed ha).1, (C113_murmur a [] len seed' ha).1] at e
    exact refBody_inj a (xor_right_inj' (refF_inj (Option.some.inj e)))

example : OneBlock 1 [1, 2, 3, 4, 5, 6, 7, 8, 9] [1, 2, 3, 4, 5, 6, 0, 8, 9] := by unfold OneBlock; decide

theorem bytes64_eq (hi lo : W) : bytes64 (hi ++ lo) = [lo.setWidth 8, (lo >>> 8).setWidth 8, (lo >>> 16).setWidth 8, (lo >>> 24).setWidth 8,
    hi.setWidth 8, (hi >>> 8).setWidth 8, (hi >>> 16).setWidth 8, (hi >>> 24).setWidth 8] := by
  have e : ∀ i, i < 4 → (((hi ++ lo) >>> (8 * i)).setWidth 8 : Byte) = (lo >>> (8 * i)).setWidth 8 := by
    intro i hi'
    apply BitVec.eq_of_getLsbD_eq
    intro j hj
    simp only [BitVec.getLsbD_setWidth, BitVec.getLsbD_ushiftRight, BitVec.getLsbD_append, show 8 * i + j < 32 by omega, if_true]
  have e' : ∀ i, i < 4 → (((hi ++ lo) >>> (8 * (i + 4))).setWidth 8 : Byte) = (hi >>> (8 * i)).setWidth 8 := by
    intro i hi'
    apply BitVec.eq_of_getLsbD_eq
    intro j hj
    simp only [BitVec.getLsbD_setWidth, BitVec.getLsbD_ushiftRight, BitVec.getLsbD_append, show ¬ (8 * (i + 4) + j < 32) by omega, if_false,
      show 8 * (i + 4) + j - 32 = 8 * i + j by omega]
  have r : List.range 8 = [0, 1, 2, 3, 0 + 4, 1 + 4, 2 + 4, 3 + 4] := by decide
  rw [bytes64, r]
  simp only [List.map_cons, List.map_nil]
  rw [e 0 (by decide), e 1 (by decide), e 2 (by decide), e 3 (by decide), e' 0 (by decide), e' 1 (by decide), e' 2 (by decide), e' 3 (by decide)]
  simp only [Nat.mul_zero, BitVec.ushiftRight_zero, Nat.mul_one, Nat.reduceMul]

theorem bytes_le (lo : W) : le [lo.setWidth 8, (lo >>> 8).setWidth 8, (lo >>> 16).setWidth 8, (lo >>> 24).setWidth 8] = lo.toNat := by
  have := lo.isLt
  simp only [le, BitVec.toNat_setWidth, BitVec.toNat_ushiftRight, Nat.shiftRight_eq_div_pow]
  omega

instance : Finite W := Finite.of_injective BitVec.toFin (fun _ _ h => BitVec.eq_of_toFin_eq h)

/-- `Murmur32` of an integer spreads evenly: whatever the seed and the upper half of the integer, every hash is that of exactly
one lower half; and integers that differ in one half only never collide. -/
theorem C113_int (seed hi v : W) : ∃! lo : W, murmurInt (hi ++ lo) seed = some v := by
  have len : ∀ x : BitVec 64, (bytes64 x).length = (8#32 : W).toNat := fun x => by simp [bytes64]
  have inj : Function.Injective (fun lo : W => ref (bytes64 (hi ++ lo)) seed) := by
    intro x y h
    by_contra hne
    have h : murmur (bytes64 (hi ++ x)) 8#32 seed = murmur (bytes64 (hi ++ y)) 8#32 seed := by
      rw [(C113_murmur _ [] _ seed (len _)).1, (C113_murmur _ [] _ seed (len _)).1]
      exact congrArg some h
    refine (C113_no_collision (len _)).1 0 ⟨(len _).trans (len _).symm, ?_, by rw [Nat.mul_zero, List.take_zero, List.take_zero], ?_⟩ h
    rotate_left
    · rw [bytes64_eq hi x, bytes64_eq hi y]; simp only [Nat.mul_zero, Nat.zero_add, List.drop_succ_cons]
    intro e
    rw [bytes64_eq hi x, bytes64_eq hi y] at e
    simp only [List.cons.injEq, and_true] at e
    obtain ⟨e0, e1, e2, e3⟩ := e
    have := bytes_le x
    rw [e0, e1, e2, e3, bytes_le] at this
    exact hne (BitVec.eq_of_toNat_eq this.symm)
  have bij := Finite.injective_iff_bijective.1 inj
  obtain ⟨lo, h⟩ := bij.2 v
  have e : ∀ x : W, murmurInt (hi ++ x) seed = some (ref (bytes64 (hi ++ x)) seed) := fun x => (C113_murmur _ [] _ seed (len _)).1
  refine ⟨lo, (e lo).trans (congrArg some h), ?_⟩
  intro y hy
  rw [e] at hy
  exact inj ((Option.some.inj hy).trans h.symm)

/-! ## Strings -/

theorem str_eq {s : Bytes} (h : s ≠ []) (seed : W) : murmurStr s seed = some (ref (s.take (s.length % 2 ^ 32)) seed) := by
  rw [murmurStr, if_neg h]
  have := (C113_murmur (s.take (s.length % 2 ^ 32)) (s.drop (s.length % 2 ^ 32)) (BitVec.ofNat 32 s.length) seed (by
    rw [List.length_take, BitVec.toNat_ofNat]
    exact Nat.min_eq_left (Nat.mod_le _ _))).2
  rwa [List.take_append_drop] at this

/-- `Murmur32` of a string shorter than 4 GiB: the seed when the string is empty, else the published hash of all its bytes.
What is missing is `C113_str_truncated`. -/
theorem C113_str_partial {s : Bytes} (h : s.length < 2 ^ 32) (seed : W) : murmurStr s seed = some (if s = [] then seed else ref s seed) := by
  by_cases hs : s = []
  · subst hs; rfl
  · rw [str_eq hs, if_neg hs, Nat.mod_eq_of_lt h, List.take_length]

/-- A longer string is cut: its hash is that of its first `size mod 2^32` bytes. So all strings of exactly 4 GiB have one hash. -/
theorem C113_str_truncated (seed : W) :
    (∀ s : Bytes, s ≠ [] → s.length % 2 ^ 32 ≠ 0 → murmurStr s seed = murmurStr (s.take (s.length % 2 ^ 32)) seed) ∧
    ∀ s t : Bytes, s.length = 2 ^ 32 → t.length = 2 ^ 32 → murmurStr s seed = murmurStr t seed := by
  constructor
  · intro s hs hm
    have hl : (s.take (s.length % 2 ^ 32)).length = s.length % 2 ^ 32 := by
      rw [List.length_take]; exact Nat.min_eq_left (Nat.mod_le _ _)
    have hne : s.take (s.length % 2 ^ 32) ≠ [] := fun e => hm (by rw [e] at hl; exact hl.symm)
    have hlt : s.length % 2 ^ 32 < 2 ^ 32 := Nat.mod_lt _ (by decide)
    rw [str_eq hs, C113_str_partial (by rw [hl]; exact hlt), if_neg hne]
  · intro s t hs ht
    have ne : ∀ s : Bytes, s.length = 2 ^ 32 → s ≠ [] := fun s h e => by rw [e] at h; cases h
    rw [str_eq (ne s hs), str_eq (ne t ht), hs, ht, Nat.mod_self]
    rfl

/-- A fingerprint is never 0 or 1, whatever `XXH64` returns; else it is what `XXH64` returns for the string, when the string
is shorter than 4 GiB. -/
theorem C113_fingerprint (xxh : Bytes → BitVec 64 → BitVec 64) (s : Bytes) :
    fingerprintStr xxh s ≠ 0 ∧ fingerprintStr xxh s ≠ 1 ∧
    (s.length < 2 ^ 32 → xxh s 24061983#64 ≠ 0 → xxh s 24061983#64 ≠ 1 → fingerprintStr xxh s = xxh s 24061983#64) := by
  rw [fingerprintStr, fingerprint]
  refine ⟨?_, ?_, ?_⟩
  · split
    · rename_i h; intro e; rw [e] at h; exact absurd h (by decide)
    · decide
  · split
    · rename_i h; intro e; rw [e] at h; exact absurd h (by decide)
    · decide
  · intro hl h0 h1
    rw [BitVec.toNat_ofNat, Nat.mod_eq_of_lt hl, List.take_length, if_pos]
    rw [BitVec.lt_def]
    have a : (xxh s 24061983#64).toNat ≠ 0 := fun e => h0 (BitVec.eq_of_toNat_eq (by simpa using e))
    have b : (xxh s 24061983#64).toNat ≠ 1 := fun e => h1 (BitVec.eq_of_toNat_eq (by simpa using e))
    show 1 < _
    omega

/-! ## Several values -/

theorem intBytes_length (w v : Nat) : (intBytes w v).length = w := by
  induction w generalizing v with
  | zero => rfl
  | succ w ih => simp [intBytes, ih]

theorem intBytes_le (w v : Nat) (h : v < 256 ^ w) : le (intBytes w v) = v := by
  induction w generalizing v with
  | zero => simp only [Nat.pow_zero] at h; simp only [intBytes, le]; omega
  | succ w ih =>
    rw [Nat.pow_succ] at h
    simp only [intBytes, le, BitVec.toNat_ofNat]
    rw [ih (v / 256) (by omega)]
    omega

theorem fixed_inj {x y : Val} {t : Ty} (ht : t.Fixed) (hx : HasTy x t) (hy : HasTy y t) :
    (append1 x).length = (append1 y).length ∧ (append1 x = append1 y → x = y) := by
  match t, x, y, ht, hx, hy with
  | .int w, .int _ v, .int _ u, _, ⟨h1, h2⟩, ⟨h3, h4⟩ =>
    subst h1; subst h3
    refine ⟨by simp [append1, intBytes_length], ?_⟩
    intro e
    simp only [append1] at e
    rw [← intBytes_le _ v h2, e, intBytes_le _ u h4]

theorem fixed_all : ∀ {ts : List Ty} {xs ys : List Val}, (∀ t ∈ ts, t.Fixed) → HasTys xs ts → HasTys ys ts →
    (appendAll xs).length = (appendAll ys).length ∧ (appendAll xs = appendAll ys → xs = ys)
  | [], [], [], _, _, _ => ⟨rfl, fun _ => rfl⟩
  | t :: ts, x :: xs, y :: ys, hf, ⟨hx, hxs⟩, ⟨hy, hys⟩ => by
    obtain ⟨l1, i1⟩ := fixed_inj (hf t (by simp)) hx hy
    obtain ⟨l2, i2⟩ := fixed_all (fun t h => hf t (by simp [h])) hxs hys
    simp only [appendAll, List.flatMap_cons] at *
    refine ⟨by simp only [List.length_append, l1, l2], ?_⟩
    intro e
    have := List.append_inj e l1
    rw [i1 this.1, i2 this.2]

/-- Tuples of integers, strings and optionals, of which at most one, at any place, is not an integer, and that one is a string or an
optional integer: different tuples of the same type are hashed from different bytes, so some hash function tells them apart.
What is missing is `C114_collide`. -/
theorem C114_tuples_partial {pre post : List Ty} {t : Ty} (hpre : ∀ t ∈ pre, t.Fixed) (hpost : ∀ t ∈ post, t.Fixed)
    (ht : t.Fixed ∨ t = .str ∨ ∃ w, 0 < w ∧ t = .opt (.int w)) {xs ys xs' ys' : List Val} {x y : Val}
    (hxs : HasTys xs pre) (hys : HasTys ys pre) (hx : HasTy x t) (hy : HasTy y t) (hxs' : HasTys xs' post) (hys' : HasTys ys' post)
    (hne : xs ++ x :: xs' ≠ ys ++ y :: ys') :
    ∃ xxh, xxHash64 xxh (xs ++ x :: xs') ≠ xxHash64 xxh (ys ++ y :: ys') := by
  have key : appendAll (xs ++ x :: xs') ≠ appendAll (ys ++ y :: ys') := by
    intro e
    obtain ⟨l1, i1⟩ := fixed_all hpre hxs hys
    obtain ⟨l2, i2⟩ := fixed_all hpost hxs' hys'
    simp only [appendAll, List.flatMap_append, List.flatMap_cons] at *
    have e1 := List.append_inj e l1
    have e2 := List.append_inj' e1.2 l2
    have hxy : x = y := by
      rcases ht with ht | rfl | ⟨w, hw, rfl⟩
      · exact (fixed_inj ht hx hy).2 e2.1
      · match x, y, hx, hy with
        | .str a, .str b, _, _ => exact congrArg Val.str e2.1
      · match x, y, hx, hy with
        | .none, .none, _, _ => rfl
        | .none, .some (.int a v), _, h =>
          have h1 := congrArg List.length e2.1
          simp only [append1, intBytes_length, List.length_nil] at h1
          have := h.1; omega
        | .some (.int a v), .none, h, _ =>
          have h1 := congrArg List.length e2.1
          simp only [append1, intBytes_length, List.length_nil] at h1
          have := h.1; omega
        | .some a, .some b, ha, hb => exact congrArg Val.some ((fixed_inj (t := .int w) trivial ha hb).2 e2.1)
    exact hne (by rw [i1 e1.1, hxy, i2 e2.2])
  refine ⟨fun b => if b = appendAll (xs ++ x :: xs') then 1 else 0, ?_⟩
  rw [xxHash64, xxHash64, if_pos rfl, if_neg (fun e => key e.symm)]
  decide

example : HasTys [.int 4 7] [.int 4] ∧ HasTy (.str [1, 2]) .str ∧ HasTys [.int 8 9, .int 1 0] [.int 8, .int 1] := by
  simp [HasTys, HasTy]

/-- The other tuples collide, whatever the hash function: the boundaries between strings are not hashed, and neither is whether
an optional has a value. -/
theorem C114_collide (xxh : Bytes → BitVec 64) :
    (∀ a b c : Bytes, xxHash64 xxh [.str (a ++ b), .str c] = xxHash64 xxh [.str a, .str (b ++ c)]) ∧
    xxHash64 xxh [.some (.str [])] = xxHash64 xxh [.none] ∧
    (∀ v : Val, xxHash64 xxh [.some v, .none] = xxHash64 xxh [.none, .some v]) := by
  refine ⟨fun a b c => ?_, rfl, fun v => ?_⟩
  · simp [xxHash64, appendAll, append1]
  · simp [xxHash64, appendAll, append1]

/-- Two pairs of the same type, as they occur: ("ab", "c") and ("a", "bc"). -/
theorem C114_collide_case : ([.str [97, 98], .str [99]] : List Val) ≠ [.str [97], .str [98, 99]] ∧
    ∀ xxh, xxHash64 xxh [.str [97, 98], .str [99]] = xxHash64 xxh [.str [97], .str [98, 99]] :=
  ⟨by decide, fun xxh => (C114_collide xxh).1 [97] [98] [99]⟩

end Verif.Hash
