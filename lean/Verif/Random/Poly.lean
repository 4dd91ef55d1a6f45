import Verif.Random.Model
import Mathlib.Logic.Function.Iterate
/-! Polynomials over the field of two elements, as numbers, and what they do to the state of the generator. -/
namespace Verif.Random

/-- Addition of states. -/
def sx (a b : S) : S := (a.1 ^^^ b.1, a.2 ^^^ b.2)

def zero : S := (0, 0)

theorem sx_zero (a : S) : sx a zero = a := by simp [sx, zero]
theorem zero_sx (a : S) : sx zero a = a := by simp [sx, zero]
theorem sx_self (a : S) : sx a a = zero := by simp [sx, zero]
theorem sx_assoc (a b c : S) : sx (sx a b) c = sx a (sx b c) := by simp [sx, BitVec.xor_assoc]
theorem sx_comm (a b : S) : sx a b = sx b a := by simp [sx, BitVec.xor_comm]
theorem sx_left_comm (a b c : S) : sx a (sx b c) = sx b (sx a c) := by rw [← sx_assoc, sx_comm a b, sx_assoc]

theorem sx_eq {a b : S} (h : sx a b = zero) : a = b := by
  have : sx (sx a b) b = sx zero b := by rw [h]
  rwa [sx_assoc, sx_self, sx_zero, zero_sx] at this

theorem rotl_xor (x y : W) (k : Nat) (hk : k ≤ 64) : rotl (x ^^^ y) k = rotl x k ^^^ rotl y k := by
  unfold rotl
  apply BitVec.eq_of_getLsbD_eq
  intro i hi
  simp only [BitVec.getLsbD_or, BitVec.getLsbD_xor, BitVec.getLsbD_shiftLeft, BitVec.getLsbD_ushiftRight, hi, decide_true, Bool.true_and]
  by_cases h : i < k
  · simp [h]
  · have e : ∀ z : W, z.getLsbD (64 - k + i) = false := fun z => BitVec.getLsbD_of_ge z _ (by omega)
    simp [h, e]

theorem next_sx (a b : S) : next (sx a b) = sx (next a) (next b) := by
  obtain ⟨a0, a1⟩ := a
  obtain ⟨b0, b1⟩ := b
  have e : a1 ^^^ b1 ^^^ (a0 ^^^ b0) = (a1 ^^^ a0) ^^^ (b1 ^^^ b0) := by
    rw [BitVec.xor_assoc, BitVec.xor_assoc, ← BitVec.xor_assoc b1, ← BitVec.xor_assoc a0, BitVec.xor_comm b1 a0]
  show (rotl (a0 ^^^ b0) 24 ^^^ (a1 ^^^ b1 ^^^ (a0 ^^^ b0)) ^^^ ((a1 ^^^ b1 ^^^ (a0 ^^^ b0)) <<< 16), rotl (a1 ^^^ b1 ^^^ (a0 ^^^ b0)) 37) =
    (rotl a0 24 ^^^ (a1 ^^^ a0) ^^^ ((a1 ^^^ a0) <<< 16) ^^^ (rotl b0 24 ^^^ (b1 ^^^ b0) ^^^ ((b1 ^^^ b0) <<< 16)), rotl (a1 ^^^ a0) 37 ^^^ rotl (b1 ^^^ b0) 37)
  rw [e, rotl_xor a0 b0 24 (by decide), rotl_xor (a1 ^^^ a0) (b1 ^^^ b0) 37 (by decide)]
  generalize a1 ^^^ a0 = u
  generalize b1 ^^^ b0 = v
  rw [BitVec.shiftLeft_xor_distrib]
  generalize rotl a0 24 = x
  generalize rotl b0 24 = y
  generalize u <<< 16 = u'
  generalize v <<< 16 = v'
  have : x ^^^ y ^^^ (u ^^^ v) ^^^ (u' ^^^ v') = x ^^^ u ^^^ u' ^^^ (y ^^^ v ^^^ v') := by
    apply BitVec.eq_of_getLsbD_eq
    intro i _
    simp only [BitVec.getLsbD_xor]
    cases x.getLsbD i <;> cases y.getLsbD i <;> cases u.getLsbD i <;> cases v.getLsbD i <;> cases u'.getLsbD i <;> cases v'.getLsbD i <;> rfl
  rw [this]

theorem next_zero : next zero = zero := by decide

/-- The polynomial with the `k` lowest bits of `n` as coefficients, applied to a state. -/
def ev : Nat → Nat → S → S
  | 0, _, _ => zero
  | k + 1, n, s => sx (if n % 2 = 1 then s else zero) (ev k (n / 2) (next s))

theorem ev_zero (k n : Nat) : ev k n zero = zero := by
  induction k generalizing n with
  | zero => rfl
  | succ k ih => simp [ev, next_zero, ih, sx_zero]

theorem ev_sx (k n : Nat) (a b : S) : ev k n (sx a b) = sx (ev k n a) (ev k n b) := by
  induction k generalizing n a b with
  | zero => simp [ev, sx_zero]
  | succ k ih =>
    simp only [ev, next_sx, ih]
    split
    · simp only [sx_assoc]; congr 1; rw [sx_left_comm]
    · simp only [zero_sx]

theorem ev_next (k n : Nat) (s : S) : ev k n (next s) = next (ev k n s) := by
  induction k generalizing n s with
  | zero => simp [ev, next_zero]
  | succ k ih =>
    simp only [ev, next_sx, ih]
    split
    · rfl
    · rw [next_zero]

theorem ev_n0 (k : Nat) (s : S) : ev k 0 s = zero := by
  induction k generalizing s with
  | zero => rfl
  | succ k ih => simp [ev, ih, sx_zero]

theorem ev_xor (k n m : Nat) (s : S) : ev k (n ^^^ m) s = sx (ev k n s) (ev k m s) := by
  induction k generalizing n m s with
  | zero => simp [ev, sx_zero]
  | succ k ih =>
    have e1 : (n ^^^ m) / 2 = (n / 2) ^^^ (m / 2) := by
      simpa [Nat.shiftRight_eq_div_pow] using Nat.shiftRight_xor_distrib (a := n) (b := m) (i := 1)
    have e2 : (n ^^^ m) % 2 = (n % 2 + m % 2) % 2 := by
      have h := Nat.testBit_xor n m 0
      simp only [Nat.testBit_zero] at h
      have h1 := Nat.mod_two_eq_zero_or_one n
      have h2 := Nat.mod_two_eq_zero_or_one m
      have h3 := Nat.mod_two_eq_zero_or_one (n ^^^ m)
      rcases h1 with h1 | h1 <;> rcases h2 with h2 | h2 <;> rcases h3 with h3 | h3 <;> simp [h1, h2, h3] at h ⊢
    have h1 := Nat.mod_two_eq_zero_or_one n
    have h2 := Nat.mod_two_eq_zero_or_one m
    simp only [ev, e1, e2, ih]
    rcases h1 with h1 | h1 <;> rcases h2 with h2 | h2 <;> simp only [h1, h2]
    · simp [zero_sx]
    · simp [zero_sx]; rw [sx_left_comm]
    · simp [zero_sx, sx_assoc]
    · simp [zero_sx]
      rw [sx_assoc, sx_left_comm (ev k (n / 2) (next s)), ← sx_assoc s s, sx_self, zero_sx]

theorem ev_succ (k n : Nat) (s : S) (h : n < 2 ^ k) : ev (k + 1) n s = ev k n s := by
  induction k generalizing n s with
  | zero => have : n = 0 := by omega
            subst this; simp [ev, sx_zero]
  | succ k ih =>
    rw [ev, ih _ _ (by omega)]
    rfl

theorem ev_double (k n : Nat) (s : S) : ev (k + 1) (2 * n) s = ev k n (next s) := by
  simp only [ev]
  have : 2 * n % 2 = 0 := by omega
  rw [this]
  simp [zero_sx]

/-- The lower and the upper part of a polynomial. -/
theorem ev_split (j k n : Nat) (s : S) : ev (j + k) n s = sx (ev j n s) (ev k (n / 2 ^ j) (next^[j] s)) := by
  induction j generalizing n s with
  | zero => simp [ev, zero_sx]
  | succ j ih =>
    rw [show j + 1 + k = (j + k) + 1 by omega]
    simp only [ev, ih, Function.iterate_succ_apply, sx_assoc]
    congr 3
    rw [Nat.div_div_eq_div_mul, Nat.pow_succ']

theorem ev_low (j a b : Nat) (s : S) : ev j (a + 2 ^ j * b) s = ev j a s := by
  induction j generalizing a s with
  | zero => rfl
  | succ j ih =>
    have e1 : (a + 2 ^ (j + 1) * b) % 2 = a % 2 := by
      rw [Nat.pow_succ', Nat.mul_assoc]; omega
    have e2 : (a + 2 ^ (j + 1) * b) / 2 = a / 2 + 2 ^ j * b := by
      rw [Nat.pow_succ', Nat.mul_assoc]; omega
    simp only [ev, e1, e2, ih]

/-! ## Linear maps are given by their values on single bits -/

theorem lin_w {f : W → S} (h : ∀ a b, f (a ^^^ b) = sx (f a) (f b)) (hb : ∀ i < 64, f (1#64 <<< i) = zero) (x : W) : f x = zero := by
  have h0 : f 0 = zero := by
    have := h 0 0
    rw [sx_self] at this
    simpa using this
  have key : ∀ k ≤ 64, f (x &&& BitVec.ofNat 64 (2 ^ k - 1)) = zero := by
    intro k hk
    induction k with
    | zero => simpa using h0
    | succ k ih =>
      have e : x &&& BitVec.ofNat 64 (2 ^ (k + 1) - 1) = (x &&& BitVec.ofNat 64 (2 ^ k - 1)) ^^^ (if x.getLsbD k then 1#64 <<< k else 0) := by
        apply BitVec.eq_of_getLsbD_eq
        intro i hi
        simp only [BitVec.getLsbD_and, BitVec.getLsbD_xor, BitVec.getLsbD_ofNat, hi, decide_true, Bool.true_and, Nat.testBit_two_pow_sub_one]
        have e2 : (if x.getLsbD k then 1#64 <<< k else 0).getLsbD i = (x.getLsbD k && decide (i = k)) := by
          cases x.getLsbD k
          · simp
          · simp [hi]
            by_cases hik : i = k
            · subst hik; simp
            · by_cases hlt : i < k
              · simp [hik, hlt]
              · simp [hik, hlt]; omega
        rw [e2]
        by_cases h1 : i = k
        · subst h1; simp
        · have : decide (i < k + 1) = decide (i < k) := by
            by_cases h2 : i < k <;> simp <;> omega
          simp [h1, this]
      rw [e, h, ih (by omega)]
      split
      · rw [hb k (by omega)]; exact sx_self _
      · rw [h0]; exact sx_self _
  have := key 64 (Nat.le_refl _)
  have e : x &&& BitVec.ofNat 64 (2 ^ 64 - 1) = x := by
    rw [show BitVec.ofNat 64 (2 ^ 64 - 1) = BitVec.allOnes 64 by decide, BitVec.and_allOnes]
  rwa [e] at this

theorem lin_s {f : S → S} (h : ∀ a b, f (sx a b) = sx (f a) (f b)) (h0 : ∀ i < 64, f (1#64 <<< i, 0) = zero) (h1 : ∀ i < 64, f (0, 1#64 <<< i) = zero)
    (s : S) : f s = zero := by
  have e : s = sx (s.1, 0) (0, s.2) := by simp [sx]
  rw [e, h]
  have a := lin_w (f := fun x => f (x, 0)) (fun a b => by rw [← h]; simp [sx]) h0 s.1
  have b := lin_w (f := fun x => f (0, x)) (fun a b => by rw [← h]; simp [sx]) h1 s.2
  rw [a, b]; exact sx_self _

/-! ## Arithmetic modulo the characteristic polynomial -/

/-- The characteristic polynomial of `next`. -/
def cp : Nat := 0x10008828e513b43d5095b8f76579aa001

theorem cp_zero (s : S) : ev 129 cp s = zero := by
  apply lin_s (ev_sx 129 cp)
  · have : (List.range 64).all (fun i => ev 129 cp (1#64 <<< i, 0) == zero) = true := by decide +kernel
    intro i hi
    simpa using (List.all_eq_true.1 this) i (List.mem_range.2 hi)
  · have : (List.range 64).all (fun i => ev 129 cp (0, 1#64 <<< i) == zero) = true := by decide +kernel
    intro i hi
    simpa using (List.all_eq_true.1 this) i (List.mem_range.2 hi)

/-- Multiplication by the variable. -/
def mulx (n : Nat) : Nat := (2 * n) ^^^ ((n >>> 127) * cp)

theorem mulx_lt {n : Nat} (h : n < 2 ^ 128) : mulx n < 2 ^ 128 := by
  unfold mulx
  rw [Nat.shiftRight_eq_div_pow]
  by_cases h1 : n < 2 ^ 127
  · have : n / 2 ^ 127 = 0 := by omega
    rw [this]; simp; omega
  · have e : n / 2 ^ 127 = 1 := by omega
    rw [e, Nat.one_mul]
    have h2 : (2 * n) ^^^ cp < 2 ^ 129 := Nat.xor_lt_two_pow (by omega) (by decide)
    apply Nat.lt_pow_two_of_testBit
    intro i hi
    by_cases h3 : i = 128
    · subst h3
      rw [Nat.testBit_xor]
      have a : (2 * n).testBit 128 = true := by
        rw [Nat.testBit_eq_decide_div_mod_eq]; simp; omega
      have b : cp.testBit 128 = true := by decide
      rw [a, b]; rfl
    · exact Nat.testBit_lt_two_pow (Nat.lt_of_lt_of_le h2 (Nat.pow_le_pow_right (by decide) (by omega)))

theorem ev_mulx {n : Nat} (h : n < 2 ^ 128) (s : S) : ev 128 (mulx n) s = ev 128 n (next s) := by
  rw [← ev_succ 128 (mulx n) s (mulx_lt h)]
  unfold mulx
  rw [ev_xor, ev_double, Nat.shiftRight_eq_div_pow]
  by_cases h1 : n < 2 ^ 127
  · have : n / 2 ^ 127 = 0 := by omega
    rw [this]; simp [ev_n0, sx_zero]
  · have e : n / 2 ^ 127 = 1 := by omega
    rw [e, Nat.one_mul, cp_zero, sx_zero]

def mulF : Nat → Nat → Nat → Nat
  | 0, _, _ => 0
  | k + 1, a, b => (if a % 2 = 1 then b else 0) ^^^ mulx (mulF k (a / 2) b)

theorem mulF_lt (k a : Nat) {b : Nat} (h : b < 2 ^ 128) : mulF k a b < 2 ^ 128 := by
  induction k generalizing a with
  | zero => exact Nat.two_pow_pos 128
  | succ k ih =>
    unfold mulF
    refine Nat.xor_lt_two_pow ?_ (mulx_lt (ih _))
    split
    · exact h
    · exact Nat.two_pow_pos 128

theorem ev_mulF (k a : Nat) {b : Nat} (h : b < 2 ^ 128) (s : S) : ev 128 (mulF k a b) s = ev k a (ev 128 b s) := by
  induction k generalizing a s with
  | zero => simp only [mulF, ev_n0]; rfl
  | succ k ih =>
    rw [mulF, ev_xor, ev_mulx (mulF_lt k _ h), ih, ev_next]
    have e : ev 128 (if a % 2 = 1 then b else 0) s = if a % 2 = 1 then ev 128 b s else zero := by
      split
      · rfl
      · exact ev_n0 _ _
    rw [e]
    rfl

def powF : Nat → Nat → Nat → Nat
  | 0, _, _ => 1
  | k + 1, n, a => mulF 128 (if n % 2 = 1 then a else 1) (powF k (n / 2) (mulF 128 a a))

theorem powF_lt (k n : Nat) {a : Nat} (h : a < 2 ^ 128) : powF k n a < 2 ^ 128 := by
  induction k generalizing n a with
  | zero => exact Nat.one_lt_two_pow (by decide)
  | succ k ih => exact mulF_lt _ _ (ih _ (mulF_lt _ _ h))

theorem ev_one (s : S) : ev 128 1 s = s := by
  rw [show 128 = 127 + 1 from rfl, ev]
  simp [ev_n0, sx_zero]

theorem ev_two (s : S) : ev 128 2 s = next s := by
  rw [show 128 = 126 + 1 + 1 from rfl, ev, ev]
  simp [ev_n0, sx_zero, zero_sx]

theorem ev_powF (k n : Nat) {a : Nat} (h : a < 2 ^ 128) (hn : n < 2 ^ k) (s : S) : ev 128 (powF k n a) s = (ev 128 a)^[n] s := by
  induction k generalizing n a s with
  | zero => have : n = 0 := by omega
            subst this; exact ev_one s
  | succ k ih =>
    rw [powF, ev_mulF _ _ (powF_lt _ _ (mulF_lt _ _ h)), ih _ (mulF_lt _ _ h) (by omega)]
    have e : (ev 128 (mulF 128 a a)) = (ev 128 a)^[2] := by
      funext s; rw [ev_mulF _ _ h]; rfl
    rw [e, ← Function.iterate_mul]
    split
    · rename_i h1
      rw [← Function.iterate_succ_apply' (ev 128 a)]
      congr 1
      omega
    · rw [ev_one]; congr 1; omega

theorem ev_pow (k n : Nat) (hn : n < 2 ^ k) (s : S) : ev 128 (powF k n 2) s = next^[n] s := by
  rw [ev_powF k n (by decide) hn]
  congr 2
  funext s; exact ev_two s

end Verif.Random
