import Verif.Random.Poly
import Mathlib.Dynamics.PeriodicPts.Defs
import Mathlib.NumberTheory.LucasPrimality
import Mathlib.Tactic.NormNum.Prime
import Mathlib.Tactic.Ring
/-! The period of `next`. -/
namespace Verif.Random

/-- The number of states other than zero. -/
def per : Nat := 2 ^ 128 - 1

theorem next_per (s : S) : next^[per] s = s := by
  have h : powF 128 per 2 = 1 := by decide +kernel
  rw [← ev_pow 128 per (by decide), h, ev_one]

theorem no_fix {n q : Nat} {s : S} (hn : n < 2 ^ 128) (hq : mulF 128 q (powF 128 n 2 ^^^ 1) = 1) (h : next^[n] s = s) : s = zero := by
  have h1 : ev 128 (powF 128 n 2 ^^^ 1) s = zero := by
    rw [ev_xor, ev_one, ev_pow 128 n hn, h, sx_self]
  have h2 : ev 128 (mulF 128 q (powF 128 n 2 ^^^ 1)) s = s := by rw [hq, ev_one]
  rw [ev_mulF _ _ (Nat.xor_lt_two_pow (powF_lt _ _ (by decide)) (by decide)), h1, ev_zero] at h2
  exact h2.symm

theorem inv3 (s : S) (h : next^[per / 3] s = s) : s = zero :=
  no_fix (q := 0x28ad2cf3e09d85f0dc40f461d2c2c7d8) (by decide) (by decide +kernel) h

theorem inv5 (s : S) (h : next^[per / 5] s = s) : s = zero :=
  no_fix (q := 0xbe5308ec69514dc2ca8939e8bb7cc7f3) (by decide) (by decide +kernel) h

theorem inv17 (s : S) (h : next^[per / 17] s = s) : s = zero :=
  no_fix (q := 0xb033aadb8e620d5380760c3edaa7db8) (by decide) (by decide +kernel) h

theorem inv257 (s : S) (h : next^[per / 257] s = s) : s = zero :=
  no_fix (q := 0x30e5aaf1d16d836bb08347f6b98df9d6) (by decide) (by decide +kernel) h

theorem inv641 (s : S) (h : next^[per / 641] s = s) : s = zero :=
  no_fix (q := 0x6ec2b2abc5012855a81493c7e42b2476) (by decide) (by decide +kernel) h

theorem inv65537 (s : S) (h : next^[per / 65537] s = s) : s = zero :=
  no_fix (q := 0x3c13da96bdf060b8b178dd43e7c56a9e) (by decide) (by decide +kernel) h

theorem inv274177 (s : S) (h : next^[per / 274177] s = s) : s = zero :=
  no_fix (q := 0x37430ca27c542004fe3ea4c3ea9f5ebc) (by decide) (by decide +kernel) h

theorem inv6700417 (s : S) (h : next^[per / 6700417] s = s) : s = zero :=
  no_fix (q := 0xfbf5d1e791cb791fc6077daa37669ed5) (by decide) (by decide +kernel) h

theorem inv67280421310721 (s : S) (h : next^[per / 67280421310721] s = s) : s = zero :=
  no_fix (q := 0x55db575fb05489582681f5f2a0a72912) (by decide) (by decide +kernel) h
/-- Modular exponentiation. -/
def mp (m : Nat) : Nat → Nat → Nat → Nat
  | 0, _, _ => 1 % m
  | k + 1, n, a => (if n % 2 = 1 then a else 1) * mp m k (n / 2) (a * a % m) % m

theorem mp_eq (m k n a : Nat) (h : n < 2 ^ k) : a ^ n % m = mp m k n a := by
  induction k generalizing n a with
  | zero => have : n = 0 := by omega
            subst this; rfl
  | succ k ih =>
    rw [mp, ← ih _ _ (by omega), ← Nat.pow_mod, Nat.mul_mod_mod]
    congr 1
    have e : (a * a) ^ (n / 2) = a ^ (2 * (n / 2)) := by rw [Nat.pow_mul, Nat.pow_two]
    rw [e]
    split
    · rename_i h1
      rw [← Nat.pow_succ']; congr 1; omega
    · rw [Nat.one_mul]; congr 1; omega

theorem prime_big : Nat.Prime 67280421310721 := by
  have hp : (67280421310721 - 1 : Nat) = 2 ^ 8 * 5 * 47 * 373 * 2998279 := by norm_num
  have pw : ∀ n r : Nat, 3 ^ n % 67280421310721 = r → r < 67280421310721 → ((3 : ZMod 67280421310721) ^ n = 1 ↔ r = 1) := by
    intro n r h hr
    have : ((3 ^ n : Nat) : ZMod 67280421310721) = (r : Nat) := by
      rw [← h, ZMod.natCast_mod]
    have e : (3 : ZMod 67280421310721) ^ n = (r : Nat) := by
      rw [← this]; push_cast; rfl
    rw [e]
    constructor
    · intro h1
      have : ((r : Nat) : ZMod 67280421310721) = ((1 : Nat) : ZMod 67280421310721) := by rw [h1]; simp
      rw [ZMod.natCast_eq_natCast_iff'] at this
      rw [Nat.mod_eq_of_lt hr] at this
      simpa using this
    · rintro rfl; simp
  refine lucas_primality _ 3 ?_ ?_
  · rw [pw _ 1 (by rw [mp_eq _ 47 _ _ (by norm_num)]; decide +kernel) (by norm_num)]
  · intro q hq hd
    rw [hp] at hd
    have : q = 2 ∨ q = 5 ∨ q = 47 ∨ q = 373 ∨ q = 2998279 := by
      rcases (Nat.Prime.dvd_mul hq).1 hd with hd | hd
      · rcases (Nat.Prime.dvd_mul hq).1 hd with hd | hd
        · rcases (Nat.Prime.dvd_mul hq).1 hd with hd | hd
          · rcases (Nat.Prime.dvd_mul hq).1 hd with hd | hd
            · exact .inl ((Nat.prime_dvd_prime_iff_eq hq Nat.prime_two).1 (hq.dvd_of_dvd_pow hd))
            · exact .inr (.inl ((Nat.prime_dvd_prime_iff_eq hq (by norm_num)).1 hd))
          · exact .inr (.inr (.inl ((Nat.prime_dvd_prime_iff_eq hq (by norm_num)).1 hd)))
        · exact .inr (.inr (.inr (.inl ((Nat.prime_dvd_prime_iff_eq hq (by norm_num)).1 hd))))
      · exact .inr (.inr (.inr (.inr ((Nat.prime_dvd_prime_iff_eq hq (by norm_num)).1 hd))))
    rcases this with rfl | rfl | rfl | rfl | rfl
    · rw [Ne, pw _ _ (mp_eq _ 47 _ _ (by norm_num)) (by decide +kernel)]; decide +kernel
    · rw [Ne, pw _ _ (mp_eq _ 47 _ _ (by norm_num)) (by decide +kernel)]; decide +kernel
    · rw [Ne, pw _ _ (mp_eq _ 47 _ _ (by norm_num)) (by decide +kernel)]; decide +kernel
    · rw [Ne, pw _ _ (mp_eq _ 47 _ _ (by norm_num)) (by decide +kernel)]; decide +kernel
    · rw [Ne, pw _ _ (mp_eq _ 47 _ _ (by norm_num)) (by decide +kernel)]; decide +kernel

theorem per_primes {q : Nat} (hq : q.Prime) (hd : q ∣ per) : q = 3 ∨ q = 5 ∨ q = 17 ∨ q = 257 ∨ q = 641 ∨ q = 65537 ∨ q = 274177 ∨ q = 6700417 ∨ q = 67280421310721 := by
  have hp : per = 3 * (5 * (17 * (257 * (641 * (65537 * (274177 * (6700417 * 67280421310721))))))) := by norm_num [per]
  rw [hp] at hd
  have e : ∀ {p}, p.Prime → q ∣ p → q = p := fun hp h => (Nat.prime_dvd_prime_iff_eq hq hp).1 h
  rcases (Nat.Prime.dvd_mul hq).1 hd with hd | hd
  · exact .inl (e (by norm_num) hd)
  rcases (Nat.Prime.dvd_mul hq).1 hd with hd | hd
  · exact .inr (.inl (e (by norm_num) hd))
  rcases (Nat.Prime.dvd_mul hq).1 hd with hd | hd
  · exact .inr (.inr (.inl (e (by norm_num) hd)))
  rcases (Nat.Prime.dvd_mul hq).1 hd with hd | hd
  · exact .inr (.inr (.inr (.inl (e (by norm_num) hd))))
  rcases (Nat.Prime.dvd_mul hq).1 hd with hd | hd
  · exact .inr (.inr (.inr (.inr (.inl (e (by norm_num) hd)))))
  rcases (Nat.Prime.dvd_mul hq).1 hd with hd | hd
  · exact .inr (.inr (.inr (.inr (.inr (.inl (e (by norm_num) hd))))))
  rcases (Nat.Prime.dvd_mul hq).1 hd with hd | hd
  · exact .inr (.inr (.inr (.inr (.inr (.inr (.inl (e (by norm_num) hd)))))))
  rcases (Nat.Prime.dvd_mul hq).1 hd with hd | hd
  · exact .inr (.inr (.inr (.inr (.inr (.inr (.inr (.inl (e (by norm_num) hd))))))))
  · exact .inr (.inr (.inr (.inr (.inr (.inr (.inr (.inr (e prime_big hd))))))))

theorem period {s : S} (hs : s ≠ zero) (n : Nat) : next^[n] s = s ↔ per ∣ n := by
  have hN : Function.IsPeriodicPt next per s := next_per s
  have hd := hN.minimalPeriod_dvd
  have hmin : Function.minimalPeriod next s = per := by
    obtain ⟨e, he⟩ := hd
    by_cases h1 : e = 1
    · rw [h1, Nat.mul_one] at he; exact he.symm
    · exfalso
      obtain ⟨q, hq, hqe⟩ := Nat.exists_prime_and_dvd h1
      have hqN : q ∣ per := he ▸ (hqe.mul_left _)
      have hfix : next^[per / q] s = s := by
        have : Function.minimalPeriod next s ∣ per / q := by
          obtain ⟨f, rfl⟩ := hqe
          refine ⟨f, ?_⟩
          rw [he, Nat.div_eq_iff_eq_mul_left hq.pos ⟨Function.minimalPeriod next s * f, by ring⟩]; ring
        exact (Function.isPeriodicPt_minimalPeriod next s).trans_dvd this
      rcases per_primes hq hqN with rfl | rfl | rfl | rfl | rfl | rfl | rfl | rfl | rfl
      · exact hs (inv3 s hfix)
      · exact hs (inv5 s hfix)
      · exact hs (inv17 s hfix)
      · exact hs (inv257 s hfix)
      · exact hs (inv641 s hfix)
      · exact hs (inv65537 s hfix)
      · exact hs (inv274177 s hfix)
      · exact hs (inv6700417 s hfix)
      · exact hs (inv67280421310721 s hfix)
  constructor
  · intro h
    rw [← hmin]
    exact Function.IsPeriodicPt.minimalPeriod_dvd h
  · intro h
    exact hN.trans_dvd h

theorem next_inj : Function.Injective next := by
  intro a b h
  have e : ∀ s, next^[per - 1] (next s) = s := by
    intro s
    rw [← Function.iterate_succ_apply]
    exact next_per s
  rw [← e a, h, e]

theorem period2 {s : S} (hs : s ≠ zero) {a b : Nat} (h : a ≤ b) : next^[a] s = next^[b] s ↔ per ∣ b - a := by
  rw [← period hs (b - a)]
  obtain ⟨c, rfl⟩ := Nat.exists_eq_add_of_le h
  rw [Nat.add_sub_cancel_left, Function.iterate_add_apply]
  constructor
  · intro h; exact (next_inj.iterate a h).symm
  · intro h; rw [h]

theorem next_ne {s : S} (hs : s ≠ zero) (n : Nat) : next^[n] s ≠ zero := by
  intro h
  have : next^[n] zero = zero := Function.iterate_fixed next_zero n
  rw [← this] at h
  exact hs (next_inj.iterate n h)

end Verif.Random
