import Mathlib.NumberTheory.Bertrand
import Verif.Cuckoo.Model
/-!
# The prime bucket counts
-/
namespace Verif.Cuckoo

/-- The trial divisions find every odd divisor between `i` and the square root. -/
theorem primeLoop_iff : ∀ (f i val : Nat), val < i + 2 * f → (primeLoop f i val = true ↔
    ∀ j, i ≤ j → j % 2 = i % 2 → j * j ≤ val → val % j ≠ 0) := by
  intro f
  induction f with
  | zero =>
    intro i val h
    simp only [primeLoop, true_iff]
    intro j h1 _ h3 _
    have : j ≤ j * j := Nat.le_mul_self j
    omega
  | succ f ih =>
    intro i val h
    simp only [primeLoop]
    by_cases hi : i * i ≤ val
    · rw [if_pos hi]
      by_cases hd : val % i = 0
      · rw [if_pos hd]
        simp only [Bool.false_eq_true, false_iff]
        intro hall
        exact hall i (Nat.le_refl _) rfl hi hd
      · rw [if_neg hd, ih (i + 2) val (by omega)]
        constructor
        · intro hall j h1 h2 h3
          by_cases hj : j = i
          · rw [hj]; exact hd
          · exact hall j (by omega) (by omega) h3
        · intro hall j h1 h2 h3
          exact hall j (by omega) (by omega) h3
    · rw [if_neg hi]
      simp only [true_iff]
      intro j h1 _ h3
      have := Nat.mul_le_mul h1 h1
      omega

/-- IsPrime is right from 2 on. -/
theorem isPrime_iff {v : Nat} (h : 2 ≤ v) : isPrime v = true ↔ v.Prime := by
  unfold isPrime
  by_cases h4 : v < 4
  · rw [if_pos h4]
    have : v = 2 ∨ v = 3 := by omega
    rcases this with rfl | rfl
    · exact iff_of_true rfl Nat.prime_two
    · exact iff_of_true rfl Nat.prime_three
  · rw [if_neg h4]
    by_cases h23 : v % 2 = 0 ∨ v % 3 = 0
    · rw [if_pos h23]
      simp only [Bool.false_eq_true, false_iff]
      intro hp
      rcases h23 with e | e
      · have := (Nat.prime_dvd_prime_iff_eq Nat.prime_two hp).1 (Nat.dvd_of_mod_eq_zero e)
        omega
      · have := (Nat.prime_dvd_prime_iff_eq Nat.prime_three hp).1 (Nat.dvd_of_mod_eq_zero e)
        omega
    · rw [if_neg h23, primeLoop_iff v 5 v (by omega)]
      constructor
      · intro hall
        refine Classical.byContradiction (fun hn => ?_)
        have hm := Nat.minFac_sq_le_self (by omega) hn
        have hd := Nat.minFac_dvd v
        have hp := Nat.minFac_prime (n := v) (by omega)
        have h2 : v.minFac ≠ 2 := fun e => h23 (Or.inl (Nat.mod_eq_zero_of_dvd (e ▸ hd)))
        have h3 : v.minFac ≠ 3 := fun e => h23 (Or.inr (Nat.mod_eq_zero_of_dvd (e ▸ hd)))
        have h4 : v.minFac ≠ 4 := fun e => by rw [e] at hp; exact absurd hp (by decide)
        have hge := hp.two_le
        have hodd : v.minFac % 2 = 1 := by
          rcases hp.eq_two_or_odd with e | e
          · exact absurd e h2
          · exact e
        refine hall v.minFac (by omega) (by omega) ?_ (Nat.mod_eq_zero_of_dvd hd)
        rw [← Nat.pow_two]
        exact hm
      · intro hp j h1 _ h3 h4
        rcases (Nat.dvd_prime hp).1 (Nat.dvd_of_mod_eq_zero h4) with e | e
        · omega
        · subst e
          have : j * 2 ≤ j * j := Nat.mul_le_mul_left j (by omega)
          omega

theorem primeFrom_some : ∀ (f v p : Nat), primeFrom f v = some p → v ≤ p ∧ p % 2 = v % 2 ∧
    isPrime p = true ∧ ∀ q, v ≤ q → q < p → q % 2 = v % 2 → isPrime q = false := by
  intro f
  induction f with
  | zero =>
    intro v p h
    cases h
  | succ f ih =>
    intro v p h
    simp only [primeFrom] at h
    by_cases hv : isPrime v = true
    · rw [if_pos hv] at h
      cases h
      exact ⟨Nat.le_refl _, rfl, hv, fun q h1 h2 => by omega⟩
    · rw [if_neg hv] at h
      obtain ⟨a1, a2, a3, a4⟩ := ih (v + 2) p h
      refine ⟨by omega, by omega, a3, ?_⟩
      intro q h1 h2 h3
      by_cases hq : q = v
      · rw [hq]; simpa using hv
      · exact a4 q (by omega) h2 (by omega)

theorem primeFrom_isSome : ∀ (f v p : Nat), v ≤ p → p % 2 = v % 2 → isPrime p = true → p < v + 2 * f →
    (primeFrom f v).isSome = true := by
  intro f
  induction f with
  | zero =>
    intro v p h1 _ _ h4
    omega
  | succ f ih =>
    intro v p h1 h2 h3 h4
    simp only [primeFrom]
    by_cases hv : isPrime v = true
    · rw [if_pos hv]
      rfl
    · rw [if_neg hv]
      have : v ≠ p := by
        rintro rfl
        exact hv h3
      exact ih (v + 2) p (by omega) (by omega) h3 (by omega)

theorem getPrime_some {v p : Nat} (h : getPrime v = some p) : v ≤ p ∧ p % 2 = 1 ∧ isPrime p = true := by
  unfold getPrime at h
  obtain ⟨a1, a2, a3, _⟩ := primeFrom_some _ _ _ h
  refine ⟨?_, ?_, a3⟩
  · split at a1 <;> omega
  · split at a2 <;> omega

/-- The fatal error at the end of GetPrimeNotLessThan is not reached. -/
theorem getPrime_isSome (v : Nat) : ∃ p, getPrime v = some p := by
  have key : ∀ v', v' % 2 = 1 → (primeFrom (v' + 1) v').isSome = true := by
    intro v' hodd
    obtain ⟨p, hp, h1, h2⟩ := Nat.exists_prime_lt_and_le_two_mul v' (by omega)
    by_cases hp2 : p = 2
    · have : v' = 1 := by omega
      subst this
      rfl
    · have hpo := hp.eq_two_or_odd.resolve_left hp2
      exact primeFrom_isSome _ v' p (by omega) (by omega) ((isPrime_iff hp.two_le).2 hp) (by omega)
  unfold getPrime
  refine Option.isSome_iff_exists.1 (key _ ?_)
  split <;> omega

end Verif.Cuckoo
