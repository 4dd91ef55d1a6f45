import Verif.Divide.Lemmas
import Verif.Cuckoo.Prime
/-! C85: division by a multiplication. -/
namespace Verif.Divide

/-- C85: the division of two words by one, as the machine instruction does it. -/
theorem C85_instr_divides (w : Nat) : DividesWide w (divInstr w) := by
  intro u1 u0 v _ hu _
  unfold divInstr
  rw [if_pos hu]

/-- C85: machines without that instruction compute the same quotient and remainder, whatever their shift by a full word gives. -/
theorem C85_portable_divides (junk : Nat) : DividesWide 64 (divPortable junk) :=
  fun _ _ _ hv hu h0 => divPortable_eq hv hu h0

example : divPortable 7 5 6 (2 ^ 63 + 1) = some ((5 * 2 ^ 64 + 6) / (2 ^ 63 + 1), (5 * 2 ^ 64 + 6) % (2 ^ 63 + 1)) :=
  C85_portable_divides 7 5 6 _ (by decide) (by decide) (by decide)

/-- C85: the high word of a product, with or without a type of 128 bits. -/
theorem C85_mulhi {x y : Nat} (hx : x < 2 ^ 64) (hy : y < 2 ^ 64) : mulhiSplit x y = x * y / 2 ^ 64 :=
  mulhiSplit_eq hx hy

example : mulhiSplit (2 ^ 64 - 1) (2 ^ 64 - 1) = 2 ^ 64 - 2 := by decide

/-- C85: for every divisor but zero a number is made with which every number of the word is divided exactly. -/
theorem C85_divide {w : Nat} (hw : w = 32 ∨ w = 64) {wide : Nat → Nat → Nat → Option (Nat × Nat)} (hx : DividesWide w wide) {d : Nat}
    (hd : 0 < d) (hdw : d < 2 ^ w) : ∃ x, gen w wide d = some x ∧ ∀ n < 2 ^ w, divide w n x = n / d := by
  obtain ⟨x, hg, hm⟩ := gen_made hx hd hdw
  refine ⟨x, hg, fun n hn => ?_⟩
  cases hm with
  | shift k hk hp =>
    obtain ⟨h1, h2, _⟩ := more_shift hw hk
    unfold divide
    rw [if_pos h2]
    simp only
    rw [h1, ← hp]
  | small k M e hk hM h1 h2 =>
    obtain ⟨_, _, _, _, _, h6, h7⟩ := more_shift hw hk
    unfold divide
    simp only
    rw [if_neg (by simp [h6]), if_neg (by simp [h7])]
    exact small_div hd hn h1 h2
  | large k M e hk hM h1 h2 =>
    obtain ⟨_, _, h3, h4, h5, _⟩ := more_shift hw hk
    unfold divide
    simp only
    rw [if_neg (by simp [h4]), if_pos h5, h3]
    exact large_div hd hn hM h1 h2

/-- C85: the three parts, chosen by the number the code reports for them, give the same. -/
theorem C85_algorithms {w : Nat} (hw : w = 32 ∨ w = 64) {wide : Nat → Nat → Nat → Option (Nat × Nat)} (hx : DividesWide w wide) {d : Nat}
    (hd : 0 < d) (hdw : d < 2 ^ w) : ∃ x, gen w wide d = some x ∧
      (algorithm x = 0 ∧ (∀ n < 2 ^ w, alg0 w n x = n / d) ∨ algorithm x = 1 ∧ (∀ n < 2 ^ w, alg1 w n x = n / d) ∨
       algorithm x = 2 ∧ ∀ n < 2 ^ w, alg2 w n x = n / d) ∧
      (algorithm x = 0 ↔ ∃ k, d = 2 ^ k) := by
  obtain ⟨x, hg, hm⟩ := gen_made hx hd hdw
  refine ⟨x, hg, ?_⟩
  have hz : (d &&& (d - 1) = 0) → algorithm x = 0 := by
    intro hp
    unfold gen at hg
    rw [if_neg (by omega), if_pos hp] at hg
    cases hg
    have hk : topBit d < w := (Nat.pow_lt_pow_iff_right (by decide : 1 < 2)).1 (Nat.lt_of_le_of_lt (log2_bounds (by omega)).1 hdw)
    have hc : ctz w d = topBit d := by
      have := ctz_pow w (topBit d) hk
      rw [← and_pred_pow hd hp] at this
      exact this
    unfold algorithm
    rw [hc, if_pos (more_shift hw hk).2.1]
  cases hm with
  | shift k hk hp =>
    obtain ⟨h1, h2, _⟩ := more_shift hw hk
    have ha : algorithm ⟨0, k ||| shiftPath⟩ = 0 := by unfold algorithm; rw [if_pos h2]
    refine ⟨Or.inl ⟨ha, fun n _ => ?_⟩, fun _ => ⟨k, hp⟩, fun _ => ha⟩
    unfold alg0
    simp only
    rw [h1, ← hp]
  | small k M e hk hM h1 h2 =>
    obtain ⟨_, _, _, _, _, h6, h7⟩ := more_shift hw hk
    have ha : algorithm ⟨M, k⟩ = 1 := by unfold algorithm; rw [if_neg (by simp [h6]), if_pos h7]
    refine ⟨Or.inr (Or.inl ⟨ha, fun n hn => small_div hd hn h1 h2⟩), ⟨fun h => (by rw [ha] at h; cases h), fun ⟨j, hj⟩ => ?_⟩⟩
    exact hz (by rw [hj]; exact pow_and_pred _)
  | large k M e hk hM h1 h2 =>
    obtain ⟨_, _, h3, h4, h5, _⟩ := more_shift hw hk
    have ha : algorithm ⟨M, k ||| addMarker⟩ = 2 := by unfold algorithm; rw [if_neg (by simp [h4]), if_neg h5]
    refine ⟨Or.inr (Or.inr ⟨ha, fun n hn => ?_⟩), ⟨fun h => (by rw [ha] at h; cases h), fun ⟨j, hj⟩ => ?_⟩⟩
    · unfold alg2
      simp only
      rw [h3]
      exact large_div hd hn hM h1 h2
    · exact hz (by rw [hj]; exact pow_and_pred _)

-- one divisor of each kind
example : (gen 64 (divInstr 64) 8).map algorithm = some 0 ∧ (gen 64 (divInstr 64) 5).map algorithm = some 1 ∧
    (gen 64 (divInstr 64) 7).map algorithm = some 2 := by decide

/-- C85: the bucket of a key is the remainder of its hash, for every number of buckets that is not a power of two. -/
theorem C85_bucket {wide : Nat → Nat → Nat → Option (Nat × Nat)} (hx : DividesWide 64 wide) {count : Nat} (hc : 0 < count)
    (hcw : count < 2 ^ 64) (hnp : ∀ k, count ≠ 2 ^ k) (h : Nat) (hh : h < 2 ^ 64) : fromHash wide count h = some (h % count) := by
  obtain ⟨x, hg, hal, hz⟩ := C85_algorithms (Or.inr rfl) hx hc hcw
  have h0 : algorithm x ≠ 0 := fun e => by
    obtain ⟨k, hk⟩ := hz.1 e
    exact hnp k hk
  have hp : (if algorithm x = 1 then alg1 64 h x else alg2 64 h x) = h / count := by
    rcases hal with ⟨ha, _⟩ | ⟨ha, hb⟩ | ⟨ha, hb⟩
    · exact absurd ha h0
    · rw [if_pos ha, hb h hh]
    · rw [if_neg (by rw [ha]; decide), hb h hh]
  unfold fromHash
  rw [hg]
  simp only
  rw [hp]
  have hdm : count * (h / count) + h % count = h := Nat.div_add_mod _ _
  have hml : h % count < count := Nat.mod_lt _ hc
  have hcm : h / count * count = count * (h / count) := Nat.mul_comm _ _
  have hM : M64 = 2 ^ 64 := rfl
  rw [Nat.mod_eq_of_lt (show h / count * count < M64 by omega)]
  have : h + (M64 - h / count * count) = h % count + M64 := by omega
  rw [this, Nat.add_mod_right, Nat.mod_eq_of_lt (by omega)]

/-- C85: the numbers of buckets a table uses are such: `GetPrimeNotLessThan` of at least two. -/
theorem C85_bucket_prime {wide : Nat → Nat → Nat → Option (Nat × Nat)} (hx : DividesWide 64 wide) {v p : Nat} (hv : 2 ≤ v)
    (hp : Verif.Cuckoo.getPrime v = some p) (hpw : p < 2 ^ 64) (h : Nat) (hh : h < 2 ^ 64) : fromHash wide p h = some (h % p) := by
  obtain ⟨h1, h2, _⟩ := Verif.Cuckoo.getPrime_some hp
  refine C85_bucket hx (by omega) hpw (fun k hk => ?_) h hh
  cases k with
  | zero => rw [Nat.pow_zero] at hk; omega
  | succ k => rw [Nat.pow_succ] at hk; omega

example : Verif.Cuckoo.getPrime 16 = some 17 := by decide

example : fromHash (divPortable 0) 17 (2 ^ 64 - 1) = some ((2 ^ 64 - 1) % 17) :=
  C85_bucket (C85_portable_divides 0) (by decide) (by decide)
    (fun k hk => by
      cases k with
      | zero => simp at hk
      | succ k => rw [Nat.pow_succ] at hk; omega) _ (by decide)

/-- C85 does not hold for a table with two buckets: the switch has no case for powers of two, and the bucket is out of range. -/
theorem C85_bucket_power_of_two_fails : ∃ b, fromHash (divInstr 64) 2 5 = some b ∧ ¬ b < 2 := ⟨_, rfl, by decide⟩

/-- C85: no division by zero. -/
theorem C85_zero_is_undefined (w : Nat) (wide : Nat → Nat → Nat → Option (Nat × Nat)) : gen w wide 0 = none := rfl

end Verif.Divide
