import Verif.Random.Period
import Verif.Random.Spec
import Mathlib.Data.Fintype.Card
import Mathlib.Data.Fintype.Prod
import Mathlib.Data.Fintype.EquivFin
/-!
# C109: the random number generators
-/
namespace Verif.Random

/-! ## SplitMix64 -/

theorem xs_inj (k : Nat) (hk : 0 < k) : Function.Injective (fun x : W => x ^^^ (x >>> k)) := by
  intro x y h
  have hb : ∀ i, (x.getLsbD i ^^ x.getLsbD (k + i)) = (y.getLsbD i ^^ y.getLsbD (k + i)) := by
    intro i
    have := congrArg (fun z : W => z.getLsbD i) h
    simpa using this
  have key : ∀ d i, 64 ≤ i + d → x.getLsbD i = y.getLsbD i := by
    intro d
    induction d with
    | zero => intro i hi; rw [BitVec.getLsbD_of_ge x i (by omega), BitVec.getLsbD_of_ge y i (by omega)]
    | succ d ih =>
      intro i hi
      have h1 := ih (k + i) (by omega)
      have h2 := hb i
      rw [h1] at h2
      simpa using h2
  exact BitVec.eq_of_getLsbD_eq fun i _ => key 64 i (by omega)

theorem mul_inj (c d : W) (h : c * d = 1) : Function.Injective (fun x : W => x * c) := by
  intro x y hxy
  have := congrArg (fun z : W => z * d) hxy
  simpa [BitVec.mul_assoc, h] using this

theorem smMix_inj : Function.Injective smMix := by
  intro x y h
  have e : ∀ z, smMix z = (fun x : W => x ^^^ (x >>> 31)) ((fun x : W => x * 0x94d049bb133111eb#64) ((fun x : W => x ^^^ (x >>> 27))
      ((fun x : W => x * 0xbf58476d1ce4e5b9#64) ((fun x : W => x ^^^ (x >>> 30)) z)))) := fun z => by simp only [smMix]
  rw [e, e] at h
  exact xs_inj 30 (by decide) (mul_inj _ 0x96de1b173f119089#64 (by decide) (xs_inj 27 (by decide)
    (mul_inj _ 0x319642b2d24d8ec3#64 (by decide) (xs_inj 31 (by decide) h))))

theorem walk (s g : W) (n : Nat) : (s + g) + BitVec.ofNat 64 (n + 1) * g = s + BitVec.ofNat 64 (n + 1 + 1) * g := by
  rw [BitVec.ofNat_add (n + 1) 1, BitVec.add_mul, BitVec.one_mul]
  ac_rfl

/-- The step of the generator as a variable, so that no proof computes with it. -/
theorem smStep_eq : ∃ g : W, g * 0xf1de83e19937733d#64 = 1 ∧ ∀ s, smStep s = s + g := ⟨0x9e3779b97f4a7c15#64, by decide, fun s => by rw [smStep]⟩

theorem smOutput_eq {g : W} (hg : ∀ s, smStep s = s + g) (n : Nat) (s : W) : smOutput n s = smMix (s + BitVec.ofNat 64 (n + 1) * g) := by
  have h1 : ∀ t, (smCall t).1 = smMix (smStep t) := fun t => by rw [smCall]
  have h2 : (fun t => (smCall t).2) = smStep := funext fun t => by rw [smCall]
  rw [smOutput, h1, h2]
  clear h1 h2
  apply congrArg smMix
  induction n generalizing s with
  | zero => rw [Function.iterate_zero_apply, hg, Nat.zero_add, BitVec.one_mul]
  | succ n ih => rw [Function.iterate_succ_apply, ih, hg, walk]

noncomputable instance : Fintype W := Fintype.ofEquiv (Fin (2 ^ 64)) ⟨BitVec.ofFin, BitVec.toFin, fun _ => rfl, fun _ => rfl⟩

theorem card_W : Fintype.card W = 2 ^ 64 := by
  rw [Fintype.ofEquiv_card]; exact Fintype.card_fin _

/-- Of any 2^64 consecutive calls of a `SplitMix64`, whatever its seed, exactly one returns a given number. -/
theorem C109_splitmix (s v : W) : ∃! n, n < 2 ^ 64 ∧ smOutput n s = v := by
  obtain ⟨g, hgi, hg⟩ := smStep_eq
  have inj : Function.Injective (fun n : Fin (2 ^ 64) => smOutput n.1 s) := by
    intro a b h
    simp only [smOutput_eq hg] at h
    have h1 := smMix_inj h
    have h2 : BitVec.ofNat 64 (a.1 + 1) * g = BitVec.ofNat 64 (b.1 + 1) * g := by
      have := congrArg (fun z : W => z - s) h1
      simpa [BitVec.add_comm s] using this
    have h3 := mul_inj g 0xf1de83e19937733d#64 hgi h2
    have h4 := congrArg BitVec.toNat h3
    simp only [BitVec.toNat_ofNat] at h4
    apply Fin.ext
    have := a.2; have := b.2
    omega
  have bij : Function.Bijective (fun n : Fin (2 ^ 64) => smOutput n.1 s) :=
    (Fintype.bijective_iff_injective_and_card _).2 ⟨inj, by rw [Fintype.card_fin, card_W]⟩
  obtain ⟨n, hn⟩ := bij.2 v
  refine ⟨n.1, ⟨n.2, hn⟩, ?_⟩
  rintro m ⟨hm, hv⟩
  have := inj (a₁ := ⟨m, hm⟩) (a₂ := n) (hv.trans hn.symm)
  exact congrArg Fin.val this

/-! ## The states of Xoroshiro128p -/

/-- The seeding is never the all-zero state, from which the generator would only return zeros. -/
theorem C109_seed (s : W) : seed s ≠ (0, 0) ∧ fresh ≠ (0, 0) ∧ ∀ n, output n (0, 0) = 0 := by
  refine ⟨?_, by decide, ?_⟩
  · intro h
    have h1 : smMix (smStep s) = smMix (smStep (smStep s)) := by
      have a := congrArg Prod.fst h
      have b := congrArg Prod.snd h
      simp only [seed, smCall, smSeed] at a b
      rw [a, b]
    have h2 := smMix_inj h1
    have h3 : smStep s - smStep s = smStep (smStep s) - smStep s := by rw [← h2]
    simp only [smStep, BitVec.sub_self] at h3
    rw [BitVec.add_comm, BitVec.add_sub_cancel] at h3
    exact absurd h3 (by decide)
  · intro n
    have : after n (0, 0) = (0, 0) := Function.iterate_fixed next_zero n
    rw [output, this]; rfl

/-- From every state but zero, the generator is back in it after 2^128 - 1 calls and their multiples, and never else. -/
theorem C109_period {s : S} (hs : s ≠ (0, 0)) (n : Nat) : after n s = s ↔ (2 ^ 128 - 1) ∣ n := period hs n

theorem inj_after {s : S} (hs : s ≠ (0, 0)) {a b : Nat} (ha : a < per) (hb : b < per) (h : after a s = after b s) : a = b := by
  rcases Nat.le_total a b with hab | hab
  · have := Nat.eq_zero_of_dvd_of_lt ((period2 hs hab).1 h) (by omega)
    omega
  · have := Nat.eq_zero_of_dvd_of_lt ((period2 hs hab).1 h.symm) (by omega)
    omega

theorem card_S : Fintype.card S = 2 ^ 128 := by
  rw [Fintype.card_prod, card_W]; decide

theorem card_ne : Fintype.card { t : S // t ≠ (0, 0) } = per := by
  have h := Fintype.card_subtype_compl (fun t : S => t = (0, 0))
  rw [card_S, Fintype.card_subtype_eq] at h
  exact h

/-- The generator passes through every state but zero, whatever state but zero it starts in. -/
theorem C109_all_states {s t : S} (hs : s ≠ (0, 0)) (ht : t ≠ (0, 0)) : ∃! n, n < 2 ^ 128 - 1 ∧ after n s = t := by
  let f : Fin per → { t : S // t ≠ (0, 0) } := fun n => ⟨after n.1 s, next_ne hs n.1⟩
  have inj : Function.Injective f := by
    intro a b h
    exact Fin.ext (inj_after hs a.2 b.2 (congrArg Subtype.val h))
  have bij : Function.Bijective f := (Fintype.bijective_iff_injective_and_card _).2 ⟨inj, by rw [Fintype.card_fin, card_ne]⟩
  obtain ⟨n, hn⟩ := bij.2 ⟨t, ht⟩
  refine ⟨n.1, ⟨n.2, congrArg Subtype.val hn⟩, ?_⟩
  rintro m ⟨hm, hv⟩
  exact inj_after hs hm n.2 (hv.trans (congrArg Subtype.val hn).symm)

theorem result_inj {x y : S} (h : x.1 = y.1) (hr : result x = result y) : x.2 = y.2 := by
  rw [result, result, h] at hr
  exact (BitVec.add_right_inj y.1).1 hr

theorem result_sub (a v : W) : result (a, v - a) = v := by
  rw [result, BitVec.add_comm, BitVec.sub_add_cancel]

theorem result_zero : result (0, 0) = 0 := by decide

/-- Counting, for any types: a walk through every pair but one, and a function of the pairs that is one to one in the second
component. -/
theorem count_walk {A B R : Type} [Fintype A] [Fintype B] [DecidableEq A] [DecidableEq B] [DecidableEq R] (f : A × B → R) (z : A × B) (r : R)
    (len : Nat) (w : Nat → A × B) (hinj : ∀ x y, x.1 = y.1 → f x = f y → x.2 = y.2) (hsur : ∀ a, ∃ b, f (a, b) = r)
    (wz : ∀ n, w n ≠ z) (wi : ∀ a b, a < len → b < len → w a = w b → a = b) (ws : ∀ t, t ≠ z → ∃ n, n < len ∧ w n = t) :
    ((Finset.range len).filter fun n => f (w n) = r).card = if r = f z then Fintype.card A - 1 else Fintype.card A := by
  have h1 : ((Finset.range len).filter fun n => f (w n) = r).card = (Finset.univ.filter fun t => t ≠ z ∧ f t = r).card := by
    apply Finset.card_bij (fun n _ => w n)
    · intro n hn
      exact Finset.mem_filter.2 ⟨Finset.mem_univ _, wz n, (Finset.mem_filter.1 hn).2⟩
    · intro a ha b hb h
      exact wi a b (Finset.mem_range.1 (Finset.mem_filter.1 ha).1) (Finset.mem_range.1 (Finset.mem_filter.1 hb).1) h
    · intro t ht
      obtain ⟨ht1, ht2⟩ := (Finset.mem_filter.1 ht).2
      obtain ⟨n, hn, hw⟩ := ws t ht1
      exact ⟨n, Finset.mem_filter.2 ⟨Finset.mem_range.2 hn, by rw [hw]; exact ht2⟩, hw⟩
  have h2 : (Finset.univ.filter fun t => f t = r).card = Fintype.card A := by
    rw [← Finset.card_univ]
    apply Finset.card_bij (fun t _ => t.1)
    · intro _ _; exact Finset.mem_univ _
    · intro x hx y hy h
      exact Prod.ext h (hinj x y h ((Finset.mem_filter.1 hx).2.trans (Finset.mem_filter.1 hy).2.symm))
    · intro a _
      obtain ⟨b, hb⟩ := hsur a
      exact ⟨(a, b), Finset.mem_filter.2 ⟨Finset.mem_univ _, hb⟩, rfl⟩
  rw [h1]
  split
  · rename_i hr
    have h3 : (Finset.univ.filter fun t => t ≠ z ∧ f t = r) = (Finset.univ.filter fun t => f t = r).erase z := by
      ext t
      simp only [Finset.mem_filter, Finset.mem_univ, true_and, Finset.mem_erase]
    have hm : z ∈ Finset.univ.filter fun t => f t = r := Finset.mem_filter.2 ⟨Finset.mem_univ _, hr.symm⟩
    rw [h3, Finset.card_erase_of_mem hm, h2]
  · rename_i hr
    rw [← h2]
    congr 1
    ext t
    simp only [Finset.mem_filter, Finset.mem_univ, true_and, and_iff_right_iff_imp]
    rintro h rfl
    exact hr h.symm

/-- The results are as even as they can be: during 2^128 - 1 consecutive calls every number is returned 2^64 times, zero
once less. -/
theorem C109_even {s : S} (hs : s ≠ (0, 0)) (v : W) :
    ((Finset.range (2 ^ 128 - 1)).filter fun n => output n s = v).card = if v = 0 then 2 ^ 64 - 1 else 2 ^ 64 := by
  have h := count_walk result (0, 0) v (2 ^ 128 - 1) (fun n => after n s) (fun _ _ => result_inj) (fun a => ⟨v - a, result_sub a v⟩)
    (next_ne hs) (fun a b ha hb h => inj_after hs ha hb h) (fun t ht => let ⟨n, hn, _⟩ := C109_all_states hs ht; ⟨n, hn⟩)
  rw [card_W, result_zero] at h
  exact h

/-! ## jump -/

theorem jumpRound_fold (w : W) (k : Nat) (hk : k ≤ 64) (a : S × S) :
    (List.range k).foldl (jumpRound w) a = (sx a.1 (ev k w.toNat a.2), next^[k] a.2) := by
  induction k with
  | zero => simp [ev, sx_zero]
  | succ k ih =>
    rw [List.range_succ, List.foldl_append, ih (by omega)]
    simp only [List.foldl_cons, List.foldl_nil, jumpRound, Function.iterate_succ_apply']
    rw [ev_split k 1]
    have e : ev 1 (w.toNat / 2 ^ k) (next^[k] a.2) = if w.getLsbD k then next^[k] a.2 else zero := by
      simp only [ev, sx_zero, BitVec.getLsbD, Nat.testBit_eq_decide_div_mod_eq, decide_eq_true_eq]
    rw [e]
    split
    · rw [← sx_assoc]; rfl
    · rw [sx_zero]

theorem jumpWith_ev (j0 j1 : W) (s : S) : jumpWith [j0, j1] s = ev 128 (j0.toNat + 2 ^ 64 * j1.toNat) s := by
  simp only [jumpWith, List.foldl_cons, List.foldl_nil]
  rw [jumpRound_fold _ 64 (by decide), jumpRound_fold _ 64 (by decide), show 128 = 64 + 64 from rfl, ev_split, ev_low]
  have e : (j0.toNat + 2 ^ 64 * j1.toNat) / 2 ^ 64 = j1.toNat := by have := j0.isLt; omega
  rw [e, show ((0, 0) : S) = zero from rfl, zero_sx]

/-- How far `jump` takes the generator. -/
def jumpLen : Nat := 114986939498843273114953691153475215397

/-- What `jump` does: it is equivalent to exactly this many calls, about 2^126.4. -/
theorem C109_jump (s : S) : jump s = after 114986939498843273114953691153475215397 s := by
  have h : powF 128 jumpLen 2 = (0xbeac0467eba5facb#64 : W).toNat + 2 ^ 64 * (0xd86b048b86aa9922#64 : W).toNat := by decide +kernel
  rw [jump, table, jumpWith_ev, ← h, ev_pow 128 _ (by decide), after, jumpLen]

/-- `jump` is documented as equivalent to 2^64 calls (117-119). It is not, from any state but zero. -/
theorem C109_jump_not_2_64 {s : S} (hs : s ≠ (0, 0)) : jump s ≠ after (2 ^ 64) s := by
  rw [C109_jump]
  intro h
  have := Nat.eq_zero_of_dvd_of_lt ((period2 hs (by decide)).1 h.symm) (by decide)
  exact absurd this (by decide)

/-- The table in the code belongs to an earlier version of the generator, with other rotations. With the table published
for the rotations of the code, `jump` is equivalent to 2^64 calls. -/
theorem C109_jump_table (s : S) : jumpWith [0xdf900294d8f554a5#64, 0x170865df4b3201fc#64] s = after (2 ^ 64) s := by
  have h : powF 65 (2 ^ 64) 2 = (0xdf900294d8f554a5#64 : W).toNat + 2 ^ 64 * (0x170865df4b3201fc#64 : W).toNat := by decide +kernel
  rw [jumpWith_ev, ← h, ev_pow 65 _ (by decide), after]

theorem jumps_eq (n : Nat) (s : S) : jumps n s = next^[n * jumpLen] s := by
  have : jump = next^[jumpLen] := funext C109_jump
  rw [jumps, this, ← Function.iterate_mul, Nat.mul_comm]

/-- No small multiple of the length of a jump is close to a multiple of the period. -/
theorem far (d t : Int) (h1 : 0 < d) (h2 : d < 5866919815217226374) :
    d * jumpLen - t * per ≤ -44402696986653147984 ∨ 44402696986653147984 ≤ d * jumpLen - t * per := by
  obtain ⟨u, hu⟩ : ∃ u : Int, u = t * 5866919815217226374 - d * 1982527510729610141 := ⟨_, rfl⟩
  obtain ⟨v, hv⟩ : ∃ v : Int, v = d * 1913090005353905711 - t * 5661432489566926893 := ⟨_, rfl⟩
  have ed : d = u * 5661432489566926893 + v * 5866919815217226374 := by rw [hu, hv]; ring
  have et : t = u * 1913090005353905711 + v * 1982527510729610141 := by rw [hu, hv]; ring
  have ee : d * jumpLen - t * per = v * 14091010405558915323 - u * 44402696986653147984 := by
    rw [ed, et, show ((jumpLen : Nat) : Int) = 114986939498843273114953691153475215397 from rfl, show ((per : Nat) : Int) = 340282366920938463463374607431768211455 from rfl]; ring
  rw [ee]
  have hu0 : u ≠ 0 := by rintro rfl; clear hu hv ee et; omega
  clear hu hv ee et
  rcases Int.lt_or_gt_of_ne hu0 with h | h
  · have : 1 ≤ v := by omega
    omega
  · have : v ≤ 0 := by omega
    omega

/-- Generators one or more jumps apart do not meet during 2^64 calls each, as long as they are fewer than 5866919815217226374
jumps apart (about 2^62.3; the comment, 117-119, promises it for 2^64). -/
theorem C109_streams_partial {s : S} (hs : s ≠ (0, 0)) {i j : Nat} (hij : i < j) (hd : j - i < 5866919815217226374) :
    ¬ Overlap (2 ^ 64) (jumps i s) (jumps j s) := by
  rintro ⟨m, n, hm, hn, h⟩
  have h1 : next^[m + i * jumpLen] s = next^[n + j * jumpLen] s := by
    simp only [after, jumps_eq, ← Function.iterate_add_apply] at h
    exact h
  have h2 : ∃ t : Int, ((n + j * jumpLen : Nat) : Int) - ((m + i * jumpLen : Nat) : Int) = t * (per : Int) := by
    rcases Nat.le_total (m + i * jumpLen) (n + j * jumpLen) with hle | hle
    · obtain ⟨c, hc⟩ := (period2 hs hle).1 h1
      exact ⟨c, by rw [← Nat.cast_sub hle, hc]; push_cast; ring⟩
    · obtain ⟨c, hc⟩ := (period2 hs hle).1 h1.symm
      refine ⟨-c, ?_⟩
      have : ((m + i * jumpLen : Nat) : Int) - ((n + j * jumpLen : Nat) : Int) = (per * c : Nat) := by rw [← Nat.cast_sub hle, hc]
      push_cast at this ⊢
      linarith
  obtain ⟨t, ht⟩ := h2
  have h3 := far ((j - i : Nat) : Int) t (by omega) (by omega)
  rw [Nat.cast_sub (by omega)] at h3
  push_cast at ht h3
  have h4 : ((j : Int) - i) * jumpLen - t * per = m - n := by linarith
  rw [h4] at h3
  omega

/-- The bound is exact: that many jumps amount to fewer than 2^64 calls, so two of the 2^64 generators promised meet. -/
theorem C109_streams_overlap {s : S} :
    jumps 5866919815217226374 s = after 14091010405558915323 s ∧ 5866919815217226374 < 2 ^ 64 ∧ Overlap (2 ^ 64) (jumps 0 s) (jumps 5866919815217226374 s) := by
  have h : jumps 5866919815217226374 s = after 14091010405558915323 s := by
    rw [jumps_eq]
    have e : 5866919815217226374 * jumpLen = 14091010405558915323 + per * 1982527510729610141 := by decide
    rw [e, Function.iterate_add_apply, Function.iterate_mul]
    have : (next^[per])^[1982527510729610141] s = s := Function.iterate_fixed (next_per s) _
    rw [this, after]
  refine ⟨h, by decide, 14091010405558915323, 0, by decide, by decide, ?_⟩
  rw [h, show jumps 0 s = s from rfl]
  exact (Function.iterate_zero_apply next _).symm

/-! ## The hypotheses are met -/

/-- A freshly made generator, and one seeded with zero, meet the hypotheses. -/
example : fresh ≠ (0, 0) ∧ seed 0 ≠ (0, 0) := ⟨by decide, (C109_seed 0).1⟩

/-- The first results: 0xe220a8397b1dcdaf is the published first result of a SplitMix64 with seed zero. -/
example : smOutput 0 0 = 0xe220a8397b1dcdaf#64 ∧ seed 0 = (0xe220a8397b1dcdaf#64, 0x6e789e6aa1b965f4#64) ∧
    output 0 (1#64, 2#64) = 3#64 ∧ output 1 (1#64, 2#64) = 0x6001030003#64 := by decide +kernel

/-- Two generators three jumps apart. -/
example : ¬ Overlap (2 ^ 64) (jumps 4 fresh) (jumps 7 fresh) := C109_streams_partial (by decide) (by decide) (by decide)

end Verif.Random
