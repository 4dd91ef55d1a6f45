import Verif.Cycle.Model
import Verif.Cycle.Spec
/-!
# C110: measured time
-/
namespace Verif.Cycle

theorem t64 : two64 = 18446744073709551616 := by decide

theorem tBig : 2 ^ 64 - 2 ^ 31 - 2 ^ 32 = 18446744067267100672 := by decide

theorem t32 : two32 = 4294967296 := by decide

theorem tHigh : highBound = 18446744071562067968 := by decide

/-! ## Conversions -/

/-- Conversions between microseconds and cycles are exact, rounded down, as long as the product fits 64 bits. -/
theorem C110_conversion_partial (f x : Nat) :
    (x * f < 2 ^ 64 → fromUsec f x = x * f / 1000000) ∧ (0 < f → x * 1000000 < 2 ^ 64 → toUsec f x = some (micros f x)) := by
  constructor
  · intro h; rw [fromUsec, show two64 = 2 ^ 64 from rfl, Nat.mod_eq_of_lt h]
  · intro hf h
    rw [toUsec, if_neg (by omega), show two64 = 2 ^ 64 from rfl, Nat.mod_eq_of_lt h, micros]

/-- There and back loses at most one microsecond. -/
theorem C110_round_trip_partial (f u : Nat) (hf : 1000000 ≤ f) (h : u * f < 2 ^ 64) :
    ∃ v, toUsec f (fromUsec f u) = some v ∧ v ≤ u ∧ u ≤ v + 1 := by
  have h0 := (C110_conversion_partial f u).1 h
  have h1 : u * f / 1000000 * 1000000 ≤ u * f := Nat.div_mul_le_self _ _
  have h2 : u * f < u * f / 1000000 * 1000000 + 1000000 := by omega
  refine ⟨micros f (u * f / 1000000), by rw [h0]; exact (C110_conversion_partial f _).2 (by omega) (by omega), ?_, ?_⟩
  · rw [micros]
    apply Nat.div_le_of_le_mul
    rw [Nat.mul_comm f u]; exact h1
  · rw [micros]
    have h3 : u * f ≤ (u * f / 1000000 * 1000000 / f + 1 + 1) * f - 1 := by
      have := Nat.lt_div_mul_add (a := u * f / 1000000 * 1000000) (b := f) (by omega)
      generalize u * f / 1000000 * 1000000 / f = q at *
      rw [Nat.add_mul, Nat.add_mul, Nat.one_mul]
      omega
    have h4 : u < u * f / 1000000 * 1000000 / f + 1 + 1 := by
      apply Nat.lt_of_mul_lt_mul_right (a := f)
      have h5 : 0 < (u * f / 1000000 * 1000000 / f + 1 + 1) * f := Nat.mul_pos (Nat.succ_pos _) (by omega)
      omega
    omega

/-- The number of microseconds is never more than the true one, however long the time. -/
theorem C110_never_more (f c v : Nat) (h : toUsec f c = some v) : v ≤ micros f c := by
  rw [toUsec] at h
  split at h
  · cases h
  · obtain rfl := Option.some.inj h
    exact Nat.div_le_div_right (Nat.mod_le _ _)

/-- But it wraps around: at 3 GHz an hour and three quarters is no time at all, and two hours become the cycles of some seventeen minutes. -/
theorem C110_long_times_wrap :
    toUsec 3000000000 18446744073710 = some 0 ∧ micros 3000000000 18446744073710 = 6148914691 ∧
      fromUsec 3000000000 6148914692 = 2290 ∧ fromUsec 3000000000 7200000000 = 3153255926290 ∧ 7200000000 * 3000000000 / 1000000 = 21600000000000 := by
  decide

/-- Before the frequency is known, a conversion of cycles and a measurement divide by zero. -/
theorem C110_before_init (c s n : Nat) (a : Agg) (k : Nat) : toUsec 0 c = none ∧ add 0 a s n = none ∧ isOverloaded 0 a k = none := by
  refine ⟨rfl, rfl, rfl⟩

/-! ## The aggregator -/

theorem sane_tail {f m h} (hs : Sane f (m :: h)) : Sane f h := by
  cases h with
  | nil => trivial
  | cons p h => exact hs.2.2.2.2

theorem sane_head {f m h} (hs : Sane f (m :: h)) : m.1 ≤ m.2 ∧ m.2 < 2 ^ 64 := by
  cases h with
  | nil => exact hs
  | cons p h => exact ⟨hs.2.1, hs.2.2.1⟩

theorem sane_le {f m h} (hs : Sane f (m :: h)) : ∀ x ∈ h, x.2 ≤ m.1 := by
  induction h generalizing m with
  | nil => intro x hx; cases hx
  | cons p h ih =>
    intro x hx
    rcases List.mem_cons.1 hx with rfl | hx
    · exact hs.1
    · have h1 := ih (sane_tail hs) x hx
      have h2 := sane_head (sane_tail hs)
      have h3 := hs.1
      omega

theorem busy_new {f m h} (hn : ∀ x ∈ h, ms f x ≠ ms f m) : busy f 1 (m :: h) = m.2 - m.1 := by
  have e : h.filter (fun x => ms f x / 1 == ms f m / 1) = [] := by
    rw [List.filter_eq_nil_iff]
    intro x hx
    simpa using hn x hx
  rw [busy, List.filter_cons_of_pos (by simp), e]
  rfl

theorem busy_same {f m p h} (he : ms f m = ms f p) : busy f 1 (m :: p :: h) = (m.2 - m.1) + busy f 1 (p :: h) := by
  simp [busy, he]

theorem c1_eq {f : Nat} (hf : 1000 ≤ f) {h : List (Nat × Nat)} (hs : Sane f h) (hc : ∀ x ∈ h, x.2 - x.1 < 2 ^ 64 - 2 ^ 31 - 2 ^ 32) :
    ∃ a, runs f h = some a ∧ a.c1 = busy f 1 h % 2 ^ 32 ∧ a.start1 = (match h with | [] => 0 | m :: _ => ms f m % 2 ^ 32) := by
  induction h with
  | nil => exact ⟨{}, rfl, rfl, rfl⟩
  | cons m h ih =>
    obtain ⟨a, ha, hb, hst⟩ := ih (sane_tail hs) (fun x hx => hc x (List.mem_cons_of_mem _ hx))
    have hm : m.2 - m.1 < 18446744067267100672 := Nat.lt_of_lt_of_eq (hc m (List.mem_cons_self ..)) tBig
    obtain ⟨hm1, hm2'⟩ := sane_head hs
    have hm2 : m.2 < 18446744073709551616 := hm2'
    clear hm2' hc
    have hf' : f / 1000 ≠ 0 := by
      have : 1 ≤ f / 1000 := (Nat.le_div_iff_mul_le (by decide)).2 (by omega)
      omega
    have hcy : (m.2 + two64 - m.1) % two64 = m.2 - m.1 := by
      rw [show m.2 + two64 - m.1 = (m.2 - m.1) + two64 by rw [t64]; omega, Nat.add_mod_right, Nat.mod_eq_of_lt (by rw [t64]; omega)]
    have hmin : min (m.2 - m.1) highBound = m.2 - m.1 := Nat.min_eq_left (by rw [tHigh]; omega)
    have hadd : min ((a.c1 + (m.2 - m.1)) % two64) highBound = a.c1 + (m.2 - m.1) := by
      have : a.c1 < 4294967296 := by rw [hb]; exact Nat.mod_lt _ (by decide)
      clear hb hst
      rw [Nat.mod_eq_of_lt (by rw [t64]; omega)]
      exact Nat.min_eq_left (by rw [tHigh]; omega)
    rw [runs, ha, Option.bind_some, add, if_neg hf']
    simp only [hcy, hmin, hadd]
    rw [show m.2 / (f / 1000) % two32 = ms f m % 2 ^ 32 from rfl]
    cases h with
    | nil =>
      have e1 : busy f 1 [m] = m.2 - m.1 := busy_new (by simp)
      have e2 : a.c1 = 0 := hb
      rw [e1, e2]
      split
      · rename_i hq
        exact ⟨_, rfl, by simp [two32], hq⟩
      · split
        · exact ⟨_, rfl, rfl, rfl⟩
        · exact ⟨_, rfl, rfl, rfl⟩
    | cons p h =>
      obtain ⟨k1, k2, k3, k4, k5⟩ := hs
      have hle : ms f p ≤ ms f m := Nat.div_le_div_right (Nat.le_trans k1 k2)
      by_cases he : ms f m = ms f p
      · rw [if_pos (hst.trans (by rw [he])), busy_same he]
        refine ⟨_, rfl, ?_, by simp only [hst, he]⟩
        simp only [hb, two32]
        omega
      · have hne : a.start1 ≠ ms f m % 2 ^ 32 := by
          rw [hst]; simp only; omega
        rw [if_neg hne, busy_new]
        · split
          · exact ⟨_, rfl, rfl, rfl⟩
          · exact ⟨_, rfl, rfl, rfl⟩
        · intro x hx
          have : ms f x ≤ ms f p := by
            rcases List.mem_cons.1 hx with rfl | hx
            · exact Nat.le_refl _
            · exact Nat.div_le_div_right (Nat.le_trans (sane_le k5 x hx) (sane_head k5).1)
          omega

theorem toUsec_small {f c : Nat} (hf : 0 < f) (hc : c < 2 ^ 32) : toUsec f c = some (micros f c) :=
  (C110_conversion_partial f c).2 hf (by omega)

/-- What the aggregator really counts, whatever is measured: the time of the last millisecond, modulo 2^32 cycles. -/
theorem C110_counted {f : Nat} (hf : 1000 ≤ f) {h : List (Nat × Nat)} (hs : Sane f h) (hc : ∀ x ∈ h, x.2 - x.1 < 2 ^ 64 - 2 ^ 31 - 2 ^ 32) :
    ∃ a, runs f h = some a ∧ usec1 f a = some (min 1000 (micros f (busy f 1 h % 2 ^ 32))) ∧
      usec10 f a = some (min 10000 (micros f (busy f 1 h % 2 ^ 32))) := by
  obtain ⟨a, ha, hb, -⟩ := c1_eq hf hs hc
  refine ⟨a, ha, ?_, ?_⟩
  · rw [usec1, hb, toUsec_small (by omega) (Nat.mod_lt _ (by decide)), Option.map_some]
    congr 1; split <;> omega
  · rw [usec10, hb, toUsec_small (by omega) (Nat.mod_lt _ (by decide)), Option.map_some]
    congr 1; split <;> omega

theorem small_each {h : List (Nat × Nat)} (hl : ∀ x ∈ h, x.2 - x.1 < 2 ^ 32) : ∀ x ∈ h, x.2 - x.1 < 2 ^ 64 - 2 ^ 31 - 2 ^ 32 :=
  fun x hx => Nat.lt_trans (hl x hx) (by decide)

/-- `Usec1ms` is the time, in microseconds, of the measurements that ended in the current millisecond, at most 1000, as long
as it is fewer than 2^32 cycles. -/
theorem C110_usec1_partial {f : Nat} (hf : 1000 ≤ f) {h : List (Nat × Nat)} (hs : Sane f h) (hl : ∀ x ∈ h, x.2 - x.1 < 2 ^ 32)
    (hb : busy f 1 h < 2 ^ 32) : ∃ a, runs f h = some a ∧ usec1 f a = some (min 1000 (micros f (busy f 1 h))) := by
  obtain ⟨a, ha, h1, -⟩ := C110_counted hf hs (small_each hl)
  rw [Nat.mod_eq_of_lt hb] at h1
  exact ⟨a, ha, h1⟩

/-- `IsOverloaded` says whether that time is at least the given share of a millisecond. -/
theorem C110_overloaded_partial {f : Nat} (hf : 1000 ≤ f) {h : List (Nat × Nat)} (hs : Sane f h) (hl : ∀ x ∈ h, x.2 - x.1 < 2 ^ 32)
    (hb : busy f 1 h < 2 ^ 32) {k : Nat} (hk : k ≤ 1000) :
    ∃ a, runs f h = some a ∧ isOverloaded f a k = some (decide (k ≤ micros f (busy f 1 h))) := by
  obtain ⟨a, ha, h1, h2⟩ := C110_counted hf hs (small_each hl)
  rw [Nat.mod_eq_of_lt hb] at h1 h2
  refine ⟨a, ha, ?_⟩
  rw [isOverloaded, h1, h2]
  show some (decide _ || decide _) = _
  congr 1
  rw [← Bool.decide_or]
  congr 1
  apply propext
  constructor
  · rintro (h | h) <;> omega
  · intro h; left; omega

/-- The saturation does not happen: work that took exactly 2^32 cycles, or a multiple, counts as no time, so the thread is not
overloaded at any share. -/
theorem C110_long_work_unseen {f s j k : Nat} (hf : 1000 ≤ f) (hj : s + j * 2 ^ 32 < 2 ^ 64 - 2 ^ 31 - 2 ^ 32) (hk : 0 < k) :
    ∃ a, runs f [(s, s + j * 2 ^ 32)] = some a ∧ usec1 f a = some 0 ∧ isOverloaded f a k = some false := by
  obtain ⟨a, ha, h1, h2⟩ := C110_counted hf (h := [(s, s + j * 2 ^ 32)]) ⟨by simp, by simp only; omega⟩
    (by intro x hx; obtain rfl := List.mem_singleton.1 hx; simp only; omega)
  have e : busy f 1 [(s, s + j * 2 ^ 32)] % 2 ^ 32 = 0 := by rw [busy_new (by simp)]; simp only; omega
  rw [e] at h1 h2
  have z : micros f 0 = 0 := by rw [micros, Nat.zero_mul, Nat.zero_div]
  rw [z] at h1 h2
  refine ⟨a, ha, h1, ?_⟩
  rw [isOverloaded, h1, h2]
  show some (decide _ || decide _) = _
  congr 1
  rw [decide_eq_false (by omega), decide_eq_false (by omega)]; rfl

theorem busy_within {f : Nat} {m : Nat × Nat} {h : List (Nat × Nat)} (hs : Sane f (m :: h))
    (hw : ∀ x ∈ m :: h, x.1 / (f / 1000) = x.2 / (f / 1000)) : busy f 1 (m :: h) ≤ m.2 - m.2 / (f / 1000) * (f / 1000) := by
  have hm := hw m (List.mem_cons_self ..)
  have hd : m.1 / (f / 1000) * (f / 1000) ≤ m.1 := Nat.div_mul_le_self _ _
  have hh := sane_head hs
  induction h generalizing m with
  | nil =>
    rw [busy_new (by simp), ← hm]
    omega
  | cons p h ih =>
    have h1 := hs.1
    by_cases he : ms f m = ms f p
    · rw [busy_same he]
      have := ih (sane_tail hs) (fun x hx => hw x (List.mem_cons_of_mem _ hx)) (hw p (by simp)) (Nat.div_mul_le_self _ _) (sane_head (sane_tail hs))
      simp only [ms] at he
      rw [← he] at this
      rw [hm] at hd
      omega
    · rw [busy_new, ← hm]
      · omega
      · intro x hx
        have hle : ms f p ≤ ms f m := Nat.div_le_div_right (Nat.le_trans h1 hh.1)
        have : ms f x ≤ ms f p := by
          rcases List.mem_cons.1 hx with rfl | hx
          · exact Nat.le_refl _
          · exact Nat.div_le_div_right (Nat.le_trans (sane_le (sane_tail hs) x hx) (sane_head (sane_tail hs)).1)
        omega

/-- `Usec10ms` is about the last millisecond too: while no measurement crosses from one millisecond to the next, it never says
more than a tenth of its ten milliseconds, however busy these were. -/
theorem C110_usec10_a_tenth {f : Nat} (hf : 1000 ≤ f) {h : List (Nat × Nat)} (hs : Sane f h)
    (hw : ∀ x ∈ h, x.1 / (f / 1000) = x.2 / (f / 1000)) (hc : ∀ x ∈ h, x.2 - x.1 < 2 ^ 64 - 2 ^ 31 - 2 ^ 32) :
    ∃ a v, runs f h = some a ∧ usec10 f a = some v ∧ v ≤ 1000 := by
  obtain ⟨a, ha, -, h2⟩ := C110_counted hf hs hc
  refine ⟨a, _, ha, h2, Nat.le_trans (Nat.min_le_right _ _) ?_⟩
  have hb : busy f 1 h ≤ f / 1000 := by
    cases h with
    | nil => exact Nat.zero_le _
    | cons m h =>
      have h1 := busy_within hs hw
      have h3 := Nat.lt_div_mul_add (a := m.2) (b := f / 1000) (Nat.div_pos hf (by decide))
      omega
  have hb2 : busy f 1 h % 2 ^ 32 ≤ f / 1000 := Nat.le_trans (Nat.mod_le _ _) hb
  rw [micros]
  apply Nat.div_le_of_le_mul
  generalize busy f 1 h % 2 ^ 32 = b at hb2
  clear hc hb h2
  omega

/-! ## Concrete histories -/

/-- A thread that works without a pause, at 1 GHz, measured once a millisecond, the last first. -/
def steady : Nat → List (Nat × Nat)
  | 0 => []
  | n + 1 => (n * 1000000, n * 1000000 + 999999) :: steady n

/-- Ten milliseconds of work: `Usec10ms` should be 9999 and is 999, and nine of them and one of rest are no load. -/
theorem C110_usec10_wrong :
    micros 1000000000 (busy 1000000000 10 (steady 10)) = 9999 ∧ (runs 1000000000 (steady 10)).bind (usec10 1000000000) = some 999 ∧
      (runs 1000000000 ((9000000, 9000001) :: steady 9)).bind (fun a => isOverloaded 1000000000 a 1) = some false ∧
      micros 1000000000 (busy 1000000000 10 ((9000000, 9000001) :: steady 9)) = 8999 := by
  decide +kernel

/-- A history that meets the hypotheses: two measurements in one millisecond, 700 and 200 microseconds. -/
example : Sane 1000000000 [(5750000, 5950000), (5000000, 5700000)] ∧ busy 1000000000 1 [(5750000, 5950000), (5000000, 5700000)] = 900000 ∧
    (runs 1000000000 [(5750000, 5950000), (5000000, 5700000)]).bind (usec1 1000000000) = some 900 := by
  refine ⟨⟨by decide, by decide, by decide, by decide, by decide, by decide⟩, by decide, by decide +kernel⟩

example : Sane 1000000000 (steady 3) := by
  refine ⟨by decide, by decide, by decide, by decide, by decide, by decide, by decide, by decide, by decide, by decide⟩

end Verif.Cycle
