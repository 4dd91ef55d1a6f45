import Verif.Kernel.Spec
/-!
# Reading the kernel's version (C129)
-/
namespace Verif.Kernel

theorem dec_digit (n : Nat) : ∀ c ∈ dec n, isDigit c = true := by
  induction n using Nat.strongRecOn with
  | ind n ih =>
    unfold dec
    split
    · intro c hc
      simp only [List.mem_singleton] at hc
      simp only [isDigit, decide_eq_true_eq]; omega
    · intro c hc
      simp only [List.mem_append, List.mem_singleton] at hc
      rcases hc with hc | hc
      · exact ih (n / 10) (by omega) c hc
      · simp only [isDigit, decide_eq_true_eq]; omega

theorem dec_ne (n : Nat) : dec n ≠ [] := by
  unfold dec; split <;> simp

theorem dec_value (n : Nat) : value (dec n) = n := by
  induction n using Nat.strongRecOn with
  | ind n ih =>
    unfold dec
    split
    · simp [value]
    · have h := ih (n / 10) (by omega)
      unfold value at h ⊢
      rw [List.foldl_append, h]
      simp only [List.foldl_cons, List.foldl_nil]
      omega

theorem take_drop (l r : Str) (hl : ∀ c ∈ l, isDigit c = true) (hr : Ends r) :
    (l ++ r).takeWhile isDigit = l ∧ (l ++ r).dropWhile isDigit = r := by
  induction l with
  | nil =>
    cases r with
    | nil => simp
    | cons x r =>
      have : isDigit x = false := by
        have := hr x rfl
        simp only [isDigit, decide_eq_false_iff_not]; omega
      simp [this]
  | cons x l ih =>
    have h1 := hl x (List.mem_cons_self ..)
    have h2 := ih fun c hc => hl c (List.mem_cons_of_mem _ hc)
    simp [h1, h2.1, h2.2]

theorem readU_dec {n : Nat} (hn : n < 2 ^ 32) (r : Str) (hr : Ends r) : readU (dec n ++ r) = some (n, r) := by
  obtain ⟨x, l, hx⟩ := List.exists_cons_of_ne_nil (dec_ne n)
  have hd := dec_digit n x (by rw [hx]; exact List.mem_cons_self ..)
  simp only [isDigit, decide_eq_true_eq] at hd
  have h1 : (dec n ++ r).dropWhile isSpace = dec n ++ r := by
    rw [hx]
    have : isSpace x = false := by simp only [isSpace, decide_eq_false_iff_not]; omega
    simp [this]
  have h2 : sign (dec n ++ r) = (false, dec n ++ r) := by
    rw [hx]
    simp only [List.cons_append]
    unfold sign
    split
    · rename_i h; simp only [List.cons.injEq] at h; omega
    · rename_i h; simp only [List.cons.injEq] at h; omega
    · rfl
  have h3 := take_drop (dec n) r (dec_digit n) hr
  unfold readU
  simp only [h1, h2, h3.1, h3.2, dec_value, if_neg (dec_ne n)]
  have : convert false n = n := by
    unfold convert
    rw [if_neg (by omega), if_neg (by decide)]
    exact Nat.mod_eq_of_lt hn
  rw [this]

theorem ends_dot (r : Str) : Ends (46 :: r) := by
  intro x hx; simp only [List.head?_cons, Option.some.injEq] at hx; subst hx; decide

theorem scan_cons {n : Nat} (hn : n < 2 ^ 32) (c : Nat) (hc : isDigit c = false) (cs : List Nat) (r : Str) :
    scan (c :: cs) (dec n ++ c :: r) = n :: scan cs r := by
  have he : Ends (c :: r) := by
    intro x hx; simp only [List.head?_cons, Option.some.injEq] at hx; simp only [isDigit, decide_eq_false_iff_not] at hc; omega
  rw [scan, readU_dec hn _ he]
  simp only [lit, if_true]

theorem scan_last {n : Nat} (hn : n < 2 ^ 32) (r : Str) (hr : Ends r) :
    scan [45] (dec n ++ r) = [n] ∨ ∃ d, scan [45] (dec n ++ r) = [n, d] := by
  rw [scan, readU_dec hn _ hr]
  dsimp only
  cases lit 45 r with
  | none => exact .inl rfl
  | some r =>
    dsimp only
    rw [scan]
    cases readU r with
    | none => exact .inl rfl
    | some d => exact .inr ⟨d.1, rfl⟩

/-- Every release of three numbers is read as these numbers, whatever follows. -/
theorem C129_read {a b c : Nat} (ha : a < 2 ^ 32) (hb : b < 2 ^ 32) (hc : c < 2 ^ 32) (rest : Str) (hr : Ends rest) :
    ∃ v, getVersion (release a b c rest) = some v ∧ v.kernel = a ∧ v.major = b ∧ v.minor = c := by
  unfold getVersion release
  rw [scan_cons ha 46 (by decide), scan_cons hb 46 (by decide)]
  rcases scan_last hc rest hr with h | ⟨d, h⟩
  · rw [h]; exact ⟨⟨a, b, c, none⟩, rfl, rfl, rfl, rfl⟩
  · rw [h]; exact ⟨⟨a, b, c, some d⟩, rfl, rfl, rfl, rfl⟩

/-- The fourth number is read if one follows after a dash. -/
theorem C129_read_patch {a b c d : Nat} (ha : a < 2 ^ 32) (hb : b < 2 ^ 32) (hc : c < 2 ^ 32) (hd : d < 2 ^ 32) (rest : Str) (hr : Ends rest) :
    getVersion (release a b c (45 :: (dec d ++ rest))) = some ⟨a, b, c, some d⟩ := by
  unfold getVersion release
  rw [scan_cons ha 46 (by decide), scan_cons hb 46 (by decide), scan_cons hc 45 (by decide), scan, readU_dec hd _ hr]

/-- A release of two numbers, not continued by a dot, stops the process. -/
theorem C129_two_numbers {a b : Nat} (ha : a < 2 ^ 32) (hb : b < 2 ^ 32) (rest : Str) (hr : Ends rest) (hd : rest.head? ≠ some 46)
    (size : Nat) (again : Bool) :
    getVersion (dec a ++ 46 :: (dec b ++ rest)) = none ∧ initRing size again (dec a ++ 46 :: (dec b ++ rest)) = none := by
  have h : getVersion (dec a ++ 46 :: (dec b ++ rest)) = none := by
    unfold getVersion
    rw [scan_cons ha 46 (by decide), scan, readU_dec hb _ hr]
    have : lit 46 rest = none := by
      cases rest with
      | nil => rfl
      | cons x r => simp only [lit]; rw [if_neg]; intro e; exact hd (by rw [e]; rfl)
    simp only [this]
  refine ⟨h, ?_⟩
  unfold initRing
  rw [h]
  split
  · rfl
  · split
    · rfl
    · split <;> rfl

/-- `n & (n - 1) = 0` for `n ≥ 8` says that `n` is a power of two. -/
theorem pow2 {n : Nat} (h8 : 8 ≤ n) (h : n < 2 ^ 64) : n &&& (pred64 n) = 0 ↔ ∃ k, n = 2 ^ k := by
  have e : pred64 n = n - 1 := by unfold pred64; omega
  rw [e, Nat.and_sub_one_eq_zero_iff_isPowerOfTwo (by omega)]
  rfl

/-- Init goes through exactly for rings whose size is a power of two and at least 8, once, on kernel 5.8 or newer. -/
theorem C129_accepts {a b c : Nat} (ha : a < 2 ^ 32) (hb : b < 2 ^ 32) (hc : c < 2 ^ 32) (rest : Str) (hr : Ends rest) (size : Nat) (hs : size < 2 ^ 64)
    (again : Bool) : (initRing size again (release a b c rest)).isSome = true ↔
      (∃ k, size = 2 ^ k) ∧ 8 ≤ size ∧ again = false ∧ Since 5 8 a b := by
  obtain ⟨v, hv, rfl, rfl, rfl⟩ := C129_read ha hb hc rest hr
  unfold initRing
  rw [hv]
  by_cases h8 : 8 ≤ size
  · by_cases h2 : size &&& (pred64 size) = 0
    · rw [if_neg (by simpa using h2), if_neg (by omega)]
      have h2 := (pow2 h8 hs).1 h2
      cases again
      · simp only [Bool.false_eq_true, if_false]
        unfold Since
        split
        · simp only [Option.isSome_some, true_iff]; exact ⟨h2, h8, trivial, by omega⟩
        · simp only [Option.isSome_none, Bool.false_eq_true, false_iff]; intro h; omega
      · simp
    · rw [if_pos h2]
      have : ¬ ∃ k, size = 2 ^ k := fun h => h2 ((pow2 h8 hs).2 h)
      simp [this]
  · have : (if size &&& (pred64 size) ≠ 0 then (none : Option (List Feature))
        else if size < 8 then none else if again = true then none
        else match some v with | none => none | some v => if v.kernel > 5 ∨ (v.kernel = 5 ∧ v.major ≥ 8) then some (features v) else none) = none := by
      split
      · rfl
      · rw [if_pos (by omega)]
    rw [this]
    simp; omega

/-- What Init uses is there in that kernel, and the kernel takes the combination of flags. -/
theorem C129_supported {a b c : Nat} (ha : a < 2 ^ 32) (hb : b < 2 ^ 32) (hc : c < 2 ^ 32) (rest : Str) (hr : Ends rest) (size : Nat) (again : Bool)
    (l : List Feature) (h : initRing size again (release a b c rest) = some l) :
    (∀ f ∈ l, Since (firstWith f).1 (firstWith f).2 a b) ∧ Coherent l := by
  obtain ⟨v, hv, rfl, rfl, rfl⟩ := C129_read ha hb hc rest hr
  unfold initRing at h
  rw [hv] at h
  split at h
  · cases h
  split at h
  · cases h
  split at h
  · cases h
  simp only [] at h
  split at h
  · cases h
    constructor
    · intro f hf
      unfold features at hf
      simp only [List.mem_append] at hf
      unfold Since
      rcases hf with ((hf | hf) | hf) | hf
      all_goals
        split at hf
        · simp only [List.mem_cons, List.not_mem_nil, or_false] at hf
          first
          | (rcases hf with rfl | rfl | rfl | rfl <;> (simp only [firstWith]; omega))
          | (subst hf; simp only [firstWith]; omega)
        · simp at hf
    · unfold Coherent features
      constructor
      · intro hm
        by_cases h6 : v.kernel > 6 ∨ (v.kernel = 6 ∧ v.major ≥ 1)
        · simp [h6]
        · exfalso
          rw [if_neg h6] at hm
          simp only [List.mem_append] at hm
          rcases hm with ((hm | hm) | hm) | hm <;> (try split at hm) <;> simp at hm
      · intro hm
        by_cases h6 : v.kernel > 6 ∨ (v.kernel = 6 ∧ v.major ≥ 1)
        · simp [h6]
        · exfalso
          rw [if_neg h6] at hm
          simp only [List.mem_append] at hm
          rcases hm with ((hm | hm) | hm) | hm <;> (try split at hm) <;> simp at hm
  · cases h

/-- A newer kernel gets everything that an older one gets. -/
theorem C129_newer {v w : Ver} (h : Since v.kernel v.major w.kernel w.major) : ∀ f ∈ features v, f ∈ features w := by
  intro f hf
  unfold Since at h
  unfold features at hf ⊢
  simp only [List.mem_append] at hf ⊢
  rcases hf with ((hf | hf) | hf) | hf
  · split at hf
    · rename_i hc
      rw [if_pos (by omega)]; exact .inl (.inl (.inl hf))
    · simp at hf
  · split at hf
    · rename_i hc
      rw [if_pos (c := w.kernel > 6 ∨ (w.kernel = 6 ∧ w.major ≥ 1)) (by omega)]; exact .inl (.inl (.inr hf))
    · simp at hf
  · split at hf
    · rename_i hc
      rw [if_pos (c := w.kernel > 6 ∨ (w.kernel = 6 ∧ w.major ≥ 14)) (by omega)]; exact .inl (.inr hf)
    · simp at hf
  · split at hf
    · rename_i hc
      rw [if_pos (c := w.kernel ≥ 6) (by omega)]; exact .inr hf
    · simp at hf

/-- The characters of a literal. -/
def str (s : String) : Str := s.toList.map Char.toNat

/-- "6.18.44-fc" gets everything, "5.15.0-91-generic" nothing new, "5.19.17" the first group; 5.4 is refused, and so
are rings of 100 and of 4 entries. -/
theorem C129_case :
    (initRing 512 false (str "6.18.44-fc") = some [.submitAll, .pollFirst, .bufRing, .directFds, .deferTaskrun, .coopTaskrun, .taskrunFlag,
      .singleIssuer, .incrementalBufRing, .ringFd]) ∧
    getVersion (str "5.15.0-91-generic") = some ⟨5, 15, 0, some 91⟩ ∧
    initRing 512 false (str "5.15.0-91-generic") = some [] ∧
    initRing 8 false (str "5.19.17") = some [.submitAll, .pollFirst, .bufRing, .directFds] ∧
    initRing 512 false (str "5.4.0") = none ∧ initRing 100 false (str "6.18.44") = none ∧
    initRing 4 false (str "6.18.44") = none := by
  refine ⟨by decide +kernel, by decide +kernel, by decide +kernel, by decide +kernel, by decide +kernel, by decide +kernel, by decide +kernel⟩

/-- The first of them has the form that the theorems ask for. -/
theorem C129_case_form : str "6.18.44-fc" = release 6 18 44 [45, 102, 99] ∧ Ends [45, 102, 99] := by
  constructor
  · have h6 : dec 6 = [54] := by unfold dec; rfl
    have h18 : dec 18 = [49, 56] := by unfold dec; simp; unfold dec; rfl
    have h44 : dec 44 = [52, 52] := by unfold dec; simp; unfold dec; rfl
    unfold release
    rw [h6, h18, h44]
    decide +kernel
  · intro x hx; simp only [List.head?_cons, Option.some.injEq] at hx; subst hx; decide

end Verif.Kernel
