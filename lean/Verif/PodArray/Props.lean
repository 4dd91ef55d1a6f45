import Verif.PodArray.Lemmas

/-!
# C39: the POD array behaves like a growable array
-/
namespace Verif.PodArray

/-- **C39 (partial: element sizes that are powers of two).** After any sequence of allowed operations no
write has left the array's memory, the array has the size and the elements of the list obtained by the
same operations, and destroying it gives the memory back to the resource it came from. -/
theorem C39_array_partial (c : Cfg) (hk : ∃ j, c.k = 2 ^ j) (mr : Nat) (ops : List Op) (l : Spec)
    (h : specRun c.k [] ops = some l) :
    ∃ s, run c (init mr) ops = some s ∧ Holds c s l := by
  have g : Good c := ⟨hk⟩
  obtain ⟨s, e, r, _⟩ := run_R g ops (init_R c mr) h
  exact ⟨s, e, r.holds g.pos⟩

/-- Four-byte elements; fresh memory is full of 170s. -/
def cfg4 : Cfg := ⟨4, 16, fun _ => 170⟩

example : specRun cfg4.k [] [.push [1, 0, 0, 0], .resize 3, .insert 1 [[2, 0, 0, 0], [3, 0, 0, 0]], .pop,
    .append [[7, 7, 7, 7]]]
    = some [some [1, 0, 0, 0], some [2, 0, 0, 0], some [3, 0, 0, 0], none, some [7, 7, 7, 7]] := by
  decide

/-- Reserved room is there: after `reserve(n)` up to `n` elements fit, and the elements have not
changed. -/
theorem C39_reserve_partial (c : Cfg) (hk : ∃ j, c.k = 2 ^ j) (mr : Nat) (ops : List Op) (l : Spec)
    (h : specRun c.k [] ops = some l) (n : Nat) :
    ∃ s s', run c (init mr) ops = some s ∧ reserve c s n = some s' ∧ n ≤ capacity c s' ∧ Holds c s' l := by
  have g : Good c := ⟨hk⟩
  obtain ⟨s, e, r, _⟩ := run_R g ops (init_R c mr) h
  obtain ⟨s', e1, r1, _, e2, _⟩ := reserve_R g r n
  refine ⟨s, s', e, e1, ?_, r1.holds g.pos⟩
  unfold capacity
  exact (Nat.le_div_iff_mul_le g.pos).2 e2

/-- Pushing the same element a number of times. -/
def pushes (n : Nat) (x : List Nat) : List Op := List.replicate n (.push x)

theorem specRun_pushes (k : Nat) (x : List Nat) (hx : x.length = k) : ∀ (n : Nat) (l : Spec),
    specRun k l (pushes n x) = some (l ++ List.replicate n (some x))
  | 0, l => by simp [pushes, specRun]
  | n + 1, l => by
    have := specRun_pushes k x hx n (l ++ [some x])
    simp only [pushes] at this
    simp only [pushes, List.replicate_succ, specRun, specStep, hx, if_true, this]
    simp

theorem run_append (c : Cfg) : ∀ (a b : List Op) (s : St),
    run c s (a ++ b) = (run c s a).bind (fun s' => run c s' b)
  | [], b, s => by simp [run]
  | o :: a, b, s => by
    simp only [List.cons_append, run]
    cases step c s o with
    | none => rfl
    | some s1 => simp only [run_append c a b s1]

/-- While the first block has room the pushes fill it. -/
theorem pushes_fill (c : Cfg) (mr : Nat) (x : List Nat) (hx : x.length = c.k) (hk : 0 < c.k)
    (hnd : ¬ c.k ∣ bitCeil (max c.A (minMem c 1))) :
    ∀ n, 0 < n → n * c.k ≤ bitCeil (max c.A (minMem c 1)) →
      ∃ s, run c (init mr) (pushes n x) = some s ∧ s.len = n * c.k ∧
        allocated s = bitCeil (max c.A (minMem c 1)) ∧ ∃ o mem, s.blk = some (o, mem) := by
  intro n
  induction n with
  | zero => intro h; omega
  | succ n ih =>
    intro _ hle
    rw [Nat.succ_mul] at hle
    have hp : pushes (n + 1) x = pushes n x ++ [.push x] := by
      simp [pushes, List.replicate_succ']
    by_cases hn : n = 0
    · subst hn
      have hf : 0 + x.length ≤ (fresh c (bitCeil (max c.A (minMem c 1)))).length := by
        rw [fresh_length]; omega
      refine ⟨⟨some (mr, (fresh c (bitCeil (max c.A (minMem c 1)))).take 0 ++ x ++
          (fresh c (bitCeil (max c.A (minMem c 1)))).drop (0 + x.length)), 0 + c.k, mr⟩, by
        simp only [pushes, List.replicate, run, step, pushBack, init, allocated, if_true, grow, alloc, write, if_pos hf], ?_, ?_, _, _, rfl⟩
      · simp
      · simp only [allocated, List.length_append, List.length_take, List.length_drop, fresh_length]
        rw [fresh_length] at hf
        omega
    · obtain ⟨s, e, e1, e2, o, mem, e3⟩ := ih (by omega) (by omega)
      have hne : s.len ≠ allocated s := by
        rw [e1, e2]
        intro he
        exact hnd ⟨n, by rw [← he, Nat.mul_comm]⟩
      have hm : mem.length = allocated s := by simp [allocated, e3]
      have hf : s.len + x.length ≤ mem.length := by omega
      rw [hp, run_append, e]
      refine ⟨⟨some (o, mem.take s.len ++ x ++ mem.drop (s.len + x.length)), s.len + c.k, s.mr⟩, by
        simp only [Option.bind_some, run, step, pushBack, if_neg hne, write, e3, if_pos hf], ?_, ?_, _, _, rfl⟩
      · simp only [e1, Nat.succ_mul]
      · simp only [allocated, List.length_append, List.length_take, List.length_drop]
        omega

/-- A divisor of a power of two is a power of two. -/
theorem pow_of_dvd_pow : ∀ (e k : Nat), k ∣ 2 ^ e → ∃ j, k = 2 ^ j
  | 0, k, h => ⟨0, by simpa using h⟩
  | e + 1, k, h => by
    by_cases hk : 2 ∣ k
    · obtain ⟨m, rfl⟩ := hk
      obtain ⟨j, hj⟩ := pow_of_dvd_pow e m (by
        rw [Nat.pow_succ, Nat.mul_comm (2 ^ e)] at h
        exact Nat.dvd_of_mul_dvd_mul_left (by omega) h)
      exact ⟨j + 1, by rw [hj, Nat.pow_succ, Nat.mul_comm]⟩
    · have hc : Nat.Coprime k 2 := by
        have h2 : k % 2 = 1 := by omega
        have : Nat.gcd k 2 ∣ 2 := Nat.gcd_dvd_right _ _
        have h3 : Nat.gcd k 2 ∣ k := Nat.gcd_dvd_left _ _
        have h4 : Nat.gcd k 2 ≤ 2 := Nat.le_of_dvd (by omega) this
        have h5 : 0 < Nat.gcd k 2 := Nat.gcd_pos_of_pos_right _ (by omega)
        have h6 : Nat.gcd k 2 ≠ 2 := fun e => hk (e ▸ h3)
        show Nat.gcd k 2 = 1
        omega
      rw [Nat.pow_succ] at h
      exact pow_of_dvd_pow e k (hc.dvd_of_dvd_mul_right h)

/-- **C39 is false for every other element size.** If `sizeof(T)` is not a power of two, then some number
of `push_back` calls on an empty array writes outside the array's memory: the end of the last element
never meets the end of the block, so the array does not grow. -/
theorem C39_other_sizes_overflow (c : Cfg) (hk : 0 < c.k) (hn : ¬ ∃ j, c.k = 2 ^ j) (mr : Nat)
    (x : List Nat) (hx : x.length = c.k) :
    ∃ n, (specRun c.k [] (pushes n x)).isSome ∧ run c (init mr) (pushes n x) = none := by
  have hnd : ¬ c.k ∣ bitCeil (max c.A (minMem c 1)) := by
    intro h
    obtain ⟨e, he⟩ := bitCeil_pow (max c.A (minMem c 1))
    rw [he] at h
    exact hn (pow_of_dvd_pow e _ h)
  have hM : c.k ≤ bitCeil (max c.A (minMem c 1)) := by
    have := le_bitCeil (max c.A (minMem c 1))
    have := minMem_ge c 1
    omega
  have hpos : 0 < bitCeil (max c.A (minMem c 1)) / c.k := Nat.div_pos hM hk
  obtain ⟨s, e, e1, e2, o, mem, e3⟩ := pushes_fill c mr x hx hk hnd (bitCeil (max c.A (minMem c 1)) / c.k)
    hpos (Nat.div_mul_le_self _ _)
  have hlt : bitCeil (max c.A (minMem c 1)) < (bitCeil (max c.A (minMem c 1)) / c.k + 1) * c.k := by
    rw [Nat.mul_comm]; exact Nat.lt_mul_div_succ _ hk
  refine ⟨bitCeil (max c.A (minMem c 1)) / c.k + 1, ?_, ?_⟩
  · rw [specRun_pushes _ _ hx]; rfl
  · have hp : pushes (bitCeil (max c.A (minMem c 1)) / c.k + 1) x
        = pushes (bitCeil (max c.A (minMem c 1)) / c.k) x ++ [.push x] := by
      simp [pushes, List.replicate_succ']
    have hne : s.len ≠ allocated s := by
      rw [e1, e2]
      intro he
      exact hnd ⟨_, by rw [Nat.mul_comm]; exact he.symm⟩
    have hm : mem.length = allocated s := by simp [allocated, e3]
    rw [Nat.succ_mul] at hlt
    have hf : ¬ s.len + x.length ≤ mem.length := by omega
    have hx0 : x ≠ [] := by intro e0; rw [e0] at hx; simp at hx; omega
    rw [hp, run_append, e]
    simp only [Option.bind_some, run, step, pushBack, if_neg hne, write, e3, if_neg hf, if_neg hx0]

/-- For a 24-byte element the second `push_back` is already outside. -/
theorem C39_second_push_overflows (junk : Nat → Nat) :
    run ⟨24, 16, junk⟩ (init 0) (pushes 2 (List.replicate 24 0)) = none := by
  have h : ∀ f : Nat → Nat, run ⟨24, 16, f⟩ (init 0) (pushes 2 (List.replicate 24 0)) = none := by
    intro f
    have h1 : bitCeil (max 16 (minMem ⟨24, 16, f⟩ 1)) = 32 := by simp only [minMem]; decide
    simp [pushes, List.replicate, run, step, pushBack, init, allocated, grow, alloc, write, h1, fresh_length]
  exact h junk

/-- The three allocating constructors make an array in a good state. -/
theorem ctors_R {c : Cfg} (g : Good c) (mr n : Nat) (x : List Nat)
    (xs : List (List Nat)) (hx : x.length = c.k) (hxs : sized c.k xs) (hn : 0 < n ∨ c.k ≤ c.A)
    (hl : xs ≠ [] ∨ c.k ≤ c.A) :
    R c (ctorN c mr n) (List.replicate n none) ∧
    (∃ s, ctorFill c mr n x = some s ∧ R c s (List.replicate n (some x))) ∧
    (∃ s, ctorRange c mr xs = some s ∧ R c s (xs.map some)) := by
  have base : ∀ m, 0 < m ∨ c.k ≤ c.A → R c (alloc c (init mr) (minMem c m)) [] ∧
      m * c.k ≤ allocated (alloc c (init mr) (minMem c m)) := by
    intro m hm
    have h1 : c.k ≤ minMem c m := by
      unfold minMem
      rcases hm with hm | hm
      · have := Nat.le_mul_of_pos_left c.k hm; omega
      · omega
    obtain ⟨s, e, r, _, e2, _⟩ := realloc_R g (init_R c mr) (b := minMem c m) h1 (by simp [init])
    have : s = alloc c (init mr) (minMem c m) := by simpa [realloc, init] using e.symm
    rw [← this]
    exact ⟨r, Nat.le_trans (minMem_ge c m) e2⟩
  refine ⟨?_, ?_, ?_⟩
  · obtain ⟨r, hf⟩ := base n hn
    have := setLen_R r n hf
    simpa [setLen, ctorN] using this
  · obtain ⟨r, _⟩ := base n hn
    obtain ⟨s, e, r', _⟩ := step_R g r (.assignN n x) (l' := List.replicate n (some x)) (by simp [specStep, hx])
    exact ⟨s, e, r'⟩
  · obtain ⟨r, _⟩ := base xs.length (by
      rcases hl with h | h
      · exact .inl (List.length_pos_iff.2 h)
      · exact .inr h)
    obtain ⟨s, e, r', _⟩ := step_R g r (.append xs) (l' := xs.map some) (by simp [specStep, hxs])
    exact ⟨s, e, r'⟩

/-- **The constructor `PODArray(n, mr)`** makes an array of `n` unspecified elements on which every
sequence of operations works, unless `n = 0` and an element is larger than the alignment. -/
theorem C39_ctor_size_partial (c : Cfg) (hk : ∃ j, c.k = 2 ^ j) (mr n : Nat) (hn : 0 < n ∨ c.k ≤ c.A)
    (ops : List Op) (l : Spec) (h : specRun c.k (List.replicate n none) ops = some l) :
    ∃ s, run c (ctorN c mr n) ops = some s ∧ Holds c s l := by
  have g : Good c := ⟨hk⟩
  have r := (ctors_R g mr n (List.replicate c.k 0) [List.replicate c.k 0] (by simp) (by intro y hy; simp at hy; simp [hy]) hn
    (.inl (by simp))).1
  obtain ⟨s, e, r', _⟩ := run_R g ops r h
  exact ⟨s, e, r'.holds g.pos⟩

/-- **The constructor `PODArray(n, x, mr)`**: `n` copies of `x`. -/
theorem C39_ctor_fill_partial (c : Cfg) (hk : ∃ j, c.k = 2 ^ j) (mr n : Nat) (hn : 0 < n ∨ c.k ≤ c.A)
    (x : List Nat) (hx : x.length = c.k)
    (ops : List Op) (l : Spec) (h : specRun c.k (List.replicate n (some x)) ops = some l) :
    ∃ s0 s, ctorFill c mr n x = some s0 ∧ run c s0 ops = some s ∧ Holds c s l := by
  have g : Good c := ⟨hk⟩
  obtain ⟨s0, e0, r⟩ := (ctors_R g mr n x [x] hx (by intro y hy; simp at hy; simp [hy, hx]) hn
    (.inl (by simp))).2.1
  obtain ⟨s, e, r', _⟩ := run_R g ops r h
  exact ⟨s0, s, e0, e, r'.holds g.pos⟩

/-- **The constructor `PODArray(from_begin, from_end, mr)`**: a copy of the range. -/
theorem C39_ctor_range_partial (c : Cfg) (hk : ∃ j, c.k = 2 ^ j) (mr : Nat) (xs : List (List Nat))
    (hxs : sized c.k xs) (hl : xs ≠ [] ∨ c.k ≤ c.A)
    (ops : List Op) (l : Spec) (h : specRun c.k (xs.map some) ops = some l) :
    ∃ s0 s, ctorRange c mr xs = some s0 ∧ run c s0 ops = some s ∧ Holds c s l := by
  have g : Good c := ⟨hk⟩
  obtain ⟨s0, e0, r⟩ := (ctors_R g mr 1 (List.replicate c.k 0) xs (by simp) hxs (.inl (by simp)) hl).2.2
  obtain ⟨s, e, r', _⟩ := run_R g ops r h
  exact ⟨s0, s, e0, e, r'.holds g.pos⟩

example : sized 4 [[1, 2, 3, 4]] ∧ (0 < 1 ∨ (4 : Nat) ≤ 16) ∧
    specRun 4 ([[1, 2, 3, 4]].map some) [.push [5, 6, 7, 8], .pop, .push [9, 9, 9, 9]]
      = some [some [1, 2, 3, 4], some [9, 9, 9, 9]] := by decide

/-- **Otherwise the first `push_back` is outside the memory**: an array of 32-byte elements constructed
with no elements owns 16 bytes, is not full, and does not grow. -/
theorem C39_empty_ctor_overflows (junk : Nat → Nat) :
    pushBack ⟨32, 16, junk⟩ (ctorN ⟨32, 16, junk⟩ 0 0) (List.replicate 32 0) = none := by
  have h1 : bitCeil (minMem ⟨32, 16, junk⟩ 0) = 16 := by simp only [minMem]; decide
  simp [pushBack, ctorN, alloc, h1, allocated, fresh_length, init, write]

/-- **The one-argument `resize_fill` does not zero the new elements**: it clears as many bytes as there
are new elements. Here the second element keeps the old contents of the memory. -/
theorem C39_base_resize_fill_refuted :
    ∃ s, baseResizeFill cfg4 (init 0) 2 = some s ∧ size cfg4 s = 2 ∧ get cfg4 s 1 = [170, 170, 170, 170] := by
  refine ⟨_, rfl, ?_, ?_⟩ <;> decide

/-- For one-byte elements it does. -/
theorem C39_base_resize_fill_bytes (c : Cfg) (hk : c.k = 1) (mr : Nat) (ops : List Op) (l : Spec)
    (h : specRun c.k [] ops = some l) (n : Nat) :
    ∃ s s', run c (init mr) ops = some s ∧ baseResizeFill c s n = some s' ∧
      Holds c s' (setLen n (some [0]) l) := by
  have g : Good c := ⟨0, hk⟩
  obtain ⟨s, e, r, _⟩ := run_R g ops (init_R c mr) h
  obtain ⟨s', e1, r1, _⟩ := step_R g r (.fill n [0]) (l' := setLen n (some [0]) l) (by simp [specStep, hk])
  refine ⟨s, s', e, ?_, r1.holds g.pos⟩
  have hb : ∀ m, bytes (List.replicate m [0]) = List.replicate m 0 := by
    intro m
    induction m with
    | zero => rfl
    | succ m ih => simpa [bytes, List.replicate_succ] using ih
  simpa only [step, resizeFill, baseResizeFill, hb] using e1

/-- **Moving keeps the elements.** The new array has them and the old one is empty. -/
theorem C39_move_elements (c : Cfg) (s : St) :
    (moveCtor s).1.len = s.len ∧ (∀ i, get c (moveCtor s).1 i = get c s i) ∧
    size c (moveCtor s).2 = 0 ∧ (s.mr = 0 → (moveCtor s).1 = s) := by
  refine ⟨rfl, fun _ => rfl, by simp [moveCtor, size], ?_⟩
  intro h
  cases s
  simp_all [moveCtor]

/-- **But the move constructor loses the memory resource**: an array whose elements live in resource 1
moved into a new one is given back to the default resource 0. -/
theorem C39_move_wrong_resource :
    ∃ s, run cfg4 (init 1) [.push [1, 2, 3, 4]] = some s ∧ destroy s = some () ∧
      destroy (moveCtor s).1 = none := by
  refine ⟨_, rfl, ?_, ?_⟩ <;> decide

end Verif.PodArray
