import Verif.Iter.Spec
/-!
# C118: range adapters
-/
namespace Verif.Iter

theorem loop_array {α : Type} (l : List α) : ∀ (m : Nat) (i : Nat), i + m = l.length → forLoop (array l) (m + 1) i l.length = some (l.drop i)
  | 0, i, h => by
    have : i = l.length := by omega
    subst this
    simp [forLoop, array]
  | m + 1, i, h => by
    have hi : i < l.length := by omega
    have hne : ((array l).eq i l.length) = false := by simp [array]; omega
    have hd : (array l).deref i = some (l[i], i) := by simp [array, hi]
    have ih := loop_array l m (i + 1) (by omega)
    rw [forLoop, hne, hd]
    show ((forLoop (array l) (m + 1) (i + 1) l.length).map (l[i] :: ·)) = _
    rw [ih]
    simp

theorem loop_compound {σ φ α β : Type} (f : φ → α → β × φ) (k : Kind σ α) (last : σ) : ∀ (n : Nat) (q : φ) (it : σ) (l : List α),
    forLoop k n it last = some l → forLoop (compound f k) n (some q, it) (none, last) = some (results f q l)
  | 0, _, _, _, h => by cases h
  | n + 1, q, it, l, h => by
    rw [forLoop] at h ⊢
    have he : (compound f k).eq (some q, it) (none, last) = k.eq it last := rfl
    rw [he]
    split
    · rename_i hc
      rw [if_pos hc] at h
      cases h; rfl
    · rename_i hc
      rw [if_neg hc] at h
      cases hd : k.deref it with
      | none => rw [hd] at h; cases h
      | some r =>
        obtain ⟨x, it'⟩ := r
        rw [hd] at h
        simp only [Option.map_eq_some_iff] at h
        obtain ⟨l', hl, rfl⟩ := h
        have ih := loop_compound f k last n (f q x).2 (k.next it') l' hl
        have hd' : (compound f k).deref (some q, it) = some ((f q x).1, some (f q x).2, it') := by simp [compound, hd]
        have hn : (compound f k).next (some (f q x).2, it') = (some (f q x).2, k.next it') := rfl
        rw [hd']
        show ((forLoop (compound f k) n ((compound f k).next (some (f q x).2, it')) (none, last)).map _) = _
        rw [hn, ih]
        rfl

theorem loop_inl {σ τ β : Type} (k : Kind σ β) (m : Kind τ β) (last : σ) : ∀ (n : Nat) (it : σ) (l : List β),
    forLoop k n it last = some l → forLoop (either k m) n (.inl it) (.inl last) = some l
  | 0, _, _, h => by cases h
  | n + 1, it, l, h => by
    rw [forLoop] at h ⊢
    have he : (either k m).eq (.inl it) (.inl last) = k.eq it last := rfl
    rw [he]
    split
    · rename_i hc
      rw [if_pos hc] at h
      exact h
    · rename_i hc
      rw [if_neg hc] at h
      cases hd : k.deref it with
      | none => rw [hd] at h; cases h
      | some r =>
        obtain ⟨x, it'⟩ := r
        rw [hd] at h
        simp only [Option.map_eq_some_iff] at h
        obtain ⟨l', hl, rfl⟩ := h
        have ih := loop_inl k m last n (k.next it') l' hl
        have hd' : (either k m).deref (.inl it) = some (x, .inl it') := by simp [either, hd]
        rw [hd']
        show ((forLoop (either k m) n (.inl (k.next it')) (.inl last)).map _) = _
        rw [ih]
        rfl

theorem loop_inr {σ τ β : Type} (k : Kind σ β) (m : Kind τ β) (last : τ) : ∀ (n : Nat) (it : τ) (l : List β),
    forLoop m n it last = some l → forLoop (either k m) n (.inr it) (.inr last) = some l
  | 0, _, _, h => by cases h
  | n + 1, it, l, h => by
    rw [forLoop] at h ⊢
    have he : (either k m).eq (.inr it) (.inr last) = m.eq it last := rfl
    rw [he]
    split
    · rename_i hc
      rw [if_pos hc] at h
      exact h
    · rename_i hc
      rw [if_neg hc] at h
      cases hd : m.deref it with
      | none => rw [hd] at h; cases h
      | some r =>
        obtain ⟨x, it'⟩ := r
        rw [hd] at h
        simp only [Option.map_eq_some_iff] at h
        obtain ⟨l', hl, rfl⟩ := h
        have ih := loop_inr k m last n (m.next it') l' hl
        have hd' : (either k m).deref (.inr it) = some (x, .inr it') := by simp [either, hd]
        rw [hd']
        show ((forLoop (either k m) n (.inr (m.next it')) (.inr last)).map _) = _
        rw [ih]
        rfl

theorem results_pure {α β : Type} (g : α → β) : ∀ (l : List α) (u : Unit), results (pure' g) u l = l.map g
  | [], _ => rfl
  | x :: l, _ => by simp [results, pure', results_pure g l]

theorem results_indexed {α : Type} : ∀ (l : List α) (i : Nat), results indexed i l = (List.range' i l.length).zip l
  | [], _ => rfl
  | x :: l, i => by simp [results, indexed, results_indexed l (i + 1), List.range'_succ]

/-- A loop over an array sees its elements. -/
theorem C118_array {α : Type} (l : List α) : Yields (array l) (whole l) l :=
  ⟨l.length + 1, by have := loop_array l l.length 0 (by omega); simpa [whole] using this⟩

/-- A loop over `Transform(f, range)` sees the results of `f` on the values of the range, called once for each, from left to right; any
range will do, also one that comes from an adapter. -/
theorem C118_transform {σ φ α β : Type} (f : φ → α → β × φ) (k : Kind σ α) (r : Range σ) (q : φ) (l : List α) (h : Yields k r l) :
    Yields (compound f k) (transform q r) (results f q l) := by
  obtain ⟨n, h⟩ := h
  exact ⟨n, loop_compound f k r.last n q r.first l h⟩

/-- For a function without state this is `map`. -/
theorem C118_map {σ α β : Type} (g : α → β) (k : Kind σ α) (r : Range σ) (l : List α) (h : Yields k r l) :
    Yields (compound (pure' g) k) (transform () r) (l.map g) := by
  have := C118_transform (pure' g) k r () l h
  rwa [results_pure] at this

/-- A loop over `WithIndex(range)` sees the values of the range numbered from 0. -/
theorem C118_withIndex {σ α : Type} (k : Kind σ α) (r : Range σ) (l : List α) (h : Yields k r l) :
    Yields (compound indexed k) (withIndex r) ((List.range l.length).zip l) := by
  have := C118_transform indexed k r 0 l h
  rw [results_indexed] at this
  rw [List.range_eq_range']
  exact this

/-- A loop over `Wrap(f, containers)` sees the results of `f` on the values of the container that is held. -/
theorem C118_wrap {σ τ φ α β : Type} (f : φ → α → β × φ) (k : Kind σ α) (m : Kind τ α) (q : φ) (l : List α) :
    (∀ r, Yields k r l → Yields (compound f (either k m)) (wrap q (.inl r)) (results f q l)) ∧
    (∀ r, Yields m r l → Yields (compound f (either k m)) (wrap q (.inr r)) (results f q l)) :=
  ⟨fun r ⟨n, h⟩ => ⟨n, loop_compound f _ _ n q _ l (loop_inl k m r.last n r.first l h)⟩,
   fun r ⟨n, h⟩ => ⟨n, loop_compound f _ _ n q _ l (loop_inr k m r.last n r.first l h)⟩⟩

/-- What a loop sees is determined: more rounds do not change it. -/
theorem C118_unique {σ β : Type} (k : Kind σ β) (r : Range σ) (l l' : List β) (h : Yields k r l) (h' : Yields k r l') : l = l' := by
  have mono : ∀ (n : Nat) (it : σ) (l : List β), forLoop k n it r.last = some l → ∀ d, forLoop k (n + d) it r.last = some l := by
    intro n
    induction n with
    | zero => intro it l h; cases h
    | succ n ih =>
      intro it l h d
      have e : n + 1 + d = (n + d) + 1 := by omega
      rw [e]
      rw [forLoop] at h ⊢
      split
      · rename_i hc; rw [if_pos hc] at h; exact h
      · rename_i hc
        rw [if_neg hc] at h
        cases hd : k.deref it with
        | none => rw [hd] at h; cases h
        | some p =>
          obtain ⟨x, it'⟩ := p
          rw [hd] at h
          simp only [Option.map_eq_some_iff] at h
          obtain ⟨l2, hl, rfl⟩ := h
          show (forLoop k (n + d) (k.next it') r.last).map (x :: ·) = _
          rw [ih _ _ hl d]; rfl
  obtain ⟨n, h⟩ := h
  obtain ⟨m, h'⟩ := h'
  have a := mono n r.first l h m
  have b := mono m r.first l' h' n
  rw [Nat.add_comm] at b
  rw [a] at b
  cases b; rfl

/-- An iterator over an array through a function without state can be dereferenced again with the same result. -/
theorem C118_again {α β : Type} (g : α → β) (l : List α) (i : Nat) (h : i < l.length) :
    (compound (pure' g) (array l)).deref (some (), i) = some (g l[i], some (), i) := by
  simp [compound, array, pure', h]

/-- An iterator of `WithIndex` cannot: the index counts how often it was dereferenced, not where it is, although the type calls itself a forward
iterator. The second `*it` gives 1 with the same element; equal iterators give different values; after `++` without `*` the index lags. -/
theorem C118_index_drifts (α : Type) (x y : α) : ∃ it : Option Nat × Nat,
    it = (withIndex (whole [x, y])).first ∧
    (∃ it2, (compound indexed (array [x, y])).deref it = some ((0, x), it2) ∧ (compound indexed (array [x, y])).eq it it2 = true ∧
      ∃ it3, (compound indexed (array [x, y])).deref it2 = some ((1, x), it3)) ∧
    ∃ it4, (compound indexed (array [x, y])).deref ((compound indexed (array [x, y])).next it) = some ((0, y), it4) :=
  ⟨_, rfl, ⟨_, rfl, rfl, _, rfl⟩, _, rfl⟩

/-- Words with their numbers, and with numbers of the numbered. -/
example : Yields (compound indexed (array ["a", "b"])) (withIndex (whole ["a", "b"])) [(0, "a"), (1, "b")] := C118_withIndex _ _ _ (C118_array _)

example : Yields (compound indexed (compound (pure' String.length) (array ["a", "bc"]))) (withIndex (transform () (whole ["a", "bc"])))
    [(0, 1), (1, 2)] := C118_withIndex _ _ _ (C118_map _ _ _ _ (C118_array _))

end Verif.Iter
