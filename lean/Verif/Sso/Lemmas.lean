import Verif.Sso.Spec
/-! The invariant of the strings and their views. -/
namespace Verif.Sso
open Verif.Common

theorem upd_cases {β : Type} {f : Nat → Option β} {i j : Nat} {v : Option β} {x : β} (h : upd f i v j = some x) :
    (j = i ∧ v = some x) ∨ (j ≠ i ∧ f j = some x) := by
  unfold upd at h
  split at h
  · exact Or.inl ⟨by assumption, h⟩
  · exact Or.inr ⟨by assumption, h⟩

/-- What is known of one view. -/
structure Good (s : St) (e : Entry) : Prop where
  idlt : e.id < s.nextId
  size : e.v.size = e.len
  shows : ∀ a r, s.objs a = some (r, some e.id) → ∃ bs, content s r = some bs ∧ e.off + e.len ≤ bs.length ∧
    (e.v = .copied ((bs.drop e.off).take e.len) ∨ (cap < e.len ∧ ∃ b n, r = .heap b n ∧ e.v = .far (.inBlock b e.off) e.len))

structure Mem (s : St) : Prop where
  block : ∀ a b n i, s.objs a = some (.heap b n, i) → b < s.nextBlock ∧ ∃ bs, s.heap b = some bs ∧ n ≤ bs.length ∧ cap ≤ bs.length
  uniq : ∀ a a' b n n' i i', s.objs a = some (.heap b n, i) → s.objs a' = some (.heap b n', i') → a = a'
  short : ∀ a bs i, s.objs a = some (.loc bs, i) → bs.length ≤ cap
  idlt : ∀ a r i, s.objs a = some (r, some i) → i < s.nextId
  idone : ∀ a a' r r' i, s.objs a = some (r, some i) → s.objs a' = some (r', some i) → a = a'

structure Inv (s : St) : Prop where
  mem : Mem s
  good : ∀ e ∈ s.views, Good s e

theorem Good.mono {s s' : St} {e : Entry} (h : Good s e) (hn : s.nextId ≤ s'.nextId)
    (hr : ∀ a r, s'.objs a = some (r, some e.id) → ∃ a0, s.objs a0 = some (r, some e.id) ∧ content s' r = content s r) : Good s' e where
  idlt := Nat.lt_of_lt_of_le h.idlt hn
  size := h.size
  shows := by
    intro a r ha
    obtain ⟨a0, h0, hc⟩ := hr a r ha
    rw [hc]
    exact h.shows a0 r h0

theorem content_some {s : St} (h : Mem s) {a : Nat} {r : Rep} {i : Option Nat} (ha : s.objs a = some (r, i)) : ∃ bs, content s r = some bs := by
  cases r with
  | loc bs => exact ⟨bs, rfl⟩
  | heap b n =>
    obtain ⟨_, bs, hb, _⟩ := h.block a b n i ha
    exact ⟨bs.take n, by simp [content, hb]⟩

/-- Moving a string object into a place that has no block, or that gives its block away. -/
theorem inv_move {s : St} (hI : Inv s) {dst src : Nat} (hne : dst ≠ src) {r : Rep} {i : Option Nat} (hs : s.objs src = some (r, i))
    (left : Rep) (hl : left = .loc [] ∨ ∃ b n j, left = .heap b 0 ∧ s.objs dst = some (.heap b n, j)) 
    :
    Inv { s with objs := upd (upd s.objs dst (some (r, i))) src (some (left, none)) } := by
  have back : ∀ a r' i', upd (upd s.objs dst (some (r, i))) src (some (left, none)) a = some (r', i') →
      (a = src ∧ r' = left ∧ i' = none) ∨ (a = dst ∧ r' = r ∧ i' = i) ∨ (a ≠ src ∧ a ≠ dst ∧ s.objs a = some (r', i')) := by
    intro a r' i' h
    rcases upd_cases h with ⟨h1, h2⟩ | ⟨h1, h2⟩
    · cases h2; exact Or.inl ⟨h1, rfl, rfl⟩
    · rcases upd_cases h2 with ⟨h3, h4⟩ | ⟨h3, h4⟩
      · cases h4; exact Or.inr (Or.inl ⟨h3, rfl, rfl⟩)
      · exact Or.inr (Or.inr ⟨h1, h3, h4⟩)
  -- the address where it was before
  have src1 : ∀ a b n i', upd (upd s.objs dst (some (r, i))) src (some (left, none)) a = some (.heap b n, i') →
      ∃ a0 n0 j, s.objs a0 = some (.heap b n0, j) ∧ n ≤ n0 ∧ ((a = src ∧ a0 = dst) ∨ (a = dst ∧ a0 = src) ∨ (a ≠ src ∧ a ≠ dst ∧ a0 = a)) := by
    intro a b n i' h
    rcases back a _ _ h with ⟨h1, h2, h3⟩ | ⟨h1, h2, h3⟩ | ⟨h1, h2, h3⟩
    · rcases hl with h4 | ⟨b', n', j, h4, h5⟩
      · rw [h4] at h2; cases h2
      · rw [h4] at h2; cases h2
        exact ⟨dst, n', j, h5, Nat.zero_le _, Or.inl ⟨h1, rfl⟩⟩
    · subst h2
      exact ⟨src, n, i, hs, Nat.le_refl _, Or.inr (Or.inl ⟨h1, rfl⟩)⟩
    · exact ⟨a, n, i', h3, Nat.le_refl _, Or.inr (Or.inr ⟨h1, h2, rfl⟩)⟩
  refine ⟨⟨?_, ?_, ?_, ?_, ?_⟩, ?_⟩
  · intro a b n i' h
    obtain ⟨a0, n0, j, h0, hle, _⟩ := src1 a b n i' h
    obtain ⟨h1, bs, h2, h3, h4⟩ := hI.mem.block a0 b n0 j h0
    exact ⟨h1, bs, h2, Nat.le_trans hle h3, h4⟩
  · intro a a' b n n' i1 i2 h h'
    obtain ⟨a0, n0, j, h0, _, hx⟩ := src1 a b n i1 h
    obtain ⟨a1, n1, j1, h1, _, hy⟩ := src1 a' b n' i2 h'
    have := hI.mem.uniq a0 a1 b n0 n1 j j1 h0 h1
    omega
  · intro a bs i' h
    rcases back a _ _ h with ⟨_, h2, _⟩ | ⟨_, h2, _⟩ | ⟨_, _, h3⟩
    · rcases hl with h4 | ⟨b', n', j, h4, h5⟩
      · rw [h4] at h2; cases h2; exact Nat.zero_le _
      · rw [h4] at h2; cases h2
    · subst h2; exact hI.mem.short src bs i hs
    · exact hI.mem.short a bs i' h3
  · intro a r' i' h
    rcases back a _ _ h with ⟨_, _, h3⟩ | ⟨_, _, h3⟩ | ⟨_, _, h3⟩
    · cases h3
    · subst h3; exact hI.mem.idlt src r i' hs
    · exact hI.mem.idlt a r' i' h3
  · intro a a' r1 r2 j h h'
    rcases back a _ _ h with ⟨_, _, h3⟩ | ⟨h1, _, h3⟩ | ⟨h1, h2, h3⟩
    · cases h3
    · subst h3
      rcases back a' _ _ h' with ⟨_, _, h6⟩ | ⟨h4, _, _⟩ | ⟨h4, _, h6⟩
      · cases h6
      · omega
      · exact absurd (hI.mem.idone a' src r2 r j h6 hs) h4
    · rcases back a' _ _ h' with ⟨_, _, h6⟩ | ⟨h4, _, h6⟩ | ⟨h4, _, h6⟩
      · cases h6
      · subst h6; exact absurd (hI.mem.idone a src r1 r j h3 hs) h1
      · exact hI.mem.idone a a' r1 r2 j h3 h6
  · intro e he
    refine (hI.good e he).mono (Nat.le_refl _) ?_
    intro a r' h
    rcases back a _ _ h with ⟨_, _, h3⟩ | ⟨_, h2, h3⟩ | ⟨_, _, h3⟩
    · cases h3
    · subst h2; subst h3; exact ⟨src, hs, rfl⟩
    · exact ⟨a, h3, rfl⟩

theorem inv_new {s : St} (hI : Inv s) {a : Nat} (_ha : s.objs a = none) (bs : List Nat) (big : Bool) (s' : St) (h : step s (.new a bs big) = some s') :
    Inv s' := by
  unfold step at h
  simp only [_ha] at h
  split at h
  · rename_i hc
    cases h
    simp only [Bool.and_eq_true, decide_eq_true_eq] at hc
    have back : ∀ x r i, upd s.objs a (some (Rep.loc bs, some s.nextId)) x = some (r, i) → (x = a ∧ r = .loc bs ∧ i = some s.nextId) ∨ (x ≠ a ∧ s.objs x = some (r, i)) := by
      intro x r i h
      rcases upd_cases h with ⟨h1, h2⟩ | h
      · cases h2; exact Or.inl ⟨h1, rfl, rfl⟩
      · exact Or.inr h
    refine ⟨⟨?_, ?_, ?_, ?_, ?_⟩, ?_⟩
    · intro x b n i h
      rcases back x _ _ h with ⟨_, h2, _⟩ | ⟨_, h2⟩
      · cases h2
      · exact hI.mem.block x b n i h2
    · intro x y b n n' i i' h h'
      rcases back x _ _ h with ⟨_, h2, _⟩ | ⟨_, h2⟩
      · cases h2
      · rcases back y _ _ h' with ⟨_, h4, _⟩ | ⟨_, h4⟩
        · cases h4
        · exact hI.mem.uniq x y b n n' i i' h2 h4
    · intro x l i h
      rcases back x _ _ h with ⟨_, h2, _⟩ | ⟨_, h2⟩
      · cases h2; exact hc.1
      · exact hI.mem.short x l i h2
    · intro x r i h
      rcases back x _ _ h with ⟨_, _, h2⟩ | ⟨_, h2⟩
      · cases h2; exact Nat.lt_succ_self _
      · exact Nat.lt_succ_of_lt (hI.mem.idlt x r i h2)
    · intro x y r r' i h h'
      rcases back x _ _ h with ⟨h1, _, h2⟩ | ⟨_, h2⟩
      · cases h2
        rcases back y _ _ h' with ⟨h3, _, _⟩ | ⟨_, h4⟩
        · omega
        · exact absurd (hI.mem.idlt y r' _ h4) (Nat.lt_irrefl _)
      · rcases back y _ _ h' with ⟨_, _, h4⟩ | ⟨_, h4⟩
        · cases h4; exact absurd (hI.mem.idlt x r _ h2) (Nat.lt_irrefl _)
        · exact hI.mem.idone x y r r' i h2 h4
    · intro e he
      refine (hI.good e he).mono (Nat.le_succ _) ?_
      intro x r h
      rcases back x _ _ h with ⟨_, _, h2⟩ | ⟨_, h2⟩
      · have := (hI.good e he).idlt
        simp only [Option.some.injEq] at h2
        omega
      · exact ⟨x, h2, rfl⟩
  · cases h
    have back : ∀ x r i, upd s.objs a (some (Rep.heap s.nextBlock bs.length, some s.nextId)) x = some (r, i) →
        (x = a ∧ r = .heap s.nextBlock bs.length ∧ i = some s.nextId) ∨ (x ≠ a ∧ s.objs x = some (r, i)) := by
      intro x r i h
      rcases upd_cases h with ⟨h1, h2⟩ | h
      · cases h2; exact Or.inl ⟨h1, rfl, rfl⟩
      · exact Or.inr h
    have hold : ∀ x b n i, s.objs x = some (.heap b n, i) → upd s.heap s.nextBlock (some (bs ++ List.replicate cap 0)) b = s.heap b := by
      intro x b n i hx
      have := (hI.mem.block x b n i hx).1
      exact upd_ne _ _ (by omega)
    refine ⟨⟨?_, ?_, ?_, ?_, ?_⟩, ?_⟩
    · intro x b n i h
      rcases back x _ _ h with ⟨_, h2, _⟩ | ⟨_, h2⟩
      · cases h2
        refine ⟨Nat.lt_succ_self _, bs ++ List.replicate cap 0, upd_same _ _ _, ?_, ?_⟩
        · simp
        · simp
      · obtain ⟨h3, l, h4, h5, h6⟩ := hI.mem.block x b n i h2
        refine ⟨Nat.lt_succ_of_lt h3, l, ?_, h5, h6⟩
        show upd s.heap s.nextBlock _ b = _
        rw [hold x b n i h2, h4]
    · intro x y b n n' i i' h h'
      rcases back x _ _ h with ⟨h1, h2, _⟩ | ⟨_, h2⟩
      · cases h2
        rcases back y _ _ h' with ⟨h3, _, _⟩ | ⟨_, h4⟩
        · omega
        · exact absurd (hI.mem.block y _ _ _ h4).1 (Nat.lt_irrefl _)
      · rcases back y _ _ h' with ⟨_, h4, _⟩ | ⟨_, h4⟩
        · cases h4; exact absurd (hI.mem.block x _ _ _ h2).1 (Nat.lt_irrefl _)
        · exact hI.mem.uniq x y b n n' i i' h2 h4
    · intro x l i h
      rcases back x _ _ h with ⟨_, h2, _⟩ | ⟨_, h2⟩
      · cases h2
      · exact hI.mem.short x l i h2
    · intro x r i h
      rcases back x _ _ h with ⟨_, _, h2⟩ | ⟨_, h2⟩
      · cases h2; exact Nat.lt_succ_self _
      · exact Nat.lt_succ_of_lt (hI.mem.idlt x r i h2)
    · intro x y r r' i h h'
      rcases back x _ _ h with ⟨h1, _, h2⟩ | ⟨_, h2⟩
      · cases h2
        rcases back y _ _ h' with ⟨h3, _, _⟩ | ⟨_, h4⟩
        · omega
        · exact absurd (hI.mem.idlt y r' _ h4) (Nat.lt_irrefl _)
      · rcases back y _ _ h' with ⟨_, _, h4⟩ | ⟨_, h4⟩
        · cases h4; exact absurd (hI.mem.idlt x r _ h2) (Nat.lt_irrefl _)
        · exact hI.mem.idone x y r r' i h2 h4
    · intro e he
      refine (hI.good e he).mono (Nat.le_succ _) ?_
      intro x r h
      rcases back x _ _ h with ⟨_, _, h2⟩ | ⟨_, h2⟩
      · have := (hI.good e he).idlt
        simp only [Option.some.injEq] at h2
        omega
      · refine ⟨x, h2, ?_⟩
        cases r with
        | loc l => rfl
        | heap b n =>
          show (upd s.heap s.nextBlock _ b).map _ = _
          rw [hold x b n _ h2]
          rfl

/-- A short value is copied over a string that has a block. -/
theorem inv_over {s : St} (hI : Inv s) {dst src b n : Nat} {j i : Option Nat} {bs : List Nat} (hd : s.objs dst = some (.heap b n, j))
    (hs : s.objs src = some (.loc bs, i)) :
    Inv { s with
          objs := upd (upd s.objs dst (some (.heap b bs.length, i))) src (some (.loc [], none))
          heap := upd s.heap b ((s.heap b).map (fun old => bs ++ old.drop bs.length)) } := by
  have hne : dst ≠ src := fun e => by rw [e, hs] at hd; cases hd
  obtain ⟨hb1, old, hb2, hb3, hb4⟩ := hI.mem.block dst b n j hd
  have hsh := hI.mem.short src bs i hs
  have back : ∀ a r' i', upd (upd s.objs dst (some (Rep.heap b bs.length, i))) src (some (Rep.loc [], none)) a = some (r', i') →
      (a = src ∧ r' = .loc [] ∧ i' = none) ∨ (a = dst ∧ r' = .heap b bs.length ∧ i' = i) ∨ (a ≠ src ∧ a ≠ dst ∧ s.objs a = some (r', i')) := by
    intro a r' i' h
    rcases upd_cases h with ⟨h1, h2⟩ | ⟨h1, h2⟩
    · cases h2; exact Or.inl ⟨h1, rfl, rfl⟩
    · rcases upd_cases h2 with ⟨h3, h4⟩ | ⟨h3, h4⟩
      · cases h4; exact Or.inr (Or.inl ⟨h3, rfl, rfl⟩)
      · exact Or.inr (Or.inr ⟨h1, h3, h4⟩)
  have hoth : ∀ a b' n' i', a ≠ dst → s.objs a = some (.heap b' n', i') →
      upd s.heap b ((s.heap b).map (fun old => bs ++ old.drop bs.length)) b' = s.heap b' := by
    intro a b' n' i' ha h
    refine upd_ne _ _ (fun e => ha ?_)
    rw [e] at h
    exact hI.mem.uniq a dst b n' n i' j h hd
  refine ⟨⟨?_, ?_, ?_, ?_, ?_⟩, ?_⟩
  · intro a b' n' i' h
    rcases back a _ _ h with ⟨_, h2, _⟩ | ⟨_, h2, _⟩ | ⟨_, h1, h3⟩
    · cases h2
    · cases h2
      refine ⟨hb1, bs ++ old.drop bs.length, ?_, by simp, ?_⟩
      · show upd s.heap b _ b = _
        rw [upd_same, hb2]; rfl
      · simp; omega
    · obtain ⟨h4, l, h5, h6⟩ := hI.mem.block a b' n' i' h3
      refine ⟨h4, l, ?_, h6⟩
      show upd s.heap b _ b' = _
      rw [hoth a b' n' i' h1 h3, h5]
  · intro a a' b' n1 n2 i1 i2 h h'
    rcases back a _ _ h with ⟨_, h2, _⟩ | ⟨h1, h2, _⟩ | ⟨_, h1, h3⟩
    · cases h2
    · cases h2
      rcases back a' _ _ h' with ⟨_, h5, _⟩ | ⟨h4, _, _⟩ | ⟨_, h4, h6⟩
      · cases h5
      · omega
      · exact absurd (hI.mem.uniq a' dst b n2 n i2 j h6 hd) h4
    · rcases back a' _ _ h' with ⟨_, h5, _⟩ | ⟨h4, h5, _⟩ | ⟨_, h4, h6⟩
      · cases h5
      · cases h5; exact absurd (hI.mem.uniq a dst b n1 n i1 j h3 hd) h1
      · exact hI.mem.uniq a a' b' n1 n2 i1 i2 h3 h6
  · intro a l i' h
    rcases back a _ _ h with ⟨_, h2, _⟩ | ⟨_, h2, _⟩ | ⟨_, h1, h3⟩
    · cases h2; exact Nat.zero_le _
    · cases h2
    · exact hI.mem.short a l i' h3
  · intro a r' i' h
    rcases back a _ _ h with ⟨_, _, h3⟩ | ⟨_, _, h3⟩ | ⟨_, _, h3⟩
    · cases h3
    · subst h3; exact hI.mem.idlt src _ i' hs
    · exact hI.mem.idlt a r' i' h3
  · intro a a' r1 r2 k h h'
    rcases back a _ _ h with ⟨_, _, h3⟩ | ⟨h1, _, h3⟩ | ⟨h1, h2, h3⟩
    · cases h3
    · subst h3
      rcases back a' _ _ h' with ⟨_, _, h6⟩ | ⟨h4, _, _⟩ | ⟨h4, _, h6⟩
      · cases h6
      · omega
      · exact absurd (hI.mem.idone a' src r2 _ k h6 hs) h4
    · rcases back a' _ _ h' with ⟨_, _, h6⟩ | ⟨h4, _, h6⟩ | ⟨h4, _, h6⟩
      · cases h6
      · subst h6; exact absurd (hI.mem.idone a src r1 _ k h3 hs) h1
      · exact hI.mem.idone a a' r1 r2 k h3 h6
  · intro e he
    have hg := hI.good e he
    refine ⟨hg.idlt, hg.size, ?_⟩
    intro a r' h
    rcases back a _ _ h with ⟨_, _, h3⟩ | ⟨_, h2, h3⟩ | ⟨_, h1, h3⟩
    · cases h3
    · subst h2; subst h3
      obtain ⟨bs', h4, h5, h6⟩ := hg.shows src _ hs
      cases h4
      refine ⟨bs, ?_, h5, ?_⟩
      · show (upd s.heap b _ b).map _ = _
        rw [upd_same, hb2]
        simp
      · rcases h6 with h6 | ⟨_, b', n', h7, _⟩
        · exact Or.inl h6
        · cases h7
    · obtain ⟨bs', h4, h5⟩ := hg.shows a r' h3
      refine ⟨bs', ?_, h5⟩
      rw [← h4]
      cases r' with
      | loc l => rfl
      | heap b' n' =>
        show (upd s.heap b _ b').map _ = _
        rw [hoth a b' n' _ h1 h3]
        rfl

theorem inv_destroy {s : St} (hI : Inv s) {a : Nat} (h' : Nat → Option (List Nat))
    (hh : ∀ x b n i, x ≠ a → s.objs x = some (.heap b n, i) → h' b = s.heap b) : Inv { s with objs := upd s.objs a none, heap := h' } := by
  have back : ∀ x y, upd s.objs a none x = some y → x ≠ a ∧ s.objs x = some y := by
    intro x y h
    rcases upd_cases h with ⟨_, h2⟩ | h2
    · cases h2
    · exact h2
  refine ⟨⟨?_, ?_, ?_, ?_, ?_⟩, ?_⟩
  · intro x b n i h
    obtain ⟨h1, h2⟩ := back x _ h
    obtain ⟨h4, l, h5, h6⟩ := hI.mem.block x b n i h2
    exact ⟨h4, l, by show h' b = _; rw [hh x b n i h1 h2, h5], h6⟩
  · intro x y b n n' i i' h h2
    exact hI.mem.uniq x y b n n' i i' (back x _ h).2 (back y _ h2).2
  · intro x l i h
    exact hI.mem.short x l i (back x _ h).2
  · intro x r i h
    exact hI.mem.idlt x r i (back x _ h).2
  · intro x y r r' i h h2
    exact hI.mem.idone x y r r' i (back x _ h).2 (back y _ h2).2
  · intro e he
    refine (hI.good e he).mono (Nat.le_refl _) ?_
    intro x r h
    obtain ⟨h1, h2⟩ := back x _ h
    refine ⟨x, h2, ?_⟩
    cases r with
    | loc l => rfl
    | heap b n =>
      show (h' b).map _ = _
      rw [hh x b n _ h1 h2]
      rfl

/-- A string is changed in place: the same object, with another identity. -/
theorem inv_poke {s : St} (hI : Inv s) {a : Nat} {r r0 : Rep} {i0 : Option Nat} (ha : s.objs a = some (r0, i0)) (h' : Nat → Option (List Nat))
    (hh : ∀ x b n i, x ≠ a → s.objs x = some (.heap b n, i) → h' b = s.heap b)
    (hr : (∃ l, r = .loc l ∧ l.length ≤ cap) ∨
      (∃ b n bs, r0 = .heap b n ∧ r = .heap b n ∧ b < s.nextBlock ∧ h' b = some bs ∧ n ≤ bs.length ∧ cap ≤ bs.length)) :
    Inv { s with objs := upd s.objs a (some (r, some s.nextId)), heap := h', nextId := s.nextId + 1 } := by
  have back : ∀ x r' i, upd s.objs a (some (r, some s.nextId)) x = some (r', i) → (x = a ∧ r' = r ∧ i = some s.nextId) ∨ (x ≠ a ∧ s.objs x = some (r', i)) := by
    intro x r' i h
    rcases upd_cases h with ⟨h1, h2⟩ | h
    · cases h2; exact Or.inl ⟨h1, rfl, rfl⟩
    · exact Or.inr h
  refine ⟨⟨?_, ?_, ?_, ?_, ?_⟩, ?_⟩
  · intro x b n i h
    rcases back x _ _ h with ⟨_, h2, _⟩ | ⟨h1, h2⟩
    · rcases hr with ⟨l, h3, _⟩ | ⟨b', n', bs, _, h4, h5, h6⟩
      · rw [h3] at h2; cases h2
      · rw [h4] at h2; cases h2; exact ⟨h5, bs, h6⟩
    · obtain ⟨h4, l, h5, h6⟩ := hI.mem.block x b n i h2
      exact ⟨h4, l, by show h' b = _; rw [hh x b n i h1 h2, h5], h6⟩
  · intro x y b n n' i i' h h2
    have f : ∀ x n i, upd s.objs a (some (r, some s.nextId)) x = some (.heap b n, i) → ∃ n i, s.objs x = some (.heap b n, i) := by
      intro x n i h
      rcases back x _ _ h with ⟨h1, h2, _⟩ | ⟨h1, h2⟩
      · rcases hr with ⟨l, h3, _⟩ | ⟨b', n', bs, h0, h4, h5, h6⟩
        · rw [h3] at h2; cases h2
        · rw [h4] at h2; cases h2; subst h0; rw [h1]; exact ⟨_, _, ha⟩
      · exact ⟨n, i, h2⟩
    obtain ⟨n1, i1, h3⟩ := f x n i h
    obtain ⟨n2, i2, h4⟩ := f y n' i' h2
    exact hI.mem.uniq x y b n1 n2 i1 i2 h3 h4
  · intro x l i h
    rcases back x _ _ h with ⟨_, h2, _⟩ | ⟨_, h2⟩
    · rcases hr with ⟨l', h3, h4⟩ | ⟨b', n', bs, _, h4, h5, h6⟩
      · rw [h3] at h2; cases h2; exact h4
      · rw [h4] at h2; cases h2
    · exact hI.mem.short x l i h2
  · intro x r' i h
    rcases back x _ _ h with ⟨_, _, h2⟩ | ⟨_, h2⟩
    · cases h2; exact Nat.lt_succ_self _
    · exact Nat.lt_succ_of_lt (hI.mem.idlt x r' i h2)
  · intro x y r1 r2 i h h2
    rcases back x _ _ h with ⟨h1, _, h3⟩ | ⟨_, h3⟩
    · cases h3
      rcases back y _ _ h2 with ⟨h3, _, _⟩ | ⟨_, h4⟩
      · omega
      · exact absurd (hI.mem.idlt y _ _ h4) (Nat.lt_irrefl _)
    · rcases back y _ _ h2 with ⟨_, _, h4⟩ | ⟨_, h4⟩
      · cases h4; exact absurd (hI.mem.idlt x _ _ h3) (Nat.lt_irrefl _)
      · exact hI.mem.idone x y r1 r2 i h3 h4
  · intro e he
    refine (hI.good e he).mono (Nat.le_succ _) ?_
    intro x r' h
    rcases back x _ _ h with ⟨_, _, h2⟩ | ⟨h1, h2⟩
    · have := (hI.good e he).idlt
      simp only [Option.some.injEq] at h2
      omega
    · refine ⟨x, h2, ?_⟩
      cases r' with
      | loc l => rfl
      | heap b n =>
        show (h' b).map _ = _
        rw [hh x b n _ h1 h2]
        rfl

theorem inv_view {s : St} (hI : Inv s) {e : Entry} (h : Good s e) : Inv { s with views := e :: s.views } := by
  refine ⟨⟨hI.mem.block, hI.mem.uniq, hI.mem.short, hI.mem.idlt, hI.mem.idone⟩, ?_⟩
  intro x hx
  rcases List.mem_cons.1 hx with h1 | h1
  · subst h1; exact ⟨h.idlt, h.size, h.shows⟩
  · have := hI.good x h1
    exact ⟨this.idlt, this.size, this.shows⟩

theorem take_take_drop (l : List Nat) (n o k : Nat) (h : o + k ≤ n) : ((l.take n).drop o).take k = (l.drop o).take k := by
  rw [List.drop_take, List.take_take]
  congr 1
  omega

theorem good_take {s : St} (hI : Inv s) {a : Nat} {r : Rep} {i off len : Nat} {bs : List Nat} {v : View} (ha : s.objs a = some (r, some i))
    (hc : content s r = some bs) (hl : off + len ≤ bs.length) (hv : mk s ((dataPtr a r).plus off) len = some v) : Good s ⟨v, i, off, len⟩ := by
  have key : v.size = len ∧ (v = .copied ((bs.drop off).take len) ∨ (cap < len ∧ ∃ b n, r = .heap b n ∧ v = .far (.inBlock b off) len)) := by
    unfold mk at hv
    split at hv
    · rename_i hlen
      cases r with
      | loc l =>
        cases hc
        simp only [dataPtr, Ptr.plus, deref, ha] at hv
        rw [Nat.zero_add, if_pos hl] at hv
        cases hv
        exact ⟨by simp [View.size]; omega, Or.inl rfl⟩
      | heap b n =>
        obtain ⟨_, l, h2, h3, _⟩ := hI.mem.block a b n _ ha
        simp only [content, h2, Option.map_some, Option.some.injEq] at hc
        subst hc
        rw [List.length_take] at hl
        simp only [dataPtr, Ptr.plus, deref, h2] at hv
        rw [Nat.zero_add, if_pos (by omega)] at hv
        cases hv
        refine ⟨by simp [View.size]; omega, Or.inl ?_⟩
        rw [take_take_drop l n off len (by omega)]
    · rename_i hlen
      cases hv
      refine ⟨rfl, Or.inr ⟨by omega, ?_⟩⟩
      cases r with
      | loc l =>
        cases hc
        have := hI.mem.short a _ _ ha
        omega
      | heap b n => exact ⟨b, n, rfl, by simp [dataPtr, Ptr.plus]⟩
  refine ⟨hI.mem.idlt a r i ha, key.1, ?_⟩
  intro a' r' ha'
  have := hI.mem.idone a' a r' r i ha' ha
  subst this
  rw [ha] at ha'
  cases ha'
  exact ⟨bs, hc, hl, key.2⟩

theorem good_read {s : St} (hI : Inv s) {e : Entry} (he : Good s e) {a : Nat} {r : Rep} (ha : s.objs a = some (r, some e.id)) {bs : List Nat}
    (hc : content s r = some bs) : read s e.v = some ((bs.drop e.off).take e.len) := by
  obtain ⟨bs', h1, h2, h3⟩ := he.shows a r ha
  rw [hc] at h1
  cases h1
  rcases h3 with h3 | ⟨_, b, n, h4, h5⟩
  · rw [h3]; rfl
  · subst h4
    obtain ⟨_, l, h6, h7, _⟩ := hI.mem.block a b n _ ha
    simp only [content, h6, Option.map_some, Option.some.injEq] at hc
    subst hc
    rw [List.length_take] at h2
    rw [h5]
    simp only [read, deref, h6]
    rw [if_pos (by omega), take_take_drop l n e.off e.len (by omega)]

theorem good_sub {s : St} (hI : Inv s) {e : Entry} (he : Good s e) {pos n : Nat} {v : View} (hv : substr s e.v pos n = some v) :
    Good s ⟨v, e.id, e.off + pos, min n (e.len - pos)⟩ := by
  unfold substr at hv
  rw [he.size] at hv
  split at hv
  · cases hv
  · rename_i hpos
    simp only at hv
    refine ⟨he.idlt, ?_, ?_⟩
    · show v.size = _
      have hsz := he.size
      cases hev : e.v with
      | copied l =>
        rw [hev] at hv hsz
        simp only [View.size] at hsz
        cases hv
        simp only [View.size, List.length_take, List.length_drop]
        omega
      | far p k =>
        rw [hev] at hv
        simp only [mk] at hv
        split at hv
        · cases hd : deref s (p.plus pos) (min n (e.len - pos)) with
          | none => rw [hd] at hv; cases hv
          | some l =>
            rw [hd] at hv
            cases hv
            show l.length = _
            unfold deref at hd
            repeat' split at hd
            all_goals first
              | (cases hd; done)
              | (cases hd; simp only [List.length_take, List.length_drop]; omega)
        · cases hv; rfl
    · intro a r ha
      obtain ⟨bs, h1, h2, h3⟩ := he.shows a r ha
      refine ⟨bs, h1, by show e.off + pos + min n (e.len - pos) ≤ _; omega, ?_⟩
      show v = .copied ((bs.drop (e.off + pos)).take (min n (e.len - pos))) ∨ (cap < min n (e.len - pos) ∧ ∃ b n', r = .heap b n' ∧
        v = .far (.inBlock b (e.off + pos)) (min n (e.len - pos)))
      rcases h3 with h3 | ⟨h4, b, m, h5, h6⟩
      · rw [h3] at hv
        simp only [Option.some.injEq] at hv
        refine Or.inl ?_
        rw [← hv, take_take_drop _ _ _ _ (by omega), List.drop_drop]
      · rw [h6] at hv
        subst h5
        obtain ⟨_, l, h7, h8, _⟩ := hI.mem.block a b m _ ha
        simp only [content, h7, Option.map_some, Option.some.injEq] at h1
        subst h1
        rw [List.length_take] at h2
        simp only [mk, Ptr.plus] at hv
        split at hv
        · simp only [deref, h7] at hv
          rw [if_pos (by omega)] at hv
          cases hv
          refine Or.inl ?_
          rw [take_take_drop l m _ _ (by omega)]
        · cases hv
          exact Or.inr ⟨by omega, b, m, rfl, rfl⟩

theorem inv_step {s s' : St} {a : Act} (hI : Inv s) (h : step s a = some s') : Inv s' := by
  cases a with
  | new a bs big =>
    cases ha : s.objs a with
    | none => exact inv_new hI ha bs big s' h
    | some x => simp [step, ha] at h
  | moveCtor dst src =>
    simp only [step] at h
    cases hd : s.objs dst with
    | some x => rw [hd] at h; cases h
    | none =>
      cases hs : s.objs src with
      | none => rw [hd, hs] at h; cases h
      | some x =>
        obtain ⟨r, i⟩ := x
        rw [hd, hs] at h
        cases h
        exact inv_move hI (fun e => by rw [e, hs] at hd; cases hd) hs _ (Or.inl rfl)
  | moveAssign dst src =>
    simp only [step] at h
    split at h
    · cases h
    · rename_i hne
      cases hd : s.objs dst with
      | none => rw [hd] at h; cases h
      | some x =>
        obtain ⟨rd, jd⟩ := x
        cases hs : s.objs src with
        | none => rw [hd, hs] at h; cases rd <;> cases h
        | some y =>
          obtain ⟨rs, is⟩ := y
          rw [hd, hs] at h
          cases rd with
          | loc l => cases h; exact inv_move hI hne hs _ (Or.inl rfl)
          | heap b n =>
            cases rs with
            | loc l => cases h; exact inv_over hI hd hs
            | heap b' n' => cases h; exact inv_move hI hne hs _ (Or.inr ⟨b, n, jd, rfl, hd⟩)
  | destroy a =>
    simp only [step] at h
    cases ha : s.objs a with
    | none => rw [ha] at h; cases h
    | some x =>
      obtain ⟨r, i⟩ := x
      rw [ha] at h
      cases r with
      | loc l => cases h; exact inv_destroy hI s.heap (fun _ _ _ _ _ _ => rfl)
      | heap b n =>
        cases h
        refine inv_destroy hI _ ?_
        intro x b' n' i' hx hx'
        exact upd_ne _ _ (fun e => hx (by rw [e] at hx'; exact hI.mem.uniq x a b n' n i' i hx' ha))
  | poke a k c =>
    simp only [step] at h
    cases ha : s.objs a with
    | none => rw [ha] at h; cases h
    | some x =>
      obtain ⟨r, i⟩ := x
      rw [ha] at h
      cases i with
      | none => cases r <;> cases h
      | some i =>
        cases r with
        | loc l =>
          simp only at h
          split at h
          · cases h
            exact inv_poke hI ha s.heap (fun _ _ _ _ _ _ => rfl) (Or.inl ⟨_, rfl, by rw [List.length_set]; exact hI.mem.short a l _ ha⟩)
          · cases h
        | heap b n =>
          simp only at h
          split at h
          · cases h
            obtain ⟨h1, l, h2, h3, h4⟩ := hI.mem.block a b n _ ha
            refine inv_poke hI ha _ ?_ (Or.inr ⟨b, n, l.set k c, rfl, rfl, h1, ?_, by rwa [List.length_set], by rwa [List.length_set]⟩)
            · intro x b' n' i' hx hx'
              exact upd_ne _ _ (fun e => hx (by rw [e] at hx'; exact hI.mem.uniq x a b n' n i' _ hx' ha))
            · rw [upd_same, h2]; rfl
          · cases h
  | take a off len =>
    simp only [step] at h
    split at h
    · rename_i r i ha
      split at h
      · rename_i bs hc
        split at h
        · rename_i hl
          cases hv : mk s ((dataPtr a r).plus off) len with
          | none => rw [hv] at h; cases h
          | some v =>
            rw [hv] at h
            cases h
            exact inv_view hI (good_take hI ha hc hl hv)
        · cases h
      · cases h
    · cases h
  | sub k pos n =>
    simp only [step] at h
    split at h
    · rename_i e he
      cases hv : substr s e.v pos n with
      | none => rw [hv] at h; cases h
      | some v =>
        rw [hv] at h
        cases h
        exact inv_view hI (good_sub hI (hI.good e (List.mem_of_getElem? he)) hv)
    · cases h

theorem inv_init : Inv init := by
  refine ⟨⟨?_, ?_, ?_, ?_, ?_⟩, ?_⟩
  · intro a b n i h; cases h
  · intro a a' b n n' i i' h; cases h
  · intro a bs i h; cases h
  · intro a r i h; cases h
  · intro a a' r r' i h; cases h
  · intro e he; cases he

theorem inv_run {s : St} (h : Run s) : Inv s :=
  Reachable.invariant Inv (fun s hs => by rw [hs]; exact inv_init) (fun s a s' hI hst => inv_step hI hst) h

end Verif.Sso
