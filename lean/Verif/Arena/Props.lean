import Verif.Arena.Model
/-!
# C13: `PmrArena` allocations are disjoint and as large as requested
-/
namespace Verif.Arena
open Verif.Common

/-- The ranges handed out by a history of calls. -/
def handed (ops : List Op) (rs : List Nat) : List Range := List.zipWith (fun o r => ⟨r, o.bytes⟩) ops rs

/-- Every request is for at least one byte (arena.h 72) and below 4 GiB ("size upto 4GB", arena.h 16). -/
def Sized (ops : List Op) : Prop := ∀ o ∈ ops, 0 < o.bytes ∧ o.bytes < 2 ^ 32

structure Inv (a : Arena) (xs : List Range) : Prop where
  blk : a.blocks.Pairwise Range.Disjoint
  lim : ∀ b ∈ a.blocks, b.lo % 16 = 0 ∧ b.lo + b.sz ≤ 2 ^ 64
  ins : ∀ x ∈ xs, ∃ b ∈ a.blocks, x.Inside b
  dis : xs.Pairwise Range.Disjoint
  cur : a.rem = 0 ∨ ∃ b ∈ a.blocks, (⟨a.ptr, a.rem⟩ : Range).Inside b
  free : a.rem ≠ 0 → ∀ x ∈ xs, x.Disjoint ⟨a.ptr, a.rem⟩
  mem : a.mem = (a.blocks.map Range.sz).sum
  rem : a.rem ≤ blockSize

theorem disjoint_symm {a b : Range} (h : a.Disjoint b) : b.Disjoint a := h.symm

theorem disjoint_inside {a b c d : Range} (h : a.Disjoint b) (h1 : c.Inside a) (h2 : d.Inside b) : c.Disjoint d := by
  unfold Range.Disjoint Range.Inside at *; omega

/-- Taking `n` bytes, the last `k` of them for the caller, from the current block. -/
theorem inv_take {a : Arena} {xs : List Range} (h : Inv a xs) (n k : Nat) (hk : k ≤ n) (hn : n ≤ a.rem) (h0 : a.rem ≠ 0) :
    Inv { a with ptr := a.ptr + n, rem := a.rem - n } (xs ++ [⟨a.ptr + (n - k), k⟩]) := by
  obtain ⟨blk, lim, ins, dis, cur, free, mem, rem⟩ := h
  obtain ⟨b, hb, hin⟩ := cur.resolve_left h0
  refine ⟨blk, lim, ?_, ?_, .inr ⟨b, hb, ?_⟩, ?_, mem, by simp; omega⟩
  · intro x hx
    simp only [List.mem_append, List.mem_singleton] at hx
    rcases hx with hx | rfl
    · exact ins x hx
    · exact ⟨b, hb, by simp only [Range.Inside] at hin ⊢; omega⟩
  · rw [List.pairwise_append]
    refine ⟨dis, List.pairwise_singleton _ _, ?_⟩
    intro x hx y hy
    simp only [List.mem_singleton] at hy; subst hy
    have := free h0 x hx
    simp only [Range.Disjoint] at this ⊢; omega
  · simp only [Range.Inside] at hin ⊢; omega
  · intro _ x hx
    simp only [List.mem_append, List.mem_singleton] at hx
    rcases hx with hx | rfl
    · have := free h0 x hx
      simp only [Range.Disjoint] at this ⊢; omega
    · simp only [Range.Disjoint]; omega

theorem inv_newBlock {a a' : Arena} {xs : List Range} {bytes p r : Nat} (h : Inv a xs) (hb : bytes < 2 ^ 32)
    (hn : newBlock a bytes p = some (r, a')) :
    r = p ∧ a'.blocks = a.blocks ++ [⟨p, bytes⟩] ∧ a'.ptr = a.ptr ∧ a'.rem = a.rem ∧ a'.mem = a.mem + bytes ∧ Fresh a p bytes := by
  unfold newBlock at hn
  rw [Nat.mod_eq_of_lt hb] at hn
  simp only at hn
  split at hn
  · simp only [Option.some.injEq, Prod.mk.injEq] at hn
    obtain ⟨rfl, rfl⟩ := hn
    exact ⟨rfl, rfl, rfl, rfl, rfl, by assumption⟩
  · simp at hn

theorem inv_fallback {a a' : Arena} {xs : List Range} {bytes p r : Nat} (h : Inv a xs) (hb : bytes < 2 ^ 32)
    (hn : fallback a bytes p = some (r, a')) : Inv a' (xs ++ [⟨r, bytes⟩]) ∧ r = p := by
  have hblk : ∀ sz, Fresh a p sz → (a.blocks ++ [(⟨p, sz⟩ : Range)]).Pairwise Range.Disjoint ∧
      ∀ b ∈ a.blocks ++ [(⟨p, sz⟩ : Range)], b.lo % 16 = 0 ∧ b.lo + b.sz ≤ 2 ^ 64 := by
    intro sz hf
    constructor
    · rw [List.pairwise_append]
      exact ⟨h.blk, List.pairwise_singleton _ _, fun x hx y hy => by
        simp only [List.mem_singleton] at hy; subst hy; exact hf.2.2 x hx⟩
    · intro b hb
      simp only [List.mem_append, List.mem_singleton] at hb
      rcases hb with hb | rfl
      · exact h.lim b hb
      · exact ⟨hf.1, hf.2.1⟩
  -- everything handed out so far, and the current block, is apart from a fresh block
  have hxs : ∀ sz, Fresh a p sz → ∀ x ∈ xs, x.Disjoint ⟨p, sz⟩ := by
    intro sz hf x hx
    obtain ⟨b, hb, hi⟩ := h.ins x hx
    exact disjoint_inside (hf.2.2 b hb) hi ⟨Nat.le_refl _, Nat.le_refl _⟩
  unfold fallback at hn
  split at hn
  · obtain ⟨rfl, h2, h3, h4, h5, hf⟩ := inv_newBlock h hb hn
    refine ⟨⟨by rw [h2]; exact (hblk _ hf).1, by rw [h2]; exact (hblk _ hf).2, ?_, ?_, ?_, ?_, ?_, by rw [h4]; exact h.rem⟩, rfl⟩
    · intro x hx
      rw [h2]
      simp only [List.mem_append, List.mem_singleton] at hx ⊢
      rcases hx with hx | rfl
      · obtain ⟨b, hb, hi⟩ := h.ins x hx; exact ⟨b, .inl hb, hi⟩
      · exact ⟨_, .inr rfl, Nat.le_refl _, Nat.le_refl _⟩
    · rw [List.pairwise_append]
      exact ⟨h.dis, List.pairwise_singleton _ _, fun x hx y hy => by
        simp only [List.mem_singleton] at hy; subst hy; exact hxs _ hf x hx⟩
    · rw [h3, h4, h2]
      rcases h.cur with h0 | ⟨b, hb, hi⟩
      · exact .inl h0
      · exact .inr ⟨b, List.mem_append_left _ hb, hi⟩
    · rw [h3, h4]
      intro h0 x hx
      simp only [List.mem_append, List.mem_singleton] at hx
      rcases hx with hx | rfl
      · exact h.free h0 x hx
      · rcases h.cur with h1 | ⟨b, hb, hi⟩
        · exact absurd h1 h0
        · exact (disjoint_inside (hf.2.2 b hb) hi ⟨Nat.le_refl _, Nat.le_refl _⟩).symm
    · rw [h5, h2, h.mem]; simp
  · rename_i hle
    split at hn
    · simp at hn
    · rename_i r1 a1 hn1
      simp only [Option.some.injEq, Prod.mk.injEq] at hn
      obtain ⟨rfl, rfl⟩ := hn
      obtain ⟨rfl, h2, h3, h4, h5, hf⟩ := inv_newBlock h (bytes := blockSize) (by decide) hn1
      have hbs : bytes ≤ 2048 := by simp [blockSize] at hle; omega
      refine ⟨⟨by simp only [h2]; exact (hblk _ hf).1, by simp only [h2]; exact (hblk _ hf).2, ?_, ?_, ?_, ?_, ?_, by simp⟩, rfl⟩
      · intro x hx
        simp only [h2, List.mem_append, List.mem_singleton] at hx ⊢
        rcases hx with hx | rfl
        · obtain ⟨b, hb, hi⟩ := h.ins x hx; exact ⟨b, .inl hb, hi⟩
        · exact ⟨_, .inr rfl, by simp only [Range.Inside, blockSize]; omega⟩
      · rw [List.pairwise_append]
        refine ⟨h.dis, List.pairwise_singleton _ _, fun x hx y hy => ?_⟩
        simp only [List.mem_singleton] at hy; subst hy
        have := hxs _ hf x hx
        simp only [Range.Disjoint, blockSize] at this ⊢; omega
      · exact .inr ⟨⟨r1, blockSize⟩, by simp [h2], by simp only [Range.Inside, blockSize]; omega⟩
      · intro h0 x hx
        simp only [List.mem_append, List.mem_singleton] at hx
        rcases hx with hx | rfl
        · have := hxs _ hf x hx
          simp only [Range.Disjoint, blockSize] at this ⊢; omega
        · simp only [Range.Disjoint]; omega
      · simp [h5, h2, h.mem]

theorem inv_step {a a' : Arena} {xs : List Range} {o : Op} {r : Nat} (h : Inv a xs) (hb : 0 < o.bytes ∧ o.bytes < 2 ^ 32)
    (hs : step a o = some (r, a')) : Inv a' (xs ++ [⟨r, o.bytes⟩]) ∧ (o.aligned = true → r % 8 = 0) := by
  unfold step at hs
  split at hs
  · unfold allocateAligned at hs
    simp only at hs
    generalize hsl : (if a.ptr % 8 = 0 then 0 else 8 - a.ptr % 8) = slop at hs
    split at hs
    · rename_i hle
      simp only [Option.some.injEq, Prod.mk.injEq] at hs
      obtain ⟨rfl, rfl⟩ := hs
      have hs8 : slop < 8 ∧ (a.ptr + slop) % 8 = 0 := by split at hsl <;> omega
      rw [Nat.mod_eq_of_lt (by omega)] at hle ⊢
      have := inv_take h (o.bytes + slop) o.bytes (by omega) hle (by omega)
      rw [show o.bytes + slop - o.bytes = slop by omega] at this
      exact ⟨this, fun _ => hs8.2⟩
    · obtain ⟨h1, rfl⟩ := inv_fallback h hb.2 hs
      refine ⟨h1, fun _ => ?_⟩
      have hf : ∀ sz, newBlock a sz o.p ≠ none → o.p % 16 = 0 := by
        intro sz h2; unfold newBlock at h2; simp only at h2; split at h2
        · rename_i h3; exact h3.1
        · simp at h2
      have : o.p % 16 = 0 := by
        unfold fallback at hs
        split at hs
        · exact hf o.bytes (by rw [hs]; simp)
        · split at hs
          · simp at hs
          · rename_i h3; exact hf _ (by rw [h3]; simp)
      omega
  · rename_i hal
    refine ⟨?_, fun h => absurd h hal⟩
    unfold allocate at hs
    split at hs
    · simp at hs
    · split at hs
      · rename_i hle
        simp only [Option.some.injEq, Prod.mk.injEq] at hs
        obtain ⟨rfl, rfl⟩ := hs
        simpa using inv_take h o.bytes o.bytes (by omega) hle (by omega)
      · exact (inv_fallback h hb.2 hs).1

theorem inv_run (ops : List Op) : ∀ (a : Arena) (xs : List Range) (rs : List Nat) (a' : Arena), Inv a xs → Sized ops →
    run step a ops = some (rs, a') → Inv a' (xs ++ handed ops rs) ∧ rs.length = ops.length := by
  induction ops with
  | nil =>
    intro a xs rs a' h _ hr
    simp only [run, Option.some.injEq, Prod.mk.injEq] at hr
    obtain ⟨rfl, rfl⟩ := hr
    simpa [handed] using h
  | cons o ops ih =>
    intro a xs rs a' h hsz hr
    simp only [run] at hr
    cases hs : step a o with
    | none => simp [hs] at hr
    | some q =>
      obtain ⟨r, a1⟩ := q
      simp only [hs] at hr
      cases hr2 : run step a1 ops with
      | none => simp [hr2] at hr
      | some q =>
        obtain ⟨rs2, a2⟩ := q
        simp only [hr2, Option.some.injEq, Prod.mk.injEq] at hr
        obtain ⟨rfl, rfl⟩ := hr
        obtain ⟨h1, h2⟩ := ih a1 _ rs2 _ (inv_step h (hsz o (by simp)) hs).1 (fun o ho => hsz o (List.mem_cons_of_mem _ ho)) hr2
        exact ⟨by simpa [handed] using h1, by simpa using h2⟩

theorem inv_empty : Inv empty [] := by
  constructor <;> simp [empty, blockSize]

/-- C13. The ranges handed out by any history of `Allocate` and `AllocateAligned` calls (of at least one byte and below
4 GiB), each as large as requested, are pairwise disjoint and lie inside blocks the arena got from its memory resource. -/
theorem C13_disjoint {ops : List Op} {rs : List Nat} {a : Arena} (hs : Sized ops) (h : run step empty ops = some (rs, a)) :
    rs.length = ops.length ∧ (handed ops rs).Pairwise Range.Disjoint ∧ (∀ x ∈ handed ops rs, ∃ b ∈ a.blocks, x.Inside b) ∧
    a.blocks.Pairwise Range.Disjoint := by
  obtain ⟨h1, h2⟩ := inv_run ops empty [] rs a inv_empty hs h
  simp only [List.nil_append] at h1
  exact ⟨h2, h1.dis, h1.ins, h1.blk⟩

/-- C13. `AllocateAligned` returns pointers aligned to 8, after any history. -/
theorem C13_aligned {ops : List Op} {rs : List Nat} {a a' : Arena} {bytes p r : Nat} (hs : Sized ops) (hb : 0 < bytes ∧ bytes < 2 ^ 32)
    (h : run step empty ops = some (rs, a)) (hr : allocateAligned a bytes p = some (r, a')) : r % 8 = 0 := by
  obtain ⟨h1, -⟩ := inv_run ops empty [] rs a inv_empty hs h
  exact (inv_step (o := { aligned := true, bytes, p }) h1 hb (by simpa [step] using hr)).2 rfl

/-- C13. The memory accounted for is the sum of the block sizes. -/
theorem C13_memory {ops : List Op} {rs : List Nat} {a : Arena} (hs : Sized ops) (h : run step empty ops = some (rs, a)) :
    a.mem = (a.blocks.map Range.sz).sum :=
  (inv_run ops empty [] rs a inv_empty hs h).1.mem

/-- C13. Every request succeeds if the memory resource supplies memory. -/
theorem C13_total (a : Arena) (o : Op) (hb : 0 < o.bytes) (hf : ∀ sz, sz ≤ max o.bytes blockSize → Fresh a o.p sz) :
    (step a o).isSome := by
  have hnb : ∀ n, n ≤ max o.bytes blockSize → (newBlock a n o.p).isSome := by
    intro n hn
    have := hf (n % 2 ^ 32) (Nat.le_trans (Nat.mod_le _ _) hn)
    simp [newBlock, this]
  have hfb : (fallback a o.bytes o.p).isSome := by
    unfold fallback
    split
    · exact hnb _ (Nat.le_max_left _ _)
    · have := hnb blockSize (Nat.le_max_right _ _)
      split
      · rename_i h; simp [h] at this
      · simp
  unfold step
  split
  · unfold allocateAligned; simp only
    generalize (if a.ptr % 8 = 0 then 0 else 8 - a.ptr % 8) = slop
    split
    · simp
    · exact hfb
  · unfold allocate; split
    · omega
    · split
      · simp
      · exact hfb

/-- C13. Above 4 GiB the size is truncated: a request for 2^32 + 1 bytes yields a block of one byte. -/
theorem C13_truncated : ∃ rs a, run step empty [⟨false, 2 ^ 32 + 1, 4096⟩] = some (rs, a) ∧ rs = [4096] ∧
    a.blocks = [⟨4096, 1⟩] :=
  ⟨[4096], ⟨0, 0, 1, [⟨4096, 1⟩]⟩, by decide +kernel, rfl, rfl⟩

/-- A small, a large and an aligned allocation. -/
example : ∃ a, run step empty [⟨false, 10, 4096⟩, ⟨false, 9000, 65536⟩, ⟨true, 100, 0⟩, ⟨true, 2000, 0⟩] =
    some ([4096, 65536, 4112, 4216], a) ∧ a.blocks = [⟨4096, 8192⟩, ⟨65536, 9000⟩] ∧ a.rem = 6072 :=
  ⟨⟨6216, 6072, 17192, [⟨4096, 8192⟩, ⟨65536, 9000⟩]⟩, by decide +kernel, rfl, rfl⟩

end Verif.Arena
