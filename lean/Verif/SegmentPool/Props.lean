import Verif.SegmentPool.Lemmas
/-!
# C04: `SegmentPool` never hands out overlapping memory
-/
namespace Verif.SegmentPool

/-- C04 (requests of length 0 are excluded by the property, see `zero_length_request_overlaps`).
For every pool size and every history of non-empty requests, returns of held segments and growth, no call
is undefined behaviour, and the segments the client holds afterwards are pairwise disjoint and
inside the pool. -/
theorem segments_disjoint (n : Nat) (ops : List Op)
    (hv : Valid { pool := create n, live := [] } ops) :
    ∃ outs s, Common.run Sys.step { pool := create n, live := [] } ops = some (outs, s) ∧
      (∀ e ∈ s.live, e.1 + e.2 ≤ s.pool.size) ∧ s.live.Pairwise Disjoint := by
  obtain ⟨os, s, hr, h⟩ := inv_run ops _ (inv_init n) hv
  refine ⟨os, s, hr, fun e he => h.bound e ((h.live e).mp he).1, ?_⟩
  refine List.Pairwise.imp_of_mem ?_ h.nodup
  intro a b ha hb hne
  obtain ⟨i, hi, hia⟩ := List.getElem_of_mem ((h.live a).mp ha).1
  obtain ⟨j, hj, hjb⟩ := List.getElem_of_mem ((h.live b).mp hb).1
  have hp := List.pairwise_iff_getElem.mp h.sorted
  intro x hx
  rcases Nat.lt_trichotomy i j with hlt | heq | hgt
  · have := (hp i j hi hj hlt).1
    rw [hia, hjb] at this; omega
  · subst heq; exact hne (hia.symm.trans hjb)
  · have := (hp j i hj hi hgt).1
    rw [hia, hjb] at this; omega

/-- C04, returned memory is really available again (same restriction). After any such history,
a request of length `len` succeeds whenever the client holds nothing and `len` fits the pool, or `len`
bytes are free before all held segments, or `len` bytes are free after all held segments. -/
theorem request_succeeds (n : Nat) (ops : List Op)
    (hv : Valid { pool := create n, live := [] } ops) (len : Nat) :
    ∃ outs s, Common.run Sys.step { pool := create n, live := [] } ops = some (outs, s) ∧
      (len ≤ s.pool.size ∧ ((∀ e ∈ s.live, len ≤ e.1) ∨ (∀ e ∈ s.live, e.1 + e.2 + len ≤ s.pool.size)) →
        ∃ off, (s.pool.request len).1 = some off) := by
  obtain ⟨os, s, hr, h⟩ := inv_run ops _ (inv_init n) hv
  refine ⟨os, s, hr, ?_⟩
  rintro ⟨hfit, hgap⟩
  obtain ⟨⟨size, taken⟩, live⟩ := s
  cases taken with
  | nil =>
    have : ¬ len > size := by simp only at hfit; omega
    exact ⟨0, by simp [Pool.request, this]⟩
  | cons f rest =>
    have hf : f ∈ live := (h.live f).mpr ⟨List.mem_cons_self, h.front f rfl⟩
    have hbk : (f :: rest).getLast (by simp) ∈ live :=
      (h.live _).mpr ⟨List.getLast_mem _, h.back _ (List.getLast?_eq_some_getLast _)⟩
    by_cases hle : len ≤ f.1
    · exact ⟨f.1 - len, by simp [Pool.request, hle]⟩
    · rcases hgap with hg | hg
      · exact absurd (hg f hf) hle
      · have := hg _ hbk
        exact ⟨_, by simp only [Pool.request, hle, if_false, this, if_true]; rfl⟩

/-- C04, `Return` frees exactly the segment it is given: after any such history, returning a held segment
leaves in the pool exactly the other held segments. -/
theorem return_frees_exactly (n : Nat) (ops : List Op)
    (hv : Valid { pool := create n, live := [] } ops) :
    ∃ outs s, Common.run Sys.step { pool := create n, live := [] } ops = some (outs, s) ∧
      ∀ seg ∈ s.live, ∃ p, s.pool.ret seg.1 = some p ∧ p.size = s.pool.size ∧
        ∀ e : Nat × Nat, e.2 ≠ 0 → (e ∈ p.taken ↔ e ∈ s.live ∧ e ≠ seg) := by
  obtain ⟨os, s, hr, h⟩ := inv_run ops _ (inv_init n) hv
  refine ⟨os, s, hr, fun seg hseg => ?_⟩
  obtain ⟨s', h1, h2⟩ := inv_ret h hseg
  simp only [Sys.step, Option.map_eq_some_iff, Prod.mk.injEq, true_and] at h1
  obtain ⟨p, h3, rfl⟩ := h1
  refine ⟨p, h3, ?_, fun e he => ?_⟩
  · unfold Pool.ret at h3
    split at h3
    · cases h3
    · simp only at h3
      split at h3
      · cases h3
      · cases h3
        rfl
  · have := h2.live e
    simp only at this
    rw [h.nodup.mem_erase_iff] at this
    constructor
    · intro hm
      have := this.2 ⟨hm, he⟩
      exact ⟨this.2, this.1⟩
    · rintro ⟨hm, hne⟩
      exact (this.1 ⟨hne, hm⟩).1

/-- C04 is false of the code when a request of length 0 is allowed: a concrete history in which every
`Return` gives back a held segment, yet a later request overlaps the still-held segment (0, 5). -/
theorem zero_length_request_overlaps :
    ∃ (ops : List Op) (outs : List (Option Nat)) (s : Sys),
      Common.run Sys.step { pool := create 10, live := [] } ops = some (outs, s) ∧
      (0, 5) ∈ s.live ∧ (0, 10) ∈ s.live ∧ ¬ Disjoint (0, 5) (0, 10) := by
  refine ⟨[.request 0, .request 5, .request 5, .ret (5, 5), .ret (0, 0), .request 10], _, _, rfl, ?_, ?_, ?_⟩
  · decide
  · decide
  · intro h
    exact h 0 (by decide)

/-- In the history of `zero_length_request_overlaps` each returned segment is held when returned. -/
example :
    (Common.run Sys.step { pool := create 10, live := [] }
      [.request 0, .request 5, .request 5]).map (·.2.live) = some [(5, 5), (0, 5), (0, 0)] ∧
    (Common.run Sys.step { pool := create 10, live := [] }
      [.request 0, .request 5, .request 5, .ret (5, 5)]).map (·.2.live) = some [(0, 5), (0, 0)] := by
  decide

/-- A valid, non-trivial history: three requests, a return in the middle, and growth. -/
example : (Common.run Sys.step { pool := create 10, live := [] }
    [.request 4, .request 3, .request 3, .ret (4, 3), .request 4, .grow 4, .request 4, .ret (0, 4),
     .request 2]).map (fun p => (p.1, p.2.live))
    = some ([some 0, some 4, some 7, none, none, none, some 10, none, some 5],
      [(5, 2), (10, 4), (7, 3)]) := by decide

/-- It satisfies the hypotheses of the theorems. -/
example : Valid { pool := create 10, live := [] } [.request 4, .request 3, .ret (0, 4), .grow 7] := by
  refine ⟨(by decide : 0 < 4), fun o s h => ?_⟩
  simp only [Sys.step, create, Pool.request] at h
  cases h
  refine ⟨(by decide : 0 < 3), fun o s h => ?_⟩
  cases h
  refine ⟨(by decide : (0, 4) ∈ [(4, 3), (0, 4)]), fun o s h => ?_⟩
  cases h
  exact ⟨(by decide : 10 + 7 < 2 ^ 32), fun _ _ _ => trivial⟩

end Verif.SegmentPool
