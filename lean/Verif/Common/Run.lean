/-!
# Histories of calls on a sequential object, and refinement

`run step s ops` performs the calls `ops` one after another. `none` is undefined behaviour (for a
model of code) or a violated precondition (for a specification).
-/
namespace Verif.Common

/-- Run a whole client history, collecting the observations. -/
def run {σ ι ω : Type} (step : σ → ι → Option (ω × σ)) (s : σ) : List ι → Option (List ω × σ)
  | [] => some ([], s)
  | op :: ops =>
    match step s op with
    | none => none
    | some (o, s1) =>
      match run step s1 ops with
      | none => none
      | some (os, s2) => some (o :: os, s2)

/-- If each allowed specification step is matched by the implementation, then every history allowed
by the specification has the specified observations on the implementation. -/
theorem run_refines {σ τ ι ω : Type} {istep : σ → ι → Option (ω × σ)}
    {sstep : τ → ι → Option (ω × τ)} (R : σ → τ → Prop)
    (hstep : ∀ s t op o t', R s t → sstep t op = some (o, t') →
      ∃ s', istep s op = some (o, s') ∧ R s' t') :
    ∀ (ops : List ι) (s : σ) (t : τ) (os : List ω) (t' : τ), R s t → run sstep t ops = some (os, t') →
      ∃ s', run istep s ops = some (os, s') ∧ R s' t' := by
  intro ops
  induction ops with
  | nil =>
    intro s t os t' hR h
    simp only [run, Option.some.injEq, Prod.mk.injEq] at h
    exact ⟨s, by simp [run, h.1], h.2 ▸ hR⟩
  | cons op ops ih =>
    intro s t os t' hR h
    simp only [run] at h
    cases hs : sstep t op with
    | none => simp [hs] at h
    | some p =>
      obtain ⟨o, t1⟩ := p
      simp only [hs] at h
      cases hr : run sstep t1 ops with
      | none => simp [hr] at h
      | some p2 =>
        obtain ⟨os2, t2⟩ := p2
        simp only [hr, Option.some.injEq, Prod.mk.injEq] at h
        obtain ⟨s1, hi, hR1⟩ := hstep s t op o t1 hR hs
        obtain ⟨s2, hi2, hR2⟩ := ih s1 t1 os2 t2 hR1 hr
        refine ⟨s2, ?_, h.2 ▸ hR2⟩
        simp [run, hi, hi2, h.1]

/-- An invariant kept by every defined step holds after every defined history. -/
theorem run_invariant {σ ι ω : Type} {step : σ → ι → Option (ω × σ)} (I : σ → Prop)
    (hstep : ∀ s op o s', I s → step s op = some (o, s') → I s') :
    ∀ (ops : List ι) (s : σ) (os : List ω) (s' : σ), I s → run step s ops = some (os, s') → I s' := by
  intro ops
  induction ops with
  | nil =>
    intro s os s' hI h
    simp only [run, Option.some.injEq, Prod.mk.injEq] at h
    exact h.2 ▸ hI
  | cons op ops ih =>
    intro s os s' hI h
    simp only [run] at h
    cases hs : step s op with
    | none => simp [hs] at h
    | some p =>
      obtain ⟨o, s1⟩ := p
      simp only [hs] at h
      cases hr : run step s1 ops with
      | none => simp [hr] at h
      | some p2 =>
        obtain ⟨os2, s2⟩ := p2
        simp only [hr, Option.some.injEq, Prod.mk.injEq] at h
        exact h.2 ▸ ih s1 os2 s2 (hstep s op o s1 hI hs) hr

end Verif.Common
