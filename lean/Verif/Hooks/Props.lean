import Verif.Hooks.Spec
/-!
# Properties of switch hooks (C123)
-/
namespace Verif.Hooks
open Verif.Common

theorem follow_append (p : Ph × Option Nat) (a b : List Ev) : follow p (a ++ b) = (follow p a).bind fun q => follow q b := by
  induction a generalizing p with
  | nil => rfl
  | cons e a ih =>
    simp only [List.cons_append, follow]
    split
    · exact ih _
    · rfl

theorem proj_append (f : Nat) (a b : List Ev) : proj f (a ++ b) = proj f a ++ proj f b := by simp [proj]

/-- The initial phase of a fiber. -/
def start (n f : Nat) : Ph × Option Nat := (if f < n then .running else .away, none)

/-- The phase of a fiber. -/
def phase (n : Nat) (s : S) (f : Nat) : Ph := if ∃ t, t < n ∧ s.act t = f then .running else .away

structure Inv (n : Nat) (s : S) : Prop where
  inj : ∀ t u, t < n → u < n → s.act t = s.act u → t = u
  ok : ∀ f, follow (start n f) (proj f s.log) = some (phase n s f, s.hook f)

theorem inv_step (n : Nat) (s s' : S) (a : Act) (I : Inv n s) (h : step n s a = some s') : Inv n s' := by
  cases a with
  | code t =>
    simp only [step] at h
    split at h
    · rename_i ht
      cases h
      refine ⟨I.inj, fun f => ?_⟩
      simp only [proj_append]
      rw [follow_append, I.ok f]
      by_cases hf : s.act t = f
      · have hp : phase n s f = .running := if_pos ⟨t, ht, hf⟩
        simp [proj, Ev.fiber, hf, follow, next, phase]
        rw [if_pos ⟨t, ht, hf⟩]
      · simp [proj, Ev.fiber, hf, follow, phase]
    · cases h
  | set t x =>
    simp only [step] at h
    split at h
    · rename_i ht
      cases h
      refine ⟨I.inj, fun f => ?_⟩
      simp only [proj_append]
      rw [follow_append, I.ok f]
      by_cases hf : s.act t = f
      · have hp : phase n s f = .running := if_pos ⟨t, ht, hf⟩
        have hp' : phase n { s with hook := upd s.hook (s.act t) x, log := s.log ++ [.set (s.act t) x] } f = .running := if_pos ⟨t, ht, hf⟩
        have e1 : proj f [.set (s.act t) x] = [.set (s.act t) x] := by simp [proj, Ev.fiber, hf]
        rw [hp, hp', e1]
        simp [follow, next, upd, hf]
      · have hp' : phase n { s with hook := upd s.hook (s.act t) x, log := s.log ++ [.set (s.act t) x] } f = phase n s f := rfl
        have e1 : proj f [.set (s.act t) x] = [] := by simp [proj, Ev.fiber, hf]
        have hf' : ¬ f = s.act t := fun e => hf e.symm
        rw [hp', e1]
        simp [follow, upd, hf']
    · cases h
  | switch t g =>
    simp only [step] at h
    split at h
    · rename_i hg
      obtain ⟨ht, hall⟩ := hg
      have hg : ∀ u, u < n → s.act u ≠ g := by
        intro u hu
        have := List.all_eq_true.1 hall u (List.mem_range.2 hu)
        simpa using this
      cases h
      have hfg : s.act t ≠ g := hg t ht
      refine ⟨?_, fun f => ?_⟩
      · intro a b ha hb hab
        simp only [upd] at hab
        by_cases h1 : a = t <;> by_cases h2 : b = t
        · rw [h1, h2]
        · rw [if_pos h1, if_neg h2] at hab; exact absurd hab.symm (hg b hb)
        · rw [if_neg h1, if_pos h2] at hab; exact absurd hab (hg a ha)
        · rw [if_neg h1, if_neg h2] at hab; exact I.inj a b ha hb hab
      · simp only [proj_append]
        rw [List.append_assoc, List.append_assoc, List.append_assoc, follow_append, I.ok f]
        simp only [Option.bind_some]
        by_cases h1 : s.act t = f
        · -- the fiber that leaves
          have hgf : ¬ g = f := fun e => hfg (h1.trans e.symm)
          have e1 : proj f (runSusp (s.act t) (s.hook (s.act t))) = runSusp f (s.hook f) := by
            rw [h1]; cases s.hook f <;> simp [runSusp, proj, Ev.fiber]
          have e2 : proj f [.away (s.act t)] = [.away f] := by simp [proj, Ev.fiber, h1]
          have e3 : proj f [.back g] = [] := by simp [proj, Ev.fiber, hgf]
          have e4 : proj f (runRes g (s.hook g)) = [] := by cases s.hook g <;> simp [runRes, proj, Ev.fiber, hgf]
          have hp : phase n s f = .running := if_pos ⟨t, ht, h1⟩
          have hp' : ¬ ∃ u, u < n ∧ upd s.act t g u = f := by
            rintro ⟨u, hu, he⟩
            simp only [upd] at he
            split at he
            · exact hgf he
            · rename_i hut; exact hut (I.inj u t hu ht (he.trans h1.symm))
          rw [e1, e2, e3, e4, hp]
          simp only [phase, if_neg hp']
          cases s.hook f <;> simp [runSusp, follow, next]
        · by_cases h2 : g = f
          · -- the fiber that comes back
            have e1 : proj f (runSusp (s.act t) (s.hook (s.act t))) = [] := by cases s.hook (s.act t) <;> simp [runSusp, proj, Ev.fiber, h1]
            have e2 : proj f [.away (s.act t)] = [] := by simp [proj, Ev.fiber, h1]
            have e3 : proj f [.back g] = [.back f] := by simp [proj, Ev.fiber, h2]
            have e4 : proj f (runRes g (s.hook g)) = runRes f (s.hook f) := by
              rw [h2]; cases s.hook f <;> simp [runRes, proj, Ev.fiber]
            have hp : phase n s f = .away := if_neg (by rintro ⟨u, hu, he⟩; exact hg u hu (he.trans h2.symm))
            have hp' : ∃ u, u < n ∧ upd s.act t g u = f := ⟨t, ht, by simp [upd, h2]⟩
            rw [e1, e2, e3, e4, hp]
            simp only [phase, if_pos hp']
            cases s.hook f <;> simp [runRes, follow, next]
          · have e1 : proj f (runSusp (s.act t) (s.hook (s.act t))) = [] := by cases s.hook (s.act t) <;> simp [runSusp, proj, Ev.fiber, h1]
            have e2 : proj f [.away (s.act t)] = [] := by simp [proj, Ev.fiber, h1]
            have e3 : proj f [.back g] = [] := by simp [proj, Ev.fiber, h2]
            have e4 : proj f (runRes g (s.hook g)) = [] := by cases s.hook g <;> simp [runRes, proj, Ev.fiber, h2]
            rw [e1, e2, e3, e4]
            have : (∃ u, u < n ∧ upd s.act t g u = f) ↔ ∃ u, u < n ∧ s.act u = f := by
              constructor
              · rintro ⟨u, hu, he⟩
                simp only [upd] at he
                split at he
                · exact absurd he h2
                · exact ⟨u, hu, he⟩
              · rintro ⟨u, hu, he⟩
                refine ⟨u, hu, ?_⟩
                simp only [upd]
                rw [if_neg (fun e : u = t => h1 (e ▸ he)), he]
            simp only [List.append_nil, follow, phase, this]
    · cases h

/-- For every fiber, on any number of threads and in every history of switches, migrations and changes of hooks: what happens to it follows the rules
(`next`). It runs only while it is active; with a hook set, every time it leaves its hook is told so before, and every time it returns the
same hook is told so before its code goes on; the hook is called at no other time. -/
theorem C123_hooks (n : Nat) (s : S) (h : Reachable (· = init) (step n) s) (f : Nat) :
    ∃ p, follow (if f < n then .running else .away, none) (proj f s.log) = some (p, s.hook f) ∧
      ((∃ t, t < n ∧ s.act t = f) → p = .running) ∧ ((¬ ∃ t, t < n ∧ s.act t = f) → p = .away) := by
  have I : Inv n s := by
    refine Reachable.invariant (Inv n) ?_ ?_ h
    · rintro _ rfl
      refine ⟨fun t u _ _ h => h, fun f => ?_⟩
      simp only [init, proj, List.filter_nil, follow, start, phase, exists_eq_right]
    · intro s a s' hI hs; exact inv_step n s s' a hI hs
  exact ⟨phase n s f, I.ok f, fun h => if_pos h, fun h => if_neg h⟩

/-- A fiber with hook 7 on thread 0 leaves and goes on on thread 1. -/
theorem C123_case : ∃ s, Reachable (· = init) (step 2) s ∧ s.act 1 = 0 ∧ proj 0 s.log =
    [.code 0, .set 0 (some 7), .susp 0 7, .away 0, .back 0, .res 0 7, .code 0] :=
  ⟨_, Reachable.exec (.init rfl trivial) [.code 0, .set 0 (some 7), .switch 0 5, .code 0, .switch 1 0, .code 1] rfl, rfl, by decide⟩

/-- What the rules exclude: code of a fiber that is away, code before the hook is told of the return, leaving without telling the hook, another hook. -/
theorem C123_rules (h x f : Nat) (hx : x ≠ h) :
    follow (.running, some h) [.susp f h, .away f, .code f] = none ∧
    follow (.running, some h) [.susp f h, .away f, .back f, .code f] = none ∧
    follow (.running, some h) [.away f] = none ∧
    follow (.running, some h) [.susp f x] = none ∧
    follow (.running, some h) [.susp f h, .susp f h] = none ∧
    follow (.running, some h) [.susp f h, .away f, .back f, .res f x] = none ∧
    follow (.running, some h) [.susp f h, .away f, .back f, .res f h, .code f] = some (.running, some h) := by
  simp [follow, next, hx]

end Verif.Hooks
