import Verif.OnStack.Spec
/-!
# C140: running a function on the stacks of all fibers
-/
namespace Verif.OnStack
open Verif.Common

structure Inv (s : S) : Prop where
  bad : s.bad = false
  act : s.active ∈ s.known
  none : s.entry s.active = none
  ent : ∀ f ∈ s.known, f ≠ s.active → s.entry f = some f
  fr : s.frames s.active = []
  fresh : ∀ f, f ∉ s.known → s.frames f = []
  nd : s.known.Nodup

theorem unwind_id (l : List Frame) (v : Option Nat) : unwind l v = v := by
  induction l with
  | nil => rfl
  | cons a l ih => cases a; exact ih

theorem upd_upd {β : Type} (g : Nat → β) (i : Nat) (a b : β) : upd (upd g i a) i b = upd g i b := by
  funext j; unfold upd; split <;> rfl

theorem upd_self {β : Type} (g : Nat → β) (i : Nat) (b : β) (h : g i = b) : upd g i b = g := by
  funext j; unfold upd; split
  · next e => rw [e, h]
  · rfl

/-- What the function does to one other fiber. -/
theorem probe_eq {s : S} (I : Inv s) (f : Nat) (hf : f ∈ s.known) :
    probe f s = { s with ran := s.ran ++ [(f, f)], frames := if s.active = f then s.frames else upd s.frames f (.probe :: s.frames f) } := by
  unfold probe
  by_cases h : s.active = f
  · rw [if_pos h, if_pos h, h]
  · rw [if_neg h, if_neg h, I.ent f hf (Ne.symm h)]
    dsimp only
    rw [upd_upd, upd_self _ _ _ (I.ent f hf (Ne.symm h))]

theorem probe_inv {s : S} (I : Inv s) (f : Nat) (hf : f ∈ s.known) : Inv (probe f s) := by
  rw [probe_eq I f hf]
  refine ⟨I.bad, I.act, I.none, I.ent, ?_, ?_, I.nd⟩
  · dsimp only
    split
    · exact I.fr
    · next h => rw [upd_ne _ _ h]; exact I.fr
  · intro g hg
    dsimp only at hg ⊢
    split
    · exact I.fresh g hg
    · rw [upd_ne _ _ (show g ≠ f from fun e => hg (e ▸ hf))]; exact I.fresh g hg

theorem probes {s : S} (I : Inv s) (l : List Nat) (hl : ∀ f ∈ l, f ∈ s.known) :
    Inv (l.foldl (fun s f => probe f s) s) ∧ Same (l.foldl (fun s f => probe f s) s) s ∧
    (l.foldl (fun s f => probe f s) s).ran = s.ran ++ l.map (fun f => (f, f)) := by
  induction l generalizing s with
  | nil => exact ⟨I, ⟨rfl, rfl, rfl, rfl, rfl⟩, by simp⟩
  | cons f l ih =>
    have hf := hl f List.mem_cons_self
    have he := probe_eq I f hf
    have hk : (probe f s).known = s.known := by rw [he]
    obtain ⟨h1, h2, h3⟩ := ih (probe_inv I f hf) (fun g hg => by rw [hk]; exact hl g (List.mem_cons_of_mem _ hg))
    rw [List.foldl_cons]
    refine ⟨h1, ?_, ?_⟩
    · obtain ⟨a, b, c, d, e⟩ := h2
      refine ⟨a.trans ?_, b.trans ?_, c.trans ?_, d.trans ?_, e.trans ?_⟩ <;> rw [he]
    · rw [h3, he]
      simp

theorem switch_inv {s : S} (I : Inv s) (f : Nat) (hf : f ∈ s.known) (hne : f ≠ s.active) :
    switchTo f s = { s with
      entry := upd (upd s.entry f none) s.active (some s.active), frames := upd s.frames f []
      resumed := s.resumed ++ [(f, none)], active := f } ∧ Inv (switchTo f s) := by
  have he : switchTo f s = { s with
      entry := upd (upd s.entry f none) s.active (some s.active), frames := upd s.frames f []
      resumed := s.resumed ++ [(f, none)], active := f } := by
    unfold switchTo
    rw [I.ent f hf hne]
    dsimp only
    rw [unwind_id]
  refine ⟨he, ?_⟩
  rw [he]
  refine ⟨I.bad, hf, ?_, ?_, ?_, ?_, I.nd⟩
  · dsimp only
    rw [upd_ne _ _ hne, upd_same]
  · intro g hg hgf
    dsimp only at hg hgf ⊢
    by_cases hga : g = s.active
    · rw [hga, upd_same]
    · rw [upd_ne _ _ hga, upd_ne _ _ hgf]
      exact I.ent g hg hga
  · dsimp only
    rw [upd_same]
  · intro g hg
    dsimp only at hg ⊢
    rw [upd_ne _ _ (show g ≠ f from fun e => hg (e ▸ hf))]
    exact I.fresh g hg

theorem step_inv (s : S) (a : Act) (s' : S) (I : Inv s) (h : step s a = some s') : Inv s' := by
  cases a with
  | start f =>
    unfold step at h
    dsimp only at h
    split at h
    · exact absurd h (by simp)
    · next hf =>
      obtain rfl := Option.some.inj h
      have hfa : s.active ≠ f := fun e => hf (e ▸ I.act)
      refine ⟨I.bad, List.mem_append_left _ I.act, ?_, ?_, I.fr, ?_, ?_⟩
      · dsimp only; rw [upd_ne _ _ hfa]; exact I.none
      · intro g hg hga
        dsimp only at hg hga ⊢
        by_cases hgf : g = f
        · rw [hgf, upd_same]
        · rw [upd_ne _ _ hgf]
          refine I.ent g ?_ hga
          rcases List.mem_append.mp hg with hg | hg
          · exact hg
          · exact absurd (List.mem_singleton.mp hg) hgf
      · intro g hg
        exact I.fresh g (fun m => hg (List.mem_append_left _ m))
      · dsimp only
        rw [List.nodup_append]
        refine ⟨I.nd, by simp, ?_⟩
        intro x hx y hy e
        rw [List.mem_singleton.mp hy] at e
        exact hf (e ▸ hx)
  | switch f =>
    unfold step at h
    dsimp only at h
    split at h
    · next hf =>
      obtain rfl := Option.some.inj h
      exact (switch_inv I f hf.1 hf.2).2
    · exact absurd h (by simp)
  | probe f =>
    unfold step at h
    dsimp only at h
    split at h
    · next hf =>
      obtain rfl := Option.some.inj h
      exact probe_inv I f hf
    · exact absurd h (by simp)
  | probeAll =>
    obtain rfl := Option.some.inj h
    exact (probes I s.known (fun _ h => h)).1

theorem init_inv : Inv init := by
  refine ⟨rfl, by simp [init], rfl, ?_, rfl, fun _ _ => rfl, by simp [init]⟩
  intro f hf hne
  exact absurd (List.mem_singleton.mp hf) hne

theorem ok_inv {s : S} (h : Ok s) : Inv s :=
  Reachable.invariant Inv (fun s (hs : s = init) => by rw [hs]; exact init_inv) step_inv h

/-- C140: at any time, running the function on all stacks calls it exactly once for every fiber of the
thread, each time on the stack of that fiber; the caller goes on, and nothing else changes. -/
theorem C140_all {s : S} (h : Ok s) : s.bad = false ∧ s.known.Nodup ∧
    (probeAll s).ran = s.ran ++ s.known.map (fun f => (f, f)) ∧ Same (probeAll s) s := by
  have I := ok_inv h
  obtain ⟨_, h2, h3⟩ := probes I s.known (fun _ h => h)
  exact ⟨I.bad, I.nd, h3, h2⟩

/-- C140: so does running it on one stack. -/
theorem C140_one {s : S} (h : Ok s) (f : Nat) (hf : f ∈ s.known) :
    (probe f s).ran = s.ran ++ [(f, f)] ∧ Same (probe f s) s := by
  obtain ⟨_, h2, h3⟩ := probes (ok_inv h) [f] (fun g hg => (List.mem_singleton.mp hg) ▸ hf)
  exact ⟨h3, h2⟩

/-- C140: a fiber that is resumed goes on with an empty context, and nothing is left on its stack, however
often the function ran on it. -/
theorem C140_resume {s : S} (h : Ok s) (f : Nat) (hf : f ∈ s.known) (hne : f ≠ s.active) :
    (switchTo f s).active = f ∧ (switchTo f s).resumed = s.resumed ++ [(f, none)] ∧ (switchTo f s).frames f = [] ∧
      (switchTo f s).bad = false := by
  obtain ⟨he, I⟩ := switch_inv (ok_inv h) f hf hne
  refine ⟨by rw [he], by rw [he], ?_, I.bad⟩
  rw [he]
  exact upd_same _ _ _

theorem same_step (s t : S) (Is : Inv s) (It : Inv t) (h : Same s t) (a : Act) (s' : S) (hs : step s a = some s') :
    ((switches [a] = [a] → ∃ t', step t a = some t' ∧ Same s' t') ∧ (switches [a] = [] → Same s' t)) := by
  obtain ⟨h1, h2, h3, h4, h5⟩ := h
  cases a with
  | start f =>
    refine ⟨fun _ => ?_, fun e => by simp [switches] at e⟩
    unfold step at hs ⊢
    dsimp only at hs ⊢
    rw [← h2, ← h3]
    split at hs
    · exact absurd hs (by simp)
    · next hf =>
      obtain rfl := Option.some.inj hs
      rw [if_neg hf]
      exact ⟨_, rfl, h1, rfl, rfl, h4, h5⟩
  | switch f =>
    refine ⟨fun _ => ?_, fun e => by simp [switches] at e⟩
    unfold step at hs ⊢
    dsimp only at hs ⊢
    split at hs
    · next hf =>
      obtain rfl := Option.some.inj hs
      have hf' : f ∈ t.known ∧ f ≠ t.active := by rw [← h2, ← h1]; exact hf
      rw [if_pos hf']
      refine ⟨_, rfl, ?_⟩
      rw [(switch_inv Is f hf.1 hf.2).1, (switch_inv It f hf'.1 hf'.2).1]
      refine ⟨rfl, h2, ?_, ?_, h5⟩
      · dsimp only; rw [h1, h3]
      · dsimp only; rw [h4]
    · exact absurd hs (by simp)
  | probe f =>
    refine ⟨fun e => by simp [switches] at e, fun _ => ?_⟩
    unfold step at hs
    dsimp only at hs
    split at hs
    · next hf =>
      obtain rfl := Option.some.inj hs
      rw [probe_eq Is f hf]
      exact ⟨h1, h2, h3, h4, h5⟩
    · exact absurd hs (by simp)
  | probeAll =>
    refine ⟨fun e => by simp [switches] at e, fun _ => ?_⟩
    obtain rfl := Option.some.inj hs
    obtain ⟨a, b, c, d, e⟩ := (probes Is s.known (fun _ h => h)).2.1
    exact ⟨a.trans h1, b.trans h2, c.trans h3, d.trans h4, e.trans h5⟩

theorem invisible (acts : List Act) : ∀ s t s', Inv s → Inv t → Same s t → exec step s acts = some s' →
    ∃ t', exec step t (switches acts) = some t' ∧ Same s' t' := by
  induction acts with
  | nil =>
    intro s t s' _ _ h he
    obtain rfl := Option.some.inj he
    exact ⟨t, rfl, h⟩
  | cons a acts ih =>
    intro s t s' Is It h he
    unfold exec at he
    cases hs : step s a with
    | none => rw [hs] at he; exact absurd he (by simp)
    | some s1 =>
      rw [hs] at he
      dsimp only at he
      obtain ⟨k1, k2⟩ := same_step s t Is It h a s1 hs
      have Is1 := step_inv s a s1 Is hs
      have hsw : switches (a :: acts) = switches [a] ++ switches acts := by
        unfold switches
        rw [← List.filter_append]
        rfl
      have hc : switches [a] = [a] ∨ switches [a] = [] := by cases a <;> simp [switches]
      rcases hc with hc | hc
      · obtain ⟨t1, ht, hsame⟩ := k1 hc
        obtain ⟨t', h1, h2⟩ := ih s1 t1 s' Is1 (step_inv t a t1 It ht) hsame he
        refine ⟨t', ?_, h2⟩
        rw [hsw, hc]
        show exec step t (a :: switches acts) = some t'
        unfold exec
        rw [ht]
        exact h1
      · obtain ⟨t', h1, h2⟩ := ih s1 t s' Is1 It (k2 hc) he
        refine ⟨t', ?_, h2⟩
        rw [hsw, hc]
        exact h1

/-- C140: the fibers do not notice (apart from the use of their stacks, see `C140_depth_refuted`). For every history, leaving out all runs of the function gives a
possible history that ends in the same state: the same fibers ran in the same order, with the same
contexts. -/
theorem C140_invisible_partial (acts : List Act) (s : S) (h : exec step init acts = some s) :
    ∃ t, exec step init (switches acts) = some t ∧ Same s t :=
  invisible acts init init s init_inv init_inv ⟨rfl, rfl, rfl, rfl, rfl⟩ h

theorem probeAll_frames {s : S} (I : Inv s) (f : Nat) (hf : f ∈ s.known) (hne : f ≠ s.active) :
    (probeAll s).frames f = .probe :: s.frames f := by
  have key : ∀ (l : List Nat) (s : S), Inv s → l.Nodup → (∀ g ∈ l, g ∈ s.known) → f ≠ s.active →
      (l.foldl (fun s f => probe f s) s).frames f = if f ∈ l then .probe :: s.frames f else s.frames f := by
    intro l
    induction l with
    | nil => intro s _ _ _ _; simp
    | cons g l ih =>
      intro s I hnd hl hne
      have hg := hl g List.mem_cons_self
      have he := probe_eq I g hg
      rw [List.foldl_cons, ih (probe g s) (probe_inv I g hg) (List.nodup_cons.mp hnd).2
        (fun x hx => by rw [he]; exact hl x (List.mem_cons_of_mem _ hx)) (by rw [he]; exact hne)]
      have hfr : (probe g s).frames f = if f = g then .probe :: s.frames f else s.frames f := by
        rw [he]
        dsimp only
        by_cases hfg : f = g
        · subst hfg
          rw [if_neg (Ne.symm hne), if_pos rfl, upd_same]
        · rw [if_neg hfg]
          split
          · rfl
          · rw [upd_ne _ _ hfg]
      rw [hfr]
      by_cases hfg : f = g
      · subst hfg
        rw [if_neg (List.nodup_cons.mp hnd).1, if_pos rfl, if_pos List.mem_cons_self]
      · rw [if_neg hfg]
        simp [hfg]
  unfold probeAll
  rw [key s.known s I I.nd (fun _ h => h) hne, if_pos hf]

/-- The full property is false of the code as far as the stacks are concerned: every run leaves a call on
the stack of every suspended fiber until that fiber is resumed, so `n` runs need `n` times the stack. -/
theorem C140_depth_refuted {s : S} (h : Ok s) (f : Nat) (hf : f ∈ s.known) (hne : f ≠ s.active) (n : Nat) :
    ∃ t, exec step s (List.replicate n .probeAll) = some t ∧ Ok t ∧ (t.frames f).length = (s.frames f).length + n := by
  induction n generalizing s with
  | zero => exact ⟨s, rfl, h, rfl⟩
  | succ n ih =>
    have hs : step s .probeAll = some (probeAll s) := rfl
    obtain ⟨a, b, _⟩ := (C140_all h).2.2.2
    obtain ⟨t, h1, h2, h3⟩ := ih (s := probeAll s) (.step h hs trivial) (b.symm ▸ hf) (a.symm ▸ hne)
    refine ⟨t, ?_, h2, ?_⟩
    · rw [List.replicate_succ]
      unfold exec
      rw [hs]
      exact h1
    · rw [h3, probeAll_frames (ok_inv h) f hf hne, List.length_cons]
      omega

/-- A concrete history with three fibers. -/
def acts : List Act := [.start 1, .start 2, .switch 1, .probeAll, .probe 2, .probeAll, .switch 2, .probe 1]

theorem C140_case : ∃ s, exec step init acts = some s ∧ Ok s ∧ s.active = 2 ∧ s.resumed = [(1, none), (2, none)] ∧
    s.ran = [(0, 0), (1, 1), (2, 2), (2, 2), (0, 0), (1, 1), (2, 2), (1, 1)] ∧ (s.frames 0).length = 2 :=
  ⟨_, rfl, Reachable.exec (.init rfl trivial) acts rfl, rfl, rfl, rfl, rfl⟩

end Verif.OnStack
