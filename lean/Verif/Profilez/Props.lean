import Verif.Profilez.Spec
/-!
# The profiling page (C131)
-/
namespace Verif.Profilez
open Verif.Common

theorem story_append (l : List Ev) (e : Ev) (c : Option Nat) :
    story (l ++ [e]) c = (story l c).bind (fun c => says c e) := by
  induction l generalizing c with
  | nil => simp only [List.nil_append, story, Option.bind_some]; cases says c e <;> rfl
  | cons a l ih =>
    simp only [List.cons_append, story]
    cases says c a with
    | none => rfl
    | some c => exact ih c

theorem pointed_append (l : List Ev) (e : Ev) : pointed (l ++ [e]) = pointed l ++ pointed [e] := by
  induction l with
  | nil => rfl
  | cons a l ih => cases a <;> simp only [List.cons_append, pointed, ih]

/-- What is true while the threads are where they are. -/
def At (cur : Option Nat) (s : S) : Pc → Prop
  | .idle | .filled | .notified => True
  | .onCheck | .offStop => s.suffix = cur ∧ s.prof = cur
  | .onSet => cur = none ∧ s.suffix = none ∧ s.prof = none
  | .onStart f => cur = none ∧ s.suffix = some f ∧ s.prof = none
  | .offCheck | .offRead => s.suffix = cur ∧ s.prof = none ∧ ∀ f, cur = some f → f ∈ s.files
  | .offClear f => cur = some f ∧ s.suffix = some f ∧ s.prof = none ∧ f ∈ s.files

structure Inv (s : S) : Prop where
  story : ∃ cur, story s.log none = some cur ∧ (∀ t, At cur s (s.pc t)) ∧
    ((∀ t, rest s t = true) → s.suffix = cur ∧ s.prof = cur) ∧ (∀ t, s.pc t = .offRead → cur ≠ none)
  files : ∀ f ∈ pointed s.log, f ∈ s.files

theorem rest_eq (s : S) (t : Nat) : rest s t = true ↔ s.pc t = .idle ∨ s.pc t = .filled ∨ s.pc t = .notified := by
  simp [rest, or_assoc]

theorem at_rest {cur : Option Nat} {s : S} {p : Pc} (h : p = .idle ∨ p = .filled ∨ p = .notified) : At cur s p := by
  rcases h with h | h | h <;> rw [h] <;> trivial

/-- A step of the only active request `t`. -/
theorem inv_active {s s' : S} {t : Nat} {p : Pc} (ho : ∀ u, u ≠ t → rest s u = true) (hpc : s'.pc = upd s.pc t p)
    (hst : ∃ cur, story s'.log none = some cur ∧ At cur s' p ∧
      ((p = .idle ∨ p = .filled ∨ p = .notified) → s'.suffix = cur ∧ s'.prof = cur) ∧ (p = .offRead → cur ≠ none))
    (hf : ∀ f ∈ pointed s'.log, f ∈ s'.files) : Inv s' := by
  obtain ⟨cur, h1, h2, h3, h4⟩ := hst
  refine ⟨⟨cur, h1, ?_, ?_, ?_⟩, hf⟩
  · intro u
    rw [hpc]
    by_cases hu : u = t
    · rw [hu, upd_same]; exact h2
    · rw [upd_ne _ _ hu]; exact at_rest ((rest_eq s u).1 (ho u hu))
  · intro hall
    have := (rest_eq s' t).1 (hall t)
    rw [hpc, upd_same] at this
    exact h3 this
  · intro u hu
    rw [hpc] at hu
    by_cases hut : u = t
    · rw [hut, upd_same] at hu; exact h4 hu
    · rw [upd_ne _ _ hut] at hu
      have := (rest_eq s u).1 (ho u hut)
      rw [hu] at this
      simp at this

theorem others {s : S} {t : Nat} (hq : Solo s) (ht : rest s t = false) : ∀ u, u ≠ t → rest s u = true := by
  intro u hu
  cases h : rest s u with
  | true => rfl
  | false => exact absurd (hq u t h ht) hu

theorem inv_go {s s' : S} {t : Nat} (h : Inv s) (hq : Solo s) (hs : go s t = some s') : Inv s' := by
  obtain ⟨⟨cur, h1, h2, h3, h4⟩, hf⟩ := h
  have hat := h2 t
  cases hpc : s.pc t with
  | idle => simp [go, hpc] at hs
  | notified => simp [go, hpc] at hs
  | filled =>
    simp only [go, hpc, Option.some.injEq] at hs
    subst hs
    -- nothing but the place of `t` changes, and `t` stays at rest.
    have hr : ∀ u, rest { s with pc := upd s.pc t .notified } u = rest s u := by
      intro u
      by_cases hu : u = t
      · subst hu; simp [rest, upd_same, hpc]
      · simp [rest, upd_ne _ _ hu]
    refine ⟨⟨cur, h1, ?_, ?_, ?_⟩, hf⟩
    · intro u
      by_cases hu : u = t
      · subst hu; simp only [upd_same]; trivial
      · simp only [upd_ne _ _ hu]
        have := h2 u
        revert this
        cases s.pc u <;> exact id
    · intro hall; exact h3 fun u => by rw [← hr u]; exact hall u
    · intro u hu
      by_cases hut : u = t
      · subst hut; simp [upd_same] at hu
      · simp only [upd_ne _ _ hut] at hu; exact h4 u hu
  | onCheck =>
    have ho := others hq (by simp [rest, hpc] : rest s t = false)
    rw [hpc] at hat
    obtain ⟨ha, hb⟩ := hat
    simp only [go, hpc] at hs
    cases hsx : s.suffix with
    | some x =>
      rw [hsx] at hs ha
      cases hs
      refine inv_active ho rfl ⟨cur, ?_, trivial, fun _ => ⟨hsx.trans ha, hb⟩, by simp⟩ ?_
      · simp only [answer, story_append, h1, Option.bind_some, says]
        rw [if_neg (by rw [← ha]; simp)]
      · simpa only [answer, pointed_append, pointed, List.append_nil] using hf
    | none =>
      rw [hsx] at hs ha
      cases hs
      exact inv_active ho rfl ⟨cur, h1, ⟨ha.symm, rfl, hb.trans ha.symm⟩, by simp, by simp⟩ hf
  | onSet =>
    have ho := others hq (by simp [rest, hpc] : rest s t = false)
    rw [hpc] at hat
    obtain ⟨ha, hb, hc⟩ := hat
    simp only [go, hpc] at hs
    cases hs
    exact inv_active ho rfl ⟨cur, h1, ⟨ha, rfl, hc⟩, by simp, by simp⟩ hf
  | onStart f =>
    have ho := others hq (by simp [rest, hpc] : rest s t = false)
    rw [hpc] at hat
    obtain ⟨ha, hb, hc⟩ := hat
    simp only [go, hpc] at hs
    cases hs
    refine inv_active ho rfl ⟨some f, ?_, trivial, fun _ => ⟨hb, ?_⟩, by simp⟩ ?_
    · simp only [answer, story_append, h1, Option.bind_some, says, ha, if_true]
    · simp only [answer, hc, Option.getD_none]
    · simpa only [answer, pointed_append, pointed, List.append_nil] using hf
  | offStop =>
    have ho := others hq (by simp [rest, hpc] : rest s t = false)
    rw [hpc] at hat
    obtain ⟨ha, hb⟩ := hat
    simp only [go, hpc] at hs
    cases hs
    refine inv_active ho rfl ⟨cur, h1, ⟨ha, rfl, ?_⟩, by simp, by simp⟩ ?_
    · intro f he
      rw [hb, he]
      exact List.mem_append_right _ (by simp)
    · intro f hm; exact List.mem_append_left _ (hf f hm)
  | offCheck =>
    have ho := others hq (by simp [rest, hpc] : rest s t = false)
    rw [hpc] at hat
    obtain ⟨ha, hb, hc⟩ := hat
    simp only [go, hpc] at hs
    cases hsx : s.suffix with
    | none =>
      rw [hsx] at hs ha
      cases hs
      refine inv_active ho rfl ⟨none, ?_, trivial, fun _ => ⟨hsx, hb⟩, by simp⟩ ?_
      · simp only [answer, story_append, h1, Option.bind_some, says, ← ha, if_true]
      · simpa only [answer, pointed_append, pointed, List.append_nil] using hf
    | some x =>
      rw [hsx] at hs ha
      cases hs
      exact inv_active ho rfl ⟨cur, h1, ⟨ha, hb, hc⟩, by simp, fun _ => by rw [← ha]; simp⟩ hf
  | offRead =>
    have ho := others hq (by simp [rest, hpc] : rest s t = false)
    have hne := h4 t hpc
    rw [hpc] at hat
    obtain ⟨ha, hb, hc⟩ := hat
    simp only [go, hpc] at hs
    cases hs
    cases hcur : cur with
    | none => exact absurd hcur hne
    | some f =>
      rw [hcur] at ha
      refine inv_active ho rfl ⟨cur, h1, ?_, by simp, by simp⟩ hf
      rw [ha]
      exact ⟨hcur, rfl, hb, hc f hcur⟩
  | offClear f =>
    have ho := others hq (by simp [rest, hpc] : rest s t = false)
    rw [hpc] at hat
    obtain ⟨ha, hb, hc, hd⟩ := hat
    simp only [go, hpc] at hs
    cases hs
    refine inv_active ho rfl ⟨none, ?_, trivial, fun _ => ⟨rfl, hc⟩, by simp⟩ ?_
    · simp only [answer, story_append, h1, Option.bind_some, says, ha, if_true]
    · intro g hg
      simp only [answer, pointed_append, pointed, List.mem_append, List.mem_singleton] at hg
      rcases hg with hg | hg
      · exact hf g hg
      · exact hg ▸ hd

theorem inv_step {s s' : S} {a : Act} (h : Inv s) (hq : Solo s) (hs : step s a = some s') (hq' : Solo s') : Inv s' := by
  cases a with
  | request t on =>
    simp only [step] at hs
    split at hs
    · rename_i hpc
      cases hs
      have hr' : rest { s with pc := upd s.pc t (if on = true then .onCheck else .offStop) } t = false := by
        simp only [rest, upd_same]; cases on <;> rfl
      have ho' := others hq' hr'
      have ho : ∀ u, u ≠ t → rest s u = true := by
        intro u hu
        have := ho' u hu
        simpa [rest, upd_ne _ _ hu] using this
      obtain ⟨⟨cur, h1, h2, h3, h4⟩, hf⟩ := h
      have hall : ∀ u, rest s u = true := by
        intro u
        by_cases hu : u = t
        · rw [hu, rest_eq]; exact .inl hpc
        · exact ho u hu
      obtain ⟨e1, e2⟩ := h3 hall
      refine inv_active ho rfl ⟨cur, h1, ?_, ?_, ?_⟩ hf
      · cases on
        · exact ⟨e1, e2⟩
        · exact ⟨e1, e2⟩
      · cases on <;> simp
      · cases on <;> simp
    · cases hs
  | go t => exact inv_go h hq hs
  | ret t =>
    simp only [step] at hs
    split at hs
    · cases hs
      obtain ⟨⟨cur, h1, h2, h3, h4⟩, hf⟩ := h
      refine ⟨⟨cur, h1, ?_, h3, h4⟩, hf⟩
      intro u
      have := h2 u
      revert this
      dsimp only
      cases s.pc u <;> exact id
    · cases hs
  | tick d =>
    simp only [step, Option.some.injEq] at hs
    subst hs
    obtain ⟨⟨cur, h1, h2, h3, h4⟩, hf⟩ := h
    refine ⟨⟨cur, h1, ?_, h3, h4⟩, hf⟩
    intro u
    have := h2 u
    revert this
    dsimp only
    cases s.pc u <;> exact id

/-- While requests come one at a time, every answer is true: a profile is started only if none is written,
"already profiling" and "off" are right, and a redirect names the profile that was running, which is complete. -/
theorem C131_solo_partial {s : S} (h : Reach (· = S.init) step Solo s) :
    (∃ cur, story s.log none = some cur ∧ ((∀ t, rest s t = true) → s.prof = cur)) ∧ ∀ f ∈ pointed s.log, f ∈ s.files := by
  have hi : Inv s := by
    refine Reach.invariant Inv ?_ (fun s a s' hi hq hs hq' => inv_step hi hq hs hq') h
    intro s (e : s = S.init) _
    subst e
    exact ⟨⟨none, rfl, fun _ => trivial, fun _ => ⟨rfl, rfl⟩, fun _ hp => by cases hp⟩, by simp [S.init, pointed]⟩
  obtain ⟨⟨cur, h1, _, h3, _⟩, hf⟩ := hi
  exact ⟨⟨cur, h1, fun hall => (h3 hall).2⟩, hf⟩

/-- Whatever the requests do: no thread writes to a response that its handler has returned. -/
theorem C131_response {s : S} (h : Reachable (· = S.init) step s) : s.late = false ∧ ∀ t, s.returned t = true → s.pc t = .notified := by
  refine Reachable.invariant (fun s => s.late = false ∧ ∀ t, s.returned t = true → s.pc t = .notified) ?_ ?_ h
  · intro s (e : s = S.init); subst e; exact ⟨rfl, fun _ h => by cases h⟩
  · rintro s a s' ⟨hl, hr⟩ hs
    -- a thread that has still something to do has not returned
    have hn : ∀ t, s.pc t ≠ .notified → s.returned t = false := by
      intro t ht
      cases h : s.returned t with
      | false => rfl
      | true => exact absurd (hr t h) ht
    have key : ∀ t p, s.pc t ≠ .notified → ∀ u, s.returned u = true → upd s.pc t p u = .notified := by
      intro t p ht u hu
      have : u ≠ t := fun e => by rw [e, hn t ht] at hu; cases hu
      rw [upd_ne _ _ this]; exact hr u hu
    cases a with
    | request t on =>
      simp only [step] at hs
      split at hs
      · rename_i hpc; cases hs; exact ⟨hl, key t _ (by rw [hpc]; simp)⟩
      · cases hs
    | go t =>
      simp only [step, go] at hs
      split at hs
      all_goals first
        | (cases hs; done)
        | (rename_i hpc
           have hnn : s.pc t ≠ .notified := by rw [hpc]; simp
           have hrt := hn t hnn
           first
           | (cases hs; exact ⟨by simp only [answer, hl, hrt, Bool.or_self], key t _ hnn⟩)
           | (cases hs; exact ⟨hl, key t _ hnn⟩)
           | (split at hs <;> cases hs <;>
              first
              | exact ⟨by simp only [answer, hl, hrt, Bool.or_self], key t _ hnn⟩
              | exact ⟨hl, key t _ hnn⟩))
    | ret t =>
      simp only [step] at hs
      split at hs
      · rename_i hpc
        cases hs
        refine ⟨hl, fun u hu => ?_⟩
        by_cases e : u = t
        · rw [e]; exact hpc
        · simp only [upd_ne _ _ e] at hu; exact hr u hu
      · cases hs
    | tick d => simp only [step, Option.some.injEq] at hs; subst hs; exact ⟨hl, hr⟩

/-- Two requests at once: both are told that their profile was started, but only the first is; the later stop
redirects to the second, a file that nobody has written. -/
theorem C131_concurrent_refuted : ∃ s, Reachable (· = S.init) step s ∧ story s.log none = none ∧
    s.log = [.started 1, .started 2, .redirect 2] ∧ s.files = [1] :=
  ⟨_, Reachable.exec (.init rfl trivial)
    [.tick 1, .request 0 true, .request 1 true, .go 0, .go 1, .go 0, .tick 1, .go 1, .go 0, .go 1,
     .request 2 false, .go 2, .go 2, .go 2, .go 2] rfl, by decide, by decide, by decide⟩

/-- One at a time: on, on, off, off. -/
def acts0 : List Act :=
  [.tick 1, .request 0 true, .go 0, .go 0, .go 0, .go 0, .ret 0, .request 1 true, .go 1, .go 1, .tick 5,
   .request 2 false, .go 2, .go 2, .go 2, .go 2, .go 2, .request 3 false, .go 3, .go 3]

theorem C131_case : ∃ s, exec step S.init acts0 = some s ∧ s.log = [.started 1, .already, .redirect 1, .off] ∧ s.files = [1] ∧
    story s.log none = some none :=
  ⟨_, rfl, by decide, by decide, by decide⟩

theorem go_pc {s s' : S} {t : Nat} (hs : go s t = some s') : ∃ p, s'.pc = upd s.pc t p := by
  unfold go at hs
  split at hs
  all_goals first
    | (cases hs; done)
    | (cases hs; exact ⟨_, rfl⟩)
    | (split at hs <;> cases hs <;> exact ⟨_, rfl⟩)

/-- Moves of request 0 only. -/
def By0 : Act → Prop
  | .request t _ | .go t | .ret t => t = 0
  | .tick _ => True

theorem solo_exec : ∀ (acts : List Act) (s s' : S), (∀ a ∈ acts, By0 a) → (∀ u, u ≠ 0 → s.pc u = .idle) →
    Reach (· = S.init) step Solo s → exec step s acts = some s' → Reach (· = S.init) step Solo s' := by
  intro acts
  induction acts with
  | nil => intro s s' _ _ h he; simp only [exec, Option.some.injEq] at he; exact he ▸ h
  | cons a acts ih =>
    intro s s' hb hi h he
    simp only [exec] at he
    cases hs : step s a with
    | none => simp [hs] at he
    | some s1 =>
      simp only [hs] at he
      have ha := hb a (List.mem_cons_self ..)
      have hi1 : ∀ u, u ≠ 0 → s1.pc u = .idle := by
        intro u hu
        have hup : ∀ p, upd s.pc 0 p u = .idle := fun p => by rw [upd_ne _ _ hu]; exact hi u hu
        cases a with
        | request t on =>
          simp only [By0] at ha; subst ha
          simp only [step] at hs
          split at hs
          · cases hs; exact hup _
          · cases hs
        | go t =>
          simp only [By0] at ha; subst ha
          obtain ⟨p, hp⟩ := go_pc hs
          rw [hp]; exact hup p
        | ret t =>
          simp only [step] at hs
          split at hs
          · cases hs; exact hi u hu
          · cases hs
        | tick d => simp only [step, Option.some.injEq] at hs; subst hs; exact hi u hu
      have hsolo : Solo s1 := by
        intro x y hx hy
        have hh : ∀ x, rest s1 x = false → x = 0 := by
          intro x hx
          apply Classical.byContradiction
          intro e
          have := hi1 x e
          simp [rest, this] at hx
        rw [hh x hx, hh y hy]
      exact ih s1 s' (fun b hb' => hb b (List.mem_cons_of_mem _ hb')) hi1 (.step h hs hsolo) he

/-- The first profile of it is reached with one request at a time. -/
theorem C131_case_solo : ∃ s, Reach (· = S.init) step Solo s ∧ s.log = [.started 1] ∧ s.prof = some 1 ∧ s.returned 0 = true := by
  have hsolo : Solo S.init := by intro t u ht; simp [rest, S.init] at ht
  have hb : ∀ a ∈ acts0.take 7, By0 a := by
    intro a ha
    simp only [acts0, List.take_succ_cons, List.take_zero, List.mem_cons, List.not_mem_nil, or_false] at ha
    rcases ha with rfl | rfl | rfl | rfl | rfl | rfl | rfl <;> simp [By0]
  exact ⟨_, solo_exec (acts0.take 7) S.init _ hb (fun _ _ => rfl) (.init rfl hsolo) rfl, by decide, by decide, by decide⟩

end Verif.Profilez
