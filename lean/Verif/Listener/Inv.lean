import Verif.Listener.StrStep
/-! The counters and the structure in every reachable state. -/
namespace Verif.Listener
open Verif.Common

theorem str_step {s s1 : S} (g : Str s) {a : Act} (h : stepA s a = some s1) : Str s1 := by
  cases a with
  | setMax m =>
    simp only [stepA] at h
    split at h
    · cases h; exact g.same rfl rfl rfl rfl rfl rfl g.tr
    · cases h
  | setPause b =>
    simp only [stepA] at h
    split at h
    · cases h; exact g.same rfl rfl rfl rfl rfl rfl g.tr
    · cases h
  | accept t => exact str_accept g h
  | pop t =>
    simp only [stepA] at h
    split at h
    · exact str_pop g (by assumption) h
    · cases h
  | migBegin c d =>
    simp only [stepA, migBegin] at h
    split at h
    · cases h
    rename_i x hx
    split at h
    · cases h
    rename_i hc
    split at h
    · cases h; exact g.fail _
    split at h
    · cases h; exact g
    · cases h
      have hp : x.pc = .running := Classical.byContradiction fun hn => hc (Or.inl hn)
      have hd : d < s.n := Nat.lt_of_not_le fun hn => hc (Or.inr (Or.inr hn))
      have cx := g.c c x hx
      refine g.conn hx rfl (g.l.keep hx rfl) rfl rfl rfl rfl rfl (fun _ => rfl) ⟨cx.th, fun t ht => ?_, fun d' hd' => ?_⟩ (by simp [hp]) (by simp)
      · exact ⟨(cx.hook t ht).1, by simp, by simp, by simp⟩
      · simp at hd'; omega
  | migAdd c =>
    simp only [stepA, migAdd] at h
    split at h
    · cases h
    rename_i x hx
    split at h
    · rename_i d hp
      split at h
      · cases h
      split at h
      · cases h; exact g.fail _
      · cases h
        have cx := g.c c x hx
        have hd := cx.dest d (Or.inl hp)
        refine g.conn hx rfl (g.l.keep hx rfl) rfl rfl rfl rfl rfl (fun _ => rfl) ⟨cx.th, fun t ht => ?_, fun d' hd' => ?_⟩ (by simp [hp]) ?_
        · refine ⟨(cx.hook t ht).1, ?_, ?_, ?_⟩ <;> dsimp only <;> split <;> simp
        · dsimp only at hd'
          split at hd' <;> simp at hd' <;> omega
        · dsimp only
          split <;> simp
    · cases h
  | migBack c =>
    simp only [stepA, migBack] at h
    split at h
    · cases h
    rename_i x hx
    split at h
    · rename_i d hp
      split at h
      · cases h
      split at h
      · cases h; exact g.fail _
      · cases h
        have cx := g.c c x hx
        have hd := cx.dest d (by simp [hp])
        refine g.conn hx rfl (g.l.keep hx rfl) rfl rfl rfl rfl rfl (fun _ => rfl) ⟨cx.th, fun t ht => ?_, fun d' hd' => ?_⟩ (by simp [hp]) (by simp)
        · exact ⟨(cx.hook t ht).1, by simp, by simp, by simp⟩
        · simp at hd'; omega
    · cases h
  | migUnlink c =>
    simp only [stepA, migUnlink] at h
    split at h
    · cases h
    rename_i x hx
    split at h
    · rename_i d hp
      split at h
      · cases h
      split at h
      · rename_i l u hl hu
        cases h
        have cx := g.c c x hx
        have hd := cx.dest d (by simp [hp])
        have hk : x.hook = some x.th := by rw [hu, (cx.hook u hu).1]
        refine g.conn hx rfl (g.l.unlink hx hk rfl hl) rfl rfl rfl rfl rfl (isSome_upd hl) ⟨cx.th, fun t ht => ?_, fun d' hd' => ?_⟩ (by simp [hp]) (by simp)
        · cases ht
        · simp at hd'; omega
      · cases h; exact g.fail _
      · cases h; exact g.fail _
    · cases h
  | migArrive c =>
    simp only [stepA, migArrive] at h
    split at h
    · cases h
    rename_i x hx
    split at h
    · rename_i d hp
      have cx := g.c c x hx
      have hd := cx.dest d (by simp [hp])
      have hk : x.hook = none := by
        cases hh : x.hook with
        | none => rfl
        | some u => exact absurd hp ((cx.hook u hh).2.2.2 d)
      split at h
      · cases h
      split at h
      · cases h
        refine g.conn hx rfl (g.l.keep hx rfl) rfl rfl rfl rfl rfl (fun _ => rfl) ⟨hd, fun t ht => ?_, fun d' hd' => ?_⟩ (by simp [hp]) (by simp)
        · rw [show _ = x.hook from rfl, hk] at ht; cases ht
        · simp at hd'
      · rename_i l hl
        cases h
        refine g.conn hx rfl (g.l.link hx hk rfl hl) rfl rfl rfl rfl rfl (isSome_upd hl) ⟨hd, fun t ht => ?_, fun d' hd' => ?_⟩ (by simp [hp]) (by simp)
        · cases ht; exact ⟨rfl, by simp, by simp, by simp⟩
        · simp at hd'
    · cases h
  | migRelease c =>
    simp only [stepA, migRelease] at h
    split at h
    · cases h
    rename_i x hx
    split at h
    · rename_i hp
      split at h
      · cases h
      split at h
      · cases h; exact g.fail _
      · cases h
        have cx := g.c c x hx
        refine g.conn hx rfl (g.l.keep hx rfl) rfl rfl rfl rfl rfl (fun _ => rfl) ⟨cx.th, fun t ht => ?_, fun d' hd' => ?_⟩ (by simp [hp]) (by simp)
        · exact ⟨(cx.hook t ht).1, by simp, by simp, by simp⟩
        · simp at hd'
    · cases h
  | finish c =>
    simp only [stepA, finish] at h
    split at h
    · cases h
    rename_i x hx
    split at h
    · rename_i hp
      split at h
      · cases h
      split at h
      · cases h; exact g.fail _
      · cases h
        have cx := g.c c x hx
        refine g.conn hx rfl (g.l.keep hx rfl) rfl rfl rfl rfl rfl (fun _ => rfl) ⟨cx.th, fun t ht => ?_, fun d' hd' => ?_⟩ (by simp [hp]) (by simp)
        · exact ⟨(cx.hook t ht).1, by simp, by simp, by simp⟩
        · simp at hd'
    · cases h
  | close c =>
    simp only [stepA, close] at h
    split at h
    · cases h
    rename_i x hx
    split at h
    · rename_i hp
      have cx := g.c c x hx
      split at h
      · cases h
      split at h
      · cases h; exact g.fail _
      split at h
      · rename_i hk
        cases h
        refine g.conn hx rfl (g.l.keep hx rfl) rfl rfl rfl rfl rfl (fun _ => rfl) ⟨cx.th, fun t ht => ?_, fun d' hd' => ?_⟩ (by simp [hp]) (by simp)
        · rw [show _ = x.hook from rfl, hk] at ht; cases ht
        · simp at hd'
      split at h
      · cases h; exact g.fail _
      · rename_i u hu _ l hl
        cases h
        have hk : x.hook = some x.th := by rw [hu, (cx.hook u hu).1]
        refine g.conn hx rfl (g.l.unlink hx hk rfl hl) rfl rfl rfl rfl rfl (isSome_upd hl) ⟨cx.th, fun t ht => ?_, fun d' hd' => ?_⟩ (by simp [hp]) (by simp)
        · cases ht
        · simp at hd'
    · cases h
  | callAll =>
    simp only [stepA, callAll] at h
    split at h
    · cases h
    · cases h
      refine g.same rfl rfl rfl rfl rfl rfl fun k r hr => ?_
      simp only [List.getElem?_append] at hr
      split at hr
      · exact g.tr k r hr
      · have := List.mem_of_getElem? hr
        rw [List.mem_map] at this
        obtain ⟨t, ht, rfl⟩ := this
        exact ⟨List.mem_range.1 ht, by show 2 ^ 32 - 1 < 2 ^ 32; omega⟩
  | callOne t l fr =>
    simp only [stepA, callOne] at h
    split at h
    · cases h
    · rename_i hc
      cases h
      refine g.same rfl rfl rfl rfl rfl rfl fun k r hr => ?_
      rcases get_append_one hr with h1 | ⟨_, rfl⟩
      · exact g.tr k r h1
      · exact ⟨Nat.lt_of_not_le fun h => hc (Or.inr (Or.inl h)), Nat.lt_of_not_le fun h => hc (Or.inr (Or.inr h))⟩
  | trAdd k =>
    simp only [stepA, trAdd] at h
    split at h
    · cases h
    rename_i r hr
    split at h
    · cases h
    split at h
    · cases h; exact g.fail _
    split at h
    · cases h; exact g.same rfl rfl rfl rfl rfl rfl fun k' z hz => str_trs g hr (by rfl) (by rfl) hz
    · split at h
      · exact str_enter (s := { s with word := add64 s.word 1 }) (g.same rfl rfl rfl rfl rfl rfl g.tr) hr h
      · cases h; exact g.same rfl rfl rfl rfl rfl rfl fun k' z hz => str_trs g hr (by rfl) (by rfl) hz
  | trCheck k =>
    simp only [stepA, trCheck] at h
    split at h
    · cases h
    rename_i r hr
    split at h
    · cases h
    split at h
    · cases h; exact g.fail _
    split at h
    · exact str_enter g hr h
    · cases h; exact g
  | trVisit k =>
    simp only [stepA, trVisit] at h
    split at h
    · cases h
    rename_i r hr
    split at h
    · split at h
      · split at h
        · cases h; exact g.same rfl rfl rfl rfl rfl rfl fun k' z hz => str_trs g hr (by rfl) (by rfl) hz
        · cases h; exact g.same rfl rfl rfl rfl rfl rfl fun k' z hz => str_trs g hr (by rfl) (by rfl) hz
      · cases h; exact g.same rfl rfl rfl rfl rfl rfl fun k' z hz => str_trs g hr (by rfl) (by rfl) hz
    · cases h
  | stop =>
    simp only [stepA, stop] at h
    split at h
    · cases h
    · rename_i hp
      have hp : s.phase = .accepting := Classical.byContradiction hp
      cases h
      have eq : ∀ t, qc (s.queue t ++ [.clean]) = qc (s.queue t) := fun t => by rw [qc_append]; exact List.append_nil _
      refine ⟨g.l, g.c, ?_, ?_, ?_, ?_, g.out, g.sd, g.tr⟩
      · simp only [eq]; exact g.q1
      · simp only [eq]; exact g.q2
      · simp only [eq]; exact g.q3
      · intro t ht
        have := g.sh t ht
        unfold Shape at this ⊢
        simp only [hp] at this ⊢
        obtain ⟨h1, h2, cs, h3⟩ := this
        exact ⟨h2, Or.inl ⟨h1, cs, by rw [h3]⟩⟩
  | sdNext t => exact str_sdNext g h
  | stop2 =>
    simp only [stepA, stop2] at h
    split at h
    · rename_i hp
      cases h
      have eq : ∀ t, qc (s.queue t ++ [.empty]) = qc (s.queue t) := fun t => by rw [qc_append]; exact List.append_nil _
      refine ⟨g.l, g.c, ?_, ?_, ?_, ?_, g.out, g.sd, g.tr⟩
      · simp only [eq]; exact g.q1
      · simp only [eq]; exact g.q2
      · simp only [eq]; exact g.q3
      · intro t ht
        have := g.sh t ht
        have hc := of_decide_eq_true (List.all_eq_true.1 hp.2 t (List.mem_range.2 ht))
        unfold Shape at this ⊢
        simp only [hp.1, hc] at this ⊢
        obtain ⟨h2, ⟨h1, _⟩ | ⟨h3, _⟩⟩ := this
        · cases h1
        · exact Or.inl ⟨h2, Or.inl ⟨trivial, by rw [h3]; rfl⟩⟩
    · cases h
  | emptied t =>
    simp only [stepA, emptied] at h
    split at h
    · cases h
    split at h
    · rename_i hc
      cases h
      have ht : t < s.n := Classical.byContradiction fun hn => by
        have := (g.out t (by omega)).2
        rw [hc.1] at this
        cases this
      refine ⟨g.l.delete hc.2, g.c, g.q1, g.q2, g.q3, ?_, ?_, ?_, g.tr⟩
      · intro u hu
        by_cases he : u = t
        · subst he
          have := g.sh u hu
          unfold Shape at this ⊢
          cases hp : s.phase <;> simp only [hp, hc.1, upd_same] at this ⊢ <;> simp at this ⊢
          exact this.2
        · exact (g.sh u hu).same rfl (upd_ne _ _ he) rfl (by show (upd s.lists t none u).isSome = _; rw [upd_ne _ _ he])
      · intro u hu
        have hu' : s.n ≤ u := hu
        have := g.out u hu
        exact ⟨by show upd s.lists t none u = none; rw [upd_ne _ _ (by omega)]; exact this.1,
          by show upd s.sd t _ u = _; rw [upd_ne _ _ (by omega)]; exact this.2⟩
      · intro u c hcc
        by_cases he : u = t
        · subst he; simp only [upd_same] at hcc; cases hcc
        · simp only [upd_ne _ _ he] at hcc; exact g.sd u c hcc
    · cases h
  | post =>
    simp only [stepA, post] at h
    split at h
    · rename_i hp
      cases h
      refine ⟨g.l, g.c, g.q1, g.q2, g.q3, ?_, g.out, g.sd, g.tr⟩
      intro t ht
      have := g.sh t ht
      have hc := of_decide_eq_true (List.all_eq_true.1 hp.2 t (List.mem_range.2 ht))
      unfold Shape at this ⊢
      simp only [hp.1, hc] at this ⊢
      simpa using this
    · cases h
  | destroy =>
    simp only [stepA, destroy] at h
    split at h
    · rename_i hp
      cases h
      refine ⟨g.l, g.c, g.q1, g.q2, g.q3, ?_, g.out, g.sd, g.tr⟩
      intro t ht
      have := g.sh t ht
      unfold Shape at this ⊢
      simp only [hp] at this ⊢
      exact this
    · cases h

theorem step_eq {s s1 : S} {a : Act} (h : step s a = some s1) : s.bad = none ∧ stepA s a = some s1 := by
  unfold step at h
  split at h
  · cases h
  · rename_i hb
    refine ⟨?_, h⟩
    cases hs : s.bad with
    | none => rfl
    | some b => rw [hs] at hb; simp at hb

structure Inv (s : S) : Prop where
  g : Gate s ∨ s.bad.isSome = true
  t : Str s

theorem inv_init {s : S} (h : Init s) : Inv s := by
  obtain ⟨n, max, hn, hm, rfl⟩ := h
  refine ⟨Or.inl ⟨by simp [S.init], by simp [S.init], by simp [S.init], by simp [S.init], hm, by simp [S.init]⟩, ?_⟩
  refine ⟨⟨?_, ?_, ?_⟩, ?_, ?_, ?_, ?_, ?_, ?_, ?_, ?_⟩
  · intro t l hl
    simp only [S.init] at hl
    split at hl
    · cases hl; simp
    · cases hl
  · intro t l c hl
    simp only [S.init] at hl
    split at hl
    · cases hl; simp [S.init]
    · cases hl
  · simp [S.init]
  · simp [S.init]
  · simp [S.init, qc]
  · simp [S.init]
  · simp [S.init, qc]
  · intro t ht
    have : t < n := ht
    unfold Shape
    simp only [S.init, if_pos this]
    exact ⟨trivial, rfl, [], rfl⟩
  · intro t ht
    have : ¬ t < n := Nat.not_lt.2 ht
    simp only [S.init, if_neg this]
    exact ⟨trivial, trivial⟩
  · simp [S.init]
  · simp [S.init]

theorem inv_step {s s1 : S} {a : Act} (i : Inv s) (h : step s a = some s1) : Inv s1 := by
  obtain ⟨hb, h⟩ := step_eq h
  refine ⟨?_, str_step i.t h⟩
  have g : Gate s := i.g.resolve_right (by simp [hb])
  refine gate_step g ?_ h
  intro t c q x hq hx
  obtain ⟨z, hz, h1, _⟩ := i.t.q1 t c (by rw [hq]; simp [mem_qc])
  rw [hx] at hz
  cases hz
  exact h1

theorem inv_of {s : S} (h : Reachable Init step s) : Inv s :=
  Reachable.invariant Inv (fun _ => inv_init) (fun _ _ _ => inv_step) h

theorem gate_of {s : S} (h : Reachable Init step s) (hb : s.bad = none) : Gate s :=
  (inv_of h).g.resolve_right (by simp [hb])

end Verif.Listener
