import Verif.Listener.Run
/-! Which failures cannot happen. -/
namespace Verif.Listener
open Verif.Common

/-- Neither a missing list at the start of a task nor at the end of a connection. -/
def Fine (b : Option Bad) : Prop := b ≠ some .noList ∧ b ≠ some .notFound

theorem fine_none : Fine none := ⟨by simp, by simp⟩

theorem sdGo_bad {s s1 : S} {t : Nat} {i : Option Nat} (h : sdGo s t i = some s1) : s1.bad = s.bad := by
  unfold sdGo at h
  split at h
  · cases h; rfl
  · split at h
    · cases h
    · cases h; rfl

theorem enter_bad {s s1 : S} {k : Nat} {r : Tr} (h0 : s.bad = none) (h : enter s k r = some s1) : Fine s1.bad := by
  unfold enter at h
  repeat' split at h
  all_goals first | (cases h; done) | (cases h; simp [Fine, S.fail, S.setT, h0])

theorem fine_step {s s1 : S} (st : Str s) (hb : s.bad = none) {a : Act} (h : stepA s a = some s1) : Fine s1.bad := by
  cases a with
  | setMax m =>
    simp only [stepA] at h
    split at h <;> cases h
    simp [Fine, hb]
  | setPause b =>
    simp only [stepA] at h
    split at h <;> cases h
    simp [Fine, hb]
  | accept t =>
    simp only [stepA, accept] at h
    repeat' split at h
    all_goals first | (cases h; done) | (cases h; simp [Fine, hb])
  | pop t =>
    simp only [stepA, pop] at h
    split at h
    · rename_i htn
      have sh := st.sh t htn
      have some_list : s.queue t ≠ [] → (s.lists t).isSome = true := by
        intro hq
        unfold Shape at sh
        cases hph : s.phase <;> rw [hph] at sh <;> simp only at sh
        · exact sh.2.1
        · exact sh.1
        · rcases sh with sh | sh
          · exact sh.1
          · exact absurd sh.2.2 hq
        · exact absurd sh.2.2 hq
        · exact absurd sh.2.2 hq
      split at h
      · cases h
      split at h
      · cases h
      · rename_i e
        have := some_list (by rw [e]; simp)
        split at h
        · cases h
        split at h
        · rename_i hn; rw [hn] at this; simp at this
        · cases h; simp [Fine, S.setC, hb]
      · rename_i e
        have := some_list (by rw [e]; simp)
        split at h
        · rename_i hn; rw [hn] at this; simp at this
        · rw [sdGo_bad h]; simp [Fine, hb]
      · rename_i e
        have := some_list (by rw [e]; simp)
        split at h
        · rename_i hn; rw [hn] at this; simp at this
        · cases h; simp [Fine, hb]
    · cases h
  | migBegin c d =>
    simp only [stepA, migBegin] at h
    repeat' split at h
    all_goals first | (cases h; done) | (cases h; simp [Fine, S.fail, S.setC, hb])
  | migAdd c =>
    simp only [stepA, migAdd] at h
    repeat' split at h
    all_goals first | (cases h; done) | (cases h; simp [Fine, S.fail, S.setC, hb])
  | migBack c =>
    simp only [stepA, migBack] at h
    repeat' split at h
    all_goals first | (cases h; done) | (cases h; simp [Fine, S.fail, S.setC, hb])
  | migUnlink c =>
    simp only [stepA, migUnlink] at h
    split at h
    · cases h
    rename_i x hx
    split at h
    · split at h
      · cases h
      split at h
      · cases h; simp [Fine, S.setC, hb]
      · cases h; simp [Fine, S.fail]
      · rename_i t hn ht
        have h1 := st.l.hk c x _ hx ht
        have h2 := ((st.c c x hx).hook _ ht).1
        rw [h2, hn] at h1
        simp at h1
    · cases h
  | migArrive c =>
    simp only [stepA, migArrive] at h
    repeat' split at h
    all_goals first | (cases h; done) | (cases h; simp [Fine, S.fail, S.setC, hb])
  | migRelease c =>
    simp only [stepA, migRelease] at h
    repeat' split at h
    all_goals first | (cases h; done) | (cases h; simp [Fine, S.fail, S.setC, hb])
  | finish c =>
    simp only [stepA, finish] at h
    repeat' split at h
    all_goals first | (cases h; done) | (cases h; simp [Fine, S.fail, S.setC, hb])
  | close c =>
    simp only [stepA, close] at h
    split at h
    · cases h
    rename_i x hx
    split at h
    · split at h
      · cases h
      split at h
      · cases h; simp [Fine, S.fail]
      split at h
      · cases h; simp [Fine, S.setC, hb]
      rename_i ht
      split at h
      · rename_i hn
        have h1 := st.l.hk c x _ hx ht
        have h2 := ((st.c c x hx).hook _ ht).1
        rw [h2, hn] at h1
        simp at h1
      · cases h; simp [Fine, S.setC, hb]
    · cases h
  | callAll =>
    simp only [stepA, callAll] at h
    split at h <;> cases h
    simp [Fine, hb]
  | callOne t l fr =>
    simp only [stepA, callOne] at h
    split at h <;> cases h
    simp [Fine, hb]
  | trAdd k =>
    simp only [stepA, trAdd] at h
    repeat' split at h
    all_goals first | (cases h; done) | exact enter_bad (by exact hb) h | (cases h; simp [Fine, S.fail, S.setT, hb])
  | trCheck k =>
    simp only [stepA, trCheck] at h
    repeat' split at h
    all_goals first | (cases h; done) | exact enter_bad (by exact hb) h | (cases h; simp [Fine, S.fail, hb])
  | trVisit k =>
    simp only [stepA, trVisit] at h
    repeat' split at h
    all_goals first | (cases h; done) | (cases h; simp [Fine, S.setT, hb])
  | stop =>
    simp only [stepA, stop] at h
    split at h <;> cases h
    simp [Fine, hb]
  | sdNext t =>
    simp only [stepA, sdNext] at h
    repeat' split at h
    all_goals first | (cases h; done) | (rw [sdGo_bad h]; simp [Fine, hb]; done) | (cases h; simp [Fine, S.fail])
  | stop2 =>
    simp only [stepA, stop2] at h
    split at h <;> cases h
    simp [Fine, hb]
  | emptied t =>
    simp only [stepA, emptied] at h
    repeat' split at h
    all_goals first | (cases h; done) | (cases h; simp [Fine, hb])
  | post =>
    simp only [stepA, post] at h
    split at h <;> cases h
    simp [Fine, hb]
  | destroy =>
    simp only [stepA, destroy] at h
    split at h <;> cases h
    simp [Fine, hb]

theorem fine_of {s : S} (h : Reachable Init step s) : Fine s.bad := by
  refine (Reachable.invariant (fun s => Str s ∧ Fine s.bad) (fun s hi => ⟨(inv_init hi).t, ?_⟩) (fun s a s' hI hst => ?_) h).2
  · obtain ⟨n, max, _, _, rfl⟩ := hi
    exact fine_none
  · obtain ⟨hb, hst⟩ := step_eq hst
    exact ⟨str_step hI.1 hst, fine_step hI.1 hb hst⟩

end Verif.Listener
