import Verif.Join.Refs
/-!
Once the function of the target has returned, every joiner can return.
-/
namespace Verif.Join
open Verif.Common

def QL (s : State) : Prop := QInv s ∧ Lck s

theorem QL.step {s s' : State} {a : Act} (h : QL s) (hs : step s a = some s') : QL s' :=
  ⟨qinv_step h.1 hs, lck_step h.1 h.2 hs⟩

/-- Steps inside operations lead to the return of `t`'s `Join`. -/
def Can (s : State) (t : Nat) : Prop :=
  ∃ acts s', (∀ a ∈ acts, Inner a) ∧ exec step s acts = some s' ∧ Returned s' t

theorem can_step {s s' : State} {t : Nat} (a : Act) (ha : Inner a) (hs : step s a = some s') (h : Can s' t) : Can s t := by
  obtain ⟨acts, s'', h1, h2, h3⟩ := h
  refine ⟨a :: acts, s'', ?_, ?_, h3⟩
  · intro b hb; rcases List.mem_cons.1 hb with rfl | hb
    · exact ha
    · exact h1 b hb
  · simp only [exec, hs, h2]

theorem can_ret {s : State} {t : Nat} (h : s.jpc t = .ret) : Can s t := ⟨[], s, by simp, rfl, h⟩

theorem can_woken {s : State} {t : Nat} (h : s.jpc t = .susp) (hw : s.wake t = true) : Can s t := by
  refine can_step (.j t) trivial (s' := ?_) ?_ ?_
  rotate_left
  · simp only [step, stepJ, h, hw, if_true]
    rfl
  · exact can_ret (by simp)

theorem can_act {s : State} {t : Nat} (h : s.jpc t = .susp) (hf : s.fpc = .act t) : Can s t := by
  refine can_step .f trivial (s' := ?_) ?_ ?_
  rotate_left
  · simp only [step, stepF, hf]
    rfl
  · exact can_woken h (by simp)

theorem can_ntf {t : Nat} : ∀ (n : Nat) {s : State}, QL s → s.jq.length = n → s.fpc = .ntf → s.jpc t = .susp → s.wake t = false →
    Can s t := by
  intro n
  induction n with
  | zero =>
    intro s hQ hn hf hj hw
    rcases hQ.1.q3 t hj hw with h | h
    · rw [List.eq_nil_of_length_eq_zero hn] at h; simp at h
    · rw [hf] at h; cases h
  | succ n ih =>
    intro s hQ hn hf hj hw
    cases hq : s.jq with
    | nil => rw [hq] at hn; cases hn
    | cons u q =>
      have h1 : step s .f = some { s.touch with jq := q, fpc := .act u } := by simp only [step, stepF, hf, hq]
      have hQ1 := hQ.step h1
      refine can_step .f trivial h1 ?_
      by_cases hu : u = t
      · subst hu; exact can_act (s := { s.touch with jq := q, fpc := .act u }) hj rfl
      · refine can_step .f trivial (s' := ?_) ?_ ?_
        rotate_left
        · simp only [step, stepF]; rfl
        · refine ih (hQ1.step (a := .f) ?_) ?_ rfl hj ?_
          · simp only [step, stepF]
          · rw [hq] at hn; simpa [State.touch] using hn
          · simp only [State.touch, upd_apply, if_neg (Ne.symm hu)]; exact hw

theorem can_or_free {s : State} {t : Nat} (hQ : QL s) (hf : s.fpc = .or_) (hb : s.flagB = false) (hj : s.jpc t = .susp)
    (hw : s.wake t = false) : Can s t := by
  have h1 : step s .f = some { s.touch with flagT := true, flagB := true, fpc := .ntf } := by
    simp only [step, stepF, hf, hb, Bool.false_eq_true, if_false]
  exact can_step .f trivial h1 (can_ntf _ (hQ.step h1) rfl rfl hj hw)

theorem can_or {s : State} {t : Nat} (hQ : QL s) (hf : s.fpc = .or_) (hj : s.jpc t = .susp) (hw : s.wake t = false) : Can s t := by
  by_cases hb : s.flagB = false
  · exact can_or_free hQ hf hb hj hw
  · rcases hQ.2 (by simpa using hb) with h | ⟨u, hu⟩
    · rw [hf] at h; cases h
    · have hut : t ≠ u := by rintro rfl; rw [hj] at hu; cases hu
      have key : ∀ {s : State}, QL s → s.fpc = .or_ → s.jpc t = .susp → s.wake t = false → s.jpc u = .clr → Can s t := by
        intro s hQ hf hj hw hu
        have h1 : step s (.j u) = some { s.touch with flagB := false, jpc := upd s.jpc u .susp } := by simp only [step, stepJ, hu]
        exact can_step (.j u) trivial h1
          (can_or_free (hQ.step h1) hf rfl (by dsimp only [State.touch]; rw [upd_ne _ _ hut]; exact hj) hw)
      cases hju : s.jpc u <;> rw [hju] at hu <;> (try (simp [jcs] at hu; done))
      · have h1 : step s (.j u) = some { s.touch with flagB := false, jpc := upd s.jpc u .ret } := by simp only [step, stepJ, hju]
        exact can_step (.j u) trivial h1
          (can_or_free (hQ.step h1) hf rfl (by dsimp only [State.touch]; rw [upd_ne _ _ hut]; exact hj) hw)
      · have h1 : step s (.j u) = some { s.touch with jq := s.jq ++ [u], jpc := upd s.jpc u .clr } := by simp only [step, stepJ, hju]
        exact can_step (.j u) trivial h1
          (key (hQ.step h1) hf (by dsimp only [State.touch]; rw [upd_ne _ _ hut]; exact hj) hw (by simp))
      · exact key hQ hf hj hw hju

theorem can_susp {s : State} {t : Nat} (hQ : QL s) (he : s.fpc ≠ .run) (hj : s.jpc t = .susp) : Can s t := by
  cases hw : s.wake t with
  | true => exact can_woken hj hw
  | false =>
    cases hf : s.fpc with
    | run => exact absurd hf he
    | sched =>
      have h1 : step s .f = some { s.touch with tq := true, fpc := .or_ } := by simp only [step, stepF, hf]
      exact can_step .f trivial h1 (can_or (hQ.step h1) rfl hj hw)
    | or_ => exact can_or hQ hf hj hw
    | ntf => exact can_ntf _ hQ rfl hf hj hw
    | act u =>
      by_cases hu : u = t
      · subst hu; exact can_act hj hf
      · refine can_step .f trivial (s' := ?_) ?_ ?_
        rotate_left
        · simp only [step, stepF, hf]; rfl
        · refine can_ntf _ (hQ.step (a := .f) ?_) rfl rfl hj ?_
          · simp only [step, stepF, hf]
          · simp only [State.touch, upd_apply, if_neg (Ne.symm hu)]; exact hw
    | clr | pre | out =>
      exfalso
      have := hQ.1.qe (by simp [hf])
      rcases hQ.1.q3 t hj hw with h | h
      · rw [this] at h; simp at h
      · rw [hf] at h; cases h

theorem can_try {s : State} {t : Nat} (hT : s.flagT = true) (hj : s.jpc t = .try_) : Can s t := by
  cases hb : s.flagB with
  | true =>
    refine can_step (.j t) trivial (s' := ?_) ?_ ?_
    rotate_left
    · simp only [step, stepJ, hj, hT, hb, if_true]; rfl
    · exact can_ret (by simp)
  | false =>
    refine can_step (.j t) trivial (s' := ?_) ?_ ?_
    rotate_left
    · simp only [step, stepJ, hj, hT, hb, if_true, Bool.false_eq_true, if_false]; rfl
    · refine can_step (.j t) trivial (s' := ?_) ?_ ?_
      rotate_left
      · simp only [step, stepJ, upd_same]; rfl
      · exact can_ret (by simp)

theorem can_join {s : State} {t : Nat} (hQ : QL s) (he : s.fpc ≠ .run) (hj : InJoin s t) : Can s t := by
  have kc : ∀ {s : State}, QL s → s.fpc ≠ .run → s.jpc t = .clr → Can s t := by
    intro s hQ he hc
    have h1 : step s (.j t) = some { s.touch with flagB := false, jpc := upd s.jpc t .susp } := by simp only [step, stepJ, hc]
    exact can_step (.j t) trivial h1 (can_susp (hQ.step h1) he (by simp))
  have ko : ∀ {s : State}, s.fpc = .or_ → s.jpc t = .try_ → Can s t := by
    intro s hf hc
    cases hb : s.flagB with
    | true =>
      refine can_step .f trivial (s' := ?_) ?_ ?_
      rotate_left
      · simp only [step, stepF, hf, hb, if_true]; rfl
      · exact can_try rfl hc
    | false =>
      refine can_step .f trivial (s' := ?_) ?_ ?_
      rotate_left
      · simp only [step, stepF, hf, hb, Bool.false_eq_true, if_false]; rfl
      · exact can_try rfl hc
  cases hc : s.jpc t with
  | idle => exact absurd hc hj.1
  | ret => exact absurd hc hj.2
  | susp => exact can_susp hQ he hc
  | clr => exact kc hQ he hc
  | link =>
    have h1 : step s (.j t) = some { s.touch with jq := s.jq ++ [t], jpc := upd s.jpc t .clr } := by simp only [step, stepJ, hc]
    exact can_step (.j t) trivial h1 (kc (hQ.step h1) he (by simp))
  | rel =>
    have h1 : step s (.j t) = some { s.touch with flagB := false, jpc := upd s.jpc t .ret } := by simp only [step, stepJ, hc]
    exact can_step (.j t) trivial h1 (can_ret (by simp))
  | try_ =>
    cases hT : s.flagT with
    | true => exact can_try hT hc
    | false =>
      cases hf : s.fpc with
      | run => exact absurd hf he
      | sched =>
        have h1 : step s .f = some { s.touch with tq := true, fpc := .or_ } := by simp only [step, stepF, hf]
        exact can_step .f trivial h1 (ko rfl hc)
      | or_ => exact ko hf hc
      | ntf | act _ | clr | pre | out =>
        have := hQ.1.lT (by simp [hf, early])
        rw [hT] at this; cases this

end Verif.Join
