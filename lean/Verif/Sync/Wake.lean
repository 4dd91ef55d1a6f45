import Verif.Sync.Cond
/-!
All invariants together, and clients that wait for a condition to become true.
-/
namespace Verif.Sync
open Verif.Common
variable {G L C : Type} {P : Client G L C} {hold : L → Bool} {I : G → Prop} {J : L → Prop}

theorem cinv_reach {s : State G L} (h : Reachable (Init I J) (step P) s) : CInv P s := by
  refine h.invariant _ ?_ (fun s a s' hI hs => cinv_step hI hs)
  intro s hi t; rw [hi.2.2]; exact trivial

theorem minv_reach (hD : Disc P hold) (hJ : ∀ l, J l → hold l = false) {s : State G L} (h : Reachable (Init I J) (step P) s) :
    MInv hold s := by
  refine (h.invariant (fun s => CInv P s ∧ MInv hold s) ?_ (fun s a s' hI hs => ⟨cinv_step hI.1 hs, minv_step hD hI.1 hI.2 hs⟩)).2
  intro s hi
  have := hi.2.1
  refine ⟨cinv_reach (.init hi trivial), ?_⟩
  rw [hi.2.2]
  constructor <;> intro t <;> have := hJ _ (this t) <;> simp_all [has, inSpin]

/-- Fibers that do not exist do nothing. -/
def NI (s : State G L) : Prop := ∀ t, s.n ≤ t → s.ep t = .cl

theorem ni_reach {s : State G L} (h : Reachable (Init I J) (step P) s) : NI s := by
  refine h.invariant _ ?_ ?_
  · intro s hi t _; rw [hi.2.2]
  · intro s a s' h hs t
    have hact : ∀ w t, s.n ≤ t → (s.activate w).ep t = .cl := by
      intro w t ht; have := h t ht; unfold State.activate; split <;> simp only [State.setEp, upd_apply] <;> grind
    have hn := fun w => (activate_same s w).2.2.2.2.2.2
    have h := fun t => h t
    cases a with
    | timer u => sync_split hs; subst hs; simp only [State.setEp, upd_apply]; grind
    | stale u => sync_split hs; subst hs; simp only [upd_apply]; grind
    | go u c =>
      sync_split hs
      all_goals first
        | (obtain ⟨r, h1, rfl⟩ := hs; exact h t)
        | (subst hs; simp only [State.setEp, State.retn, upd_apply]; grind)

structure AllInv (P : Client G L C) (hold : L → Bool) (s : State G L) : Prop where
  c : CInv P s
  m : MInv hold s
  q : QInv s
  v : VInv s

theorem allinv_reach (hD : Disc P hold) (hU : Untimed P) (hJ : ∀ l, J l → hold l = false) {s : State G L}
    (h : Reachable (Init I J) (step P) s) : AllInv P hold s := by
  refine h.invariant _ ?_ (fun s a s' hI hs => ⟨cinv_step hI.c hs, minv_step hD hI.c hI.m hs, qinv_step hI.m hI.v hI.q hs,
    vinv_step hU hI.c hI.m hI.q hI.v hs⟩)
  intro s hi
  refine ⟨cinv_reach (.init hi trivial), minv_reach hD hJ (.init hi trivial), ?_, ?_⟩
  · rw [hi.2.2]; constructor <;> simp
  · rw [hi.2.2]; constructor <;> simp [unn, inU]

/-- The client invariant rule: properties of shared and local data alone. `R g l` need only be shown
for the steps of client programs. -/
theorem client_reach {R : G → (Nat → L) → Prop} {Q : State G L → Prop} (hinit : ∀ s, Init I J s → R s.g s.cl)
    (hloc : ∀ (s : State G L) t c g' l', Q s → R s.g s.cl → s.ep t = .cl → t < s.n → P.call (s.cl t) = .loc →
      P.loc s.g (s.cl t) t c = some (g', l') → R g' (upd s.cl t l'))
    (hret : ∀ (s : State G L) t b, Q s → R s.g s.cl → t < s.n → s.ep t ≠ .cl → P.call (s.cl t) ≠ .loc → R s.g (upd s.cl t (P.ret (s.cl t) b)))
    {s : State G L} (h : Reach (Init I J) (step P) Q s) : R s.g s.cl := by
  suffices h : R s.g s.cl ∧ CInv P s from h.1
  refine h.invariant (fun s => R s.g s.cl ∧ CInv P s) (fun s hi _ => ⟨hinit s hi, cinv_reach (.init hi trivial)⟩) ?_
  intro s a s' ⟨hR, hc⟩ hQ hs _
  refine ⟨?_, cinv_step hc hs⟩
  have hg : ∀ w, (s.activate w).g = s.g := fun w => (activate_same s w).2.2.2.2.2.1
  cases a with
  | timer u => sync_split hs; subst hs; exact hR
  | stale u => sync_split hs; subst hs; exact hR
  | go u c =>
    have hcu := hc u
    sync_split hs
    all_goals first
      | (obtain ⟨⟨g', l'⟩, h1, rfl⟩ := hs; exact hloc s u c g' l' hQ hR (by assumption) (by assumption) (by assumption) h1)
      | (subst hs; simp only [State.setEp, hg, activate_cl]; exact hR)
      | (subst hs; simp only [State.retn, hg, activate_cl]
         refine hret s u _ hQ hR (by assumption) (by assumption) ?_
         intro h; rw [h] at hcu; simp_all [callOk, callK, callU])

/-- Clients that wait for a condition, re-checked under the mutex, that is only changed under the
mutex and whose change is followed by `notify_all`. -/
structure Signals (P : Client G L C) (hold : L → Bool) (cond : G → L → Prop) (obl : L → Prop) : Prop where
  check : ∀ g l t c g' l', P.call l = .loc → P.loc g l t c = some (g', l') → (∃ tm, P.call l' = .wait tm) → ¬ cond g' l'
  nowait : ∀ l b, P.call l ≠ .loc → ∀ tm, P.call (P.ret l b) ≠ .wait tm
  make : ∀ g l t c g' l' m, P.call l = .loc → P.loc g l t c = some (g', l') → (∃ tm, P.call m = .wait tm) → ¬ cond g m → cond g' m →
    hold l = true ∧ obl l'
  keepLoc : ∀ g l t c g' l', obl l → P.call l = .loc → P.loc g l t c = some (g', l') → obl l'
  keepRet : ∀ l b, obl l → P.call l ≠ .loc → P.call l ≠ .notify true → obl (P.ret l b)

/-- Who has called `wait` is waiting for something that is not there, or help is on the way. -/
structure WInv (P : Client G L C) (cond : G → L → Prop) (obl : L → Prop) (s : State G L) : Prop where
  pre : ∀ t tm, s.ep t = .cl → P.call (s.cl t) = .wait tm → ¬ cond s.g (s.cl t)
  wait : ∀ t, unn (s.ntf t) (s.ep t) = true → cond s.g (s.cl t) → (∃ u, obl (s.cl u)) ∨ ∃ u all, s.ep u = .nAct all t

theorem activate_unn (s : State G L) (w t : Nat) (h : unn ((s.activate w).ntf t) ((s.activate w).ep t) = true) :
    unn (s.ntf t) (s.ep t) = true ∧ t ≠ w := by
  have h0 : unn (s.ntf t) (s.ep t) = true := by
    unfold State.activate at h
    split at h <;> simp only [State.setEp, upd_apply] at h <;> grind [unn, inU, isW]
  refine ⟨h0, ?_⟩
  rintro rfl
  rcases activate_v h0 with ⟨tm, h1, h2⟩ | ⟨h1, h2⟩
  · rw [h2] at h; simp [State.setEp, unn, inU] at h
  · rw [h2] at h; simp only [upd_same] at h; rw [unn_true h1] at h; cases h

theorem activate_nact (s : State G L) (w u : Nat) (b : Bool) (x : Nat) : (s.activate w).ep u = .nAct b x ↔ s.ep u = .nAct b x := by
  unfold State.activate
  split <;> simp only [State.setEp, upd_apply] <;> grind

theorem activate_iscl (s : State G L) (w u : Nat) : (s.activate w).ep u = .cl ↔ s.ep u = .cl := by
  unfold State.activate
  split <;> simp only [State.setEp, upd_apply] <;> grind

/-- A step inside an operation. -/
theorem winv_mono {cond : G → L → Prop} {obl : L → Prop} {s s' : State G L} (h : WInv P cond obl s) (hg : s'.g = s.g) (hc : s'.cl = s.cl)
    (h1 : ∀ t, s'.ep t = .cl → s.ep t = .cl) (h2 : ∀ t, unn (s'.ntf t) (s'.ep t) = true → unn (s.ntf t) (s.ep t) = true)
    (h3 : ∀ u b t, s.ep u = .nAct b t → unn (s'.ntf t) (s'.ep t) = true → ∃ u' b', s'.ep u' = .nAct b' t) : WInv P cond obl s' := by
  obtain ⟨g1, g2⟩ := h
  constructor
  · intro t tm ht; rw [hc, hg]; exact g1 t tm (h1 t ht)
  · intro t ht; rw [hc, hg]; intro hcd
    rcases g2 t (h2 t ht) hcd with h | ⟨u, b, hu⟩
    · exact .inl h
    · exact .inr (h3 u b t hu ht)

/-- A call returns. -/
theorem winv_ret {cond : G → L → Prop} {obl : L → Prop} (hS : Signals P hold cond obl) {s s' : State G L} {u : Nat} {b : Bool} (h : WInv P cond obl s)
    (hg : s'.g = s.g) (hc : s'.cl = upd s.cl u (P.ret (s.cl u) b)) (hl : P.call (s.cl u) ≠ .loc)
    (h1 : ∀ t, t ≠ u → s'.ep t = .cl → s.ep t = .cl)
    (h2 : ∀ t, unn (s'.ntf t) (s'.ep t) = true → t ≠ u ∧ unn (s.ntf t) (s.ep t) = true)
    (h3 : ∀ v b t, s.ep v = .nAct b t → unn (s'.ntf t) (s'.ep t) = true → ∃ u' b', s'.ep u' = .nAct b' t)
    (h4 : P.call (s.cl u) = .notify true → ∀ t, unn (s'.ntf t) (s'.ep t) = true → ∃ u' b', s'.ep u' = .nAct b' t) : WInv P cond obl s' := by
  obtain ⟨g1, g2⟩ := h
  have g4 := hS.keepRet (s.cl u) b
  constructor
  · intro t tm ht; rw [hc, hg, upd_apply]
    split
    · intro h; exact absurd h (hS.nowait _ _ hl _)
    · rename_i hne; exact g1 t tm (h1 t hne ht)
  · intro t ht; rw [hc, hg, upd_apply, if_neg (h2 t ht).1]; intro hcd
    rcases g2 t (h2 t ht).2 hcd with ⟨v, hv⟩ | ⟨u, b, hu⟩
    · by_cases hvu : v = u
      · subst hvu
        by_cases hn : P.call (s.cl v) = .notify true
        · exact .inr (h4 hn t ht)
        · exact .inl ⟨v, by rw [upd_apply, if_pos rfl]; exact g4 hv hl hn⟩
      · exact .inl ⟨v, by rw [upd_apply, if_neg hvu]; exact hv⟩
    · exact .inr (h3 u b t hu ht)

theorem winv_loc (hD : Disc P hold) {cond : G → L → Prop} {obl : L → Prop} (hS : Signals P hold cond obl) {s : State G L} {u : Nat} {c : C} {g' : G} {l' : L}
    (hm : MInv hold s) (h : WInv P cond obl s) (he : s.ep u = .cl) (hl : P.call (s.cl u) = .loc)
    (hs : P.loc s.g (s.cl u) u c = some (g', l')) (hc : CInv P s) : WInv P cond obl { s with g := g', cl := upd s.cl u l' } := by
  obtain ⟨g1, g2⟩ := h
  have hown : ∀ t, s.owner = some t → hold (s.cl u) = true → t = u := by
    intro t ht hh
    have := (hm.own u).2 (by rw [he]; exact hh)
    grind
  constructor
  · intro t tm ht hw
    simp only [upd_apply] at hw ⊢
    split
    · rename_i h; rw [if_pos h] at hw; exact hS.check _ _ _ _ _ _ hl hs ⟨tm, hw⟩
    · rename_i hne; rw [if_neg hne] at hw
      intro hcd
      by_cases hold0 : cond s.g (s.cl t)
      · exact g1 t tm ht hw hold0
      · have hk := (hS.make _ _ _ _ _ _ (s.cl t) hl hs ⟨tm, hw⟩ hold0 hcd).1
        have hht : hold (s.cl t) = true := (hD.wait _ true tm hw).1
        exact hne (hown t ((hm.own t).2 (by rw [show s.ep t = _ from ht]; exact hht)) hk)
  · intro t ht hcd
    have hne : t ≠ u := by rintro rfl; rw [show s.ep t = _ from he] at ht; simp [unn, inU] at ht
    simp only [upd_apply, if_neg hne] at hcd
    by_cases hold0 : cond s.g (s.cl t)
    · rcases g2 t ht hold0 with ⟨v, hv⟩ | h
      · left
        by_cases hvu : v = u
        · subst hvu; exact ⟨v, by simp only [upd_same]; exact hS.keepLoc _ _ _ _ _ _ hv hl hs⟩
        · exact ⟨v, by simp only [upd_apply, if_neg hvu]; exact hv⟩
      · exact .inr h
    · left
      have hw : ∃ tm, P.call (s.cl t) = .wait tm := by
        have := hc t
        have ht : unn (s.ntf t) (s.ep t) = true := ht
        cases he : s.ep t <;> simp only [he, unn, inU, callOk] at this ht <;> try (simp at ht; done)
        all_goals first
          | exact ⟨_, this⟩
          | (rename_i k; cases k <;> simp [isW] at ht; exact ⟨_, this⟩)
          | (rename_i k _; cases k <;> simp [isW] at ht; exact ⟨_, this⟩)
      exact ⟨u, by simp only [upd_same]; exact (hS.make _ _ _ _ _ _ (s.cl t) hl hs hw hold0 hcd).2⟩

theorem winv_step (hD : Disc P hold) {cond : G → L → Prop} {obl : L → Prop} (hS : Signals P hold cond obl) {s s' : State G L} {a : Act C}
    (hA : AllInv P hold s) (h : WInv P cond obl s) (hs : step P s a = some s') : WInv P cond obl s' := by
  have hcu := hA.c
  cases a with
  | timer u => 
    sync_split hs; subst hs; simp only [State.setEp]
    refine winv_mono h rfl rfl ?_ ?_ ?_ <;> simp only [upd_apply] <;> grind [unn, inU]
  | stale u => simp [step, hA.v.stl] at hs
  | go u c =>
    have hcu := hcu u
    have hntf := hA.v.ntf u
    sync_split hs
    all_goals first
      | (obtain ⟨⟨g', l'⟩, hr, rfl⟩ := hs; exact winv_loc hD hS hA.m h (by assumption) (by assumption) hr hA.c)
      | (subst hs
         refine winv_mono h rfl rfl ?_ ?_ ?_ <;> (try simp only [State.setEp, upd_apply]) <;> grind [unn, inU, isW])
      | (subst hs
         refine winv_ret hS (u := u) h rfl rfl ?_ ?_ ?_ ?_ ?_ <;> (try simp only [State.setEp, State.retn, upd_apply]) <;>
          grind [unn, inU, isW, callOk, callK, callU])
      | (rename_i hc
         subst hs; obtain ⟨g1, g2⟩ := h
         have g3 := g1 u _ (by assumption) hc
         constructor
         · intro t tm; have := g1 t tm; simp only [upd_apply]; grind
         · intro t; have := g2 t; simp only [upd_apply]
           intro h3 h4
           by_cases htu : t = u
           · subst htu; exact absurd h4 g3
           · simp only [if_neg htu] at h3
             rcases this h3 h4 with h | ⟨v, b, hv⟩
             · exact .inl h
             · exact .inr ⟨v, b, by grind⟩)
      | (rename_i k w he
         obtain ⟨-, k', hk⟩ := hA.q.act u k w he
         rw [activate_m hk] at hs; subst hs
         refine winv_mono h rfl rfl ?_ ?_ ?_ <;> simp only [State.setEp, upd_apply] <;> grind [unn, inU, isW])
      | (rename_i w he; subst hs
         have k1 := activate_unn s w
         have k2 := activate_nact s w
         have k3 := activate_iscl s w
         refine winv_mono h (activate_same s w).2.2.2.2.2.1 (activate_cl s w) ?_ ?_ ?_ <;> simp only [State.setEp, upd_apply] <;> grind [unn, inU, isW])
      | (rename_i w he hb; subst hs
         have k1 := activate_unn s w
         have k2 := activate_nact s w
         have k3 := activate_iscl s w
         refine winv_mono h (activate_same s w).2.2.2.2.2.1 (activate_cl s w) ?_ ?_ ?_ <;> simp only [State.setEp, upd_apply] <;> grind [unn, inU, isW])
      | (rename_i w he hb; subst hs
         have k1 := activate_unn s w
         have k2 := activate_nact s w
         have k3 := activate_iscl s w
         refine winv_ret hS (u := u) (b := true) h (activate_same s w).2.2.2.2.2.1 (by simp [State.retn, activate_cl]) ?_ ?_ ?_ ?_ ?_ <;>
          (try simp only [State.retn, upd_apply]) <;> grind [unn, inU, isW, callOk])
      | (rename_i all any he _ hq; subst hs
         have k1 := hA.v.out
         refine winv_ret hS (u := u) h rfl rfl ?_ ?_ ?_ ?_ ?_ <;> (try simp only [State.setEp, State.retn, upd_apply]) <;>
          grind [unn, inU, isW, callOk, callK, callU])

/-- Nobody who waits for a condition that has become true is forgotten. -/
theorem winv_reach (hD : Disc P hold) (hU : Untimed P) (hJ : ∀ l, J l → hold l = false ∧ ∀ tm, P.call l ≠ .wait tm)
    {cond : G → L → Prop} {obl : L → Prop} (hS : Signals P hold cond obl) {s : State G L} (h : Reachable (Init I J) (step P) s) :
    WInv P cond obl s := by
  have key : AllInv P hold s ∧ WInv P cond obl s := by
    induction h with
    | init hi _ =>
      refine ⟨allinv_reach hD hU (fun l hl => (hJ l hl).1) (.init hi trivial), ?_⟩
      have := hi.2.1
      rw [hi.2.2]
      constructor
      · intro t tm _ hc; exact absurd hc ((hJ _ (this t)).2 tm)
      · intro t; simp [unn, inU]
    | step hr hs _ ih =>
      exact ⟨allinv_reach hD hU (fun l hl => (hJ l hl).1) (.step hr hs trivial), winv_step hD hS ih.1 ih.2 hs⟩
  exact key.2

end Verif.Sync
