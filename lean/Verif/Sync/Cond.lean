import Verif.Sync.Queue
/-!
The queue of the condition variable is kept right by every step, and nothing goes wrong.
-/
namespace Verif.Sync
open Verif.Common
variable {G L C : Type} {P : Client G L C} {hold : L → Bool}

/-- A step of `u` that is not about the condition variable. -/
theorem vinv_ctl {s s' : State G L} {u : Nat} {e : EPc} (h : VInv s) (h1 : s'.cq = s.cq) (h2 : s'.ntf = s.ntf)
    (h3 : s'.stale = s.stale) (h0 : s'.bad = false) (h4 : s'.ep = upd s.ep u e)
    (h5 : unn (s.ntf u) e = unn (s.ntf u) (s.ep u)) (h6 : inU e = false → s.ntf u = false)
    (h7 : ∀ b w, s.ep u ≠ .nAct b w) (h8 : ∀ b w, e ≠ .nAct b w) : VInv s' := by
  obtain ⟨g1, g2, g3, g4, g5, g6, g7, g8⟩ := h
  have hu : ∀ t, unn (s.ntf t) (upd s.ep u e t) = unn (s.ntf t) (s.ep t) := by
    intro t; simp only [upd_apply]; split
    · rename_i h; subst h; exact h5
    · rfl
  constructor
  · rw [h1]; exact g1
  · rw [h1, h2, h4]; intro t; rw [hu]; exact g2 t
  · rw [h1, h2, h4]; intro t; rw [hu]; intro ht
    rcases g3 t ht with h | ⟨v, b, hv⟩
    · exact .inl h
    · refine .inr ⟨v, b, ?_⟩
      rw [upd_apply, if_neg]; exact hv
      rintro rfl; exact h7 _ _ hv
  · rw [h1, h2, h4]; intro v b w hv; rw [hu]
    simp only [upd_apply] at hv
    split at hv
    · exact absurd hv (h8 _ _)
    · exact g4 v b w hv
  · rw [h4]; intro v v' b b' w hv hv'
    simp only [upd_apply] at hv hv'
    split at hv
    · exact absurd hv (h8 _ _)
    · split at hv'
      · exact absurd hv' (h8 _ _)
      · exact g5 v v' b b' w hv hv'
  · rw [h2, h4]; intro t; simp only [upd_apply]; split
    · rename_i h; subst h; exact h6
    · exact g6 t
  · rw [h3]; exact g7
  · exact h0

theorem vinv_pop {s : State G L} {u w : Nat} {all any : Bool} {q : List Nat} (h : VInv s) (he : s.ep u = .nGo all any)
    (hq : s.cq = w :: q) : VInv { s with cq := q, ep := upd s.ep u (.nAct all w) } := by
  obtain ⟨g1, g2, g3, g4, g5, g6, g7, g8⟩ := h
  have hw := g2 w (by simp [hq])
  have hwu : w ≠ u := by rintro rfl; rw [he] at hw; simp [unn, inU] at hw
  have hnw : ∀ v b, s.ep v ≠ .nAct b w := fun v b hv => (g4 v b w hv).1 (by simp [hq])
  have huu : ∀ v b, s.ep v ≠ .nAct b u := by
    intro v b hv
    have := (g4 v b u hv).2
    rw [he] at this; simp [unn, inU] at this
  rw [hq, List.nodup_cons] at g1
  have hu : ∀ t, unn (s.ntf t) (upd s.ep u (.nAct all w) t) = unn (s.ntf t) (s.ep t) := by
    intro t; simp only [upd_apply]; split
    · rename_i h; subst h; rw [he]; rfl
    · rfl
  constructor
  · exact g1.2
  · intro t ht; exact (hu t).trans (g2 t (by simp only [hq, List.mem_cons]; exact .inr ht))
  · intro t ht
    have ht := (hu t).symm.trans ht
    rcases g3 t ht with h | ⟨v, b, hv⟩
    · rw [hq, List.mem_cons] at h
      rcases h with rfl | h
      · exact .inr ⟨u, all, by simp⟩
      · exact .inl h
    · refine .inr ⟨v, b, ?_⟩
      show upd s.ep u (.nAct all w) v = _
      rw [upd_apply, if_neg]; exact hv
      rintro rfl; rw [he] at hv; cases hv
  · intro v b x hv
    simp only [upd_apply] at hv
    show x ∉ q ∧ unn (s.ntf x) (upd s.ep u (.nAct all w) x) = true
    rw [hu]
    split at hv
    · cases hv; exact ⟨g1.1, hw⟩
    · have := g4 v b x hv
      rw [hq] at this; exact ⟨fun h => this.1 (List.mem_cons_of_mem _ h), this.2⟩
  · intro v v' b b' x hv hv'
    simp only [upd_apply] at hv hv'
    grind
  · intro t; simp only [upd_apply]; split
    · rename_i h; subst h; intro _; exact g6 _ (by rw [he]; rfl)
    · exact g6 t
  · exact g7
  · exact g8

theorem unn_true {e : EPc} (h : inU e = true) : unn true e = false := by
  cases e <;> simp_all [unn, inU]

/-- `u` activates the waiter `w` it popped, and moves on. -/
theorem vinv_act {s s' : State G L} {u w : Nat} {all : Bool} {e : EPc} (h : VInv s) (he : s.ep u = .nAct all w)
    (h1 : s'.cq = s.cq) (h2 : s'.ntf = (s.activate w).ntf) (h3 : s'.stale = (s.activate w).stale) (h4 : s'.bad = s.bad)
    (h5 : s'.ep = upd (s.activate w).ep u e) (h6 : inU e = false) (h7 : unn false e = false) (h8 : ∀ b w, e ≠ .nAct b w) : VInv s' := by
  obtain ⟨g1, g2, g3, g4, g5, g6, g7, g8⟩ := h
  obtain ⟨k1, k2⟩ := g4 u all w he
  have hwu : w ≠ u := by rintro rfl; rw [he] at k2; simp [unn, inU] at k2
  have hnu : s.ntf u = false := g6 u (by rw [he]; rfl)
  have key : (∀ t, t ≠ w → (s.activate w).ep t = s.ep t ∧ (s.activate w).ntf t = s.ntf t) ∧ (s.activate w).stale = s.stale ∧
      unn ((s.activate w).ntf w) ((s.activate w).ep w) = false ∧ (∀ b x, (s.activate w).ep w ≠ .nAct b x) ∧
      (inU ((s.activate w).ep w) = false → (s.activate w).ntf w = false) := by
    rcases activate_v k2 with ⟨tm, a1, a2⟩ | ⟨a1, a2⟩
    · rw [a2]; simp only [State.setEp]
      refine ⟨fun t ht => by simp [upd_apply, ht], by simp, ?_⟩
      have := g6 w (by rw [a1]; rfl)
      simp [this, unn, inU]
    · rw [a2]
      refine ⟨fun t ht => by simp [upd_apply, ht], rfl, ?_⟩
      refine ⟨by simp [unn_true a1], ?_, by grind⟩
      intro b x hx; rw [show s.ep w = _ from hx] at a1; simp [inU] at a1
  obtain ⟨m1, m2, m3, m4, m5⟩ := key
  have hep : ∀ t, s'.ep t = if t = u then e else if t = w then (s.activate w).ep w else s.ep t := by
    intro t; rw [h5, upd_apply]; split
    · rfl
    · split
      · rename_i h; rw [h]
      · rename_i h; exact (m1 t h).1
  have hnt : ∀ t, s'.ntf t = if t = w then (s.activate w).ntf w else s.ntf t := by
    intro t; rw [h2]; split
    · rename_i h; rw [h]
    · rename_i h; exact (m1 t h).2
  have huu : ∀ v b, s.ep v ≠ .nAct b u := by
    intro v b hv
    have := (g4 v b u hv).2
    rw [he] at this; simp [unn, inU] at this
  have hnv : ∀ v b x, s'.ep v = .nAct b x → v ≠ u ∧ s.ep v = .nAct b x ∧ x ≠ w ∧ x ≠ u := by
    intro v b x hv
    rw [hep] at hv; grind
  have hun : ∀ t, unn (s'.ntf t) (s'.ep t) = if t = u ∨ t = w then false else unn (s.ntf t) (s.ep t) := by
    intro t; rw [hep, hnt]; grind
  constructor
  · rw [h1]; exact g1
  · rw [h1]; intro t ht; rw [hun]
    have := g2 t ht
    have : t ≠ u := by rintro rfl; rw [he] at this; simp [unn, inU] at this
    grind
  · rw [h1]; intro t ht; rw [hun] at ht
    have ht' : t ≠ u ∧ t ≠ w := by grind
    rcases g3 t (by grind) with h | ⟨v, b, hv⟩
    · exact .inl h
    · refine .inr ⟨v, b, ?_⟩
      rw [hep]
      grind [unn, inU]
  · rw [h1]; intro v b x hv
    obtain ⟨a1, a2, a3, a4⟩ := hnv v b x hv
    rw [hun]; grind
  · intro v v' b b' x hv hv'
    exact g5 v v' b b' x (hnv _ _ _ hv).2.1 (hnv _ _ _ hv').2.1
  · intro t; rw [hep, hnt]; grind
  · rw [h3, m2]; exact g7
  · rw [h4]; exact g8

theorem vinv_step (hU : Untimed P) {s s' : State G L} {a : Act C} (hc : CInv P s) (hm : MInv hold s) (hq : QInv s) (h : VInv s)
    (hs : step P s a = some s') : VInv s' := by
  have h0 := h
  obtain ⟨h1, h2, h3, h4, h5, h6, h7, h8⟩ := h
  have hsp := hm.own
  have hun := unt_of hU hc
  cases a with
  | timer u =>
    sync_split hs
    rename_i he
    have := hun u; rw [he] at this; simp [unt] at this
  | stale u => simp [step, h7] at hs
  | go u c =>
    have hu := hsp u
    have hun := hun u
    have h6u := h6 u
    have hqi := hq.inq u
    sync_split hs
    all_goals first
      | (obtain ⟨r, hr, rfl⟩ := hs; exact ⟨h1, h2, h3, h4, h5, h6, h7, h8⟩)
      | (rename_i k w he
         obtain ⟨hw, k', hk⟩ := hq.act u k w he
         rw [activate_m hk] at hs; subst hs; simp only [State.setEp]
         have : VInv { s with ep := upd s.ep w (.lWoken k') } := by
           refine vinv_ctl (u := w) h0 rfl rfl rfl h8 rfl ?_ ?_ ?_ ?_ <;> grind [unn, inU, isW]
         have hne : u ≠ w := by rintro rfl; rw [he] at hk; cases hk
         refine vinv_ctl (u := u) this rfl rfl rfl h8 rfl ?_ ?_ ?_ ?_ <;> clear this <;> (try simp only [upd_apply]) <;> grind [unn, inU, isW])
      | (subst hs; (try simp only [State.setEp, State.retn])
         refine vinv_ctl (u := u) h0 rfl rfl rfl ?_ rfl ?_ ?_ ?_ ?_ <;> clear h0 h1 h2 h3 h4 h5 h6 hsp <;> grind [unn, inU, inM, has])
      | (rename_i all w he hb
         subst hs; refine vinv_act h0 he ?_ ?_ ?_ ?_ rfl rfl rfl (by simp) <;> simp [State.setEp, State.retn, activate_same])
      | (rename_i all any he _ w q hq; subst hs; exact vinv_pop h0 he hq)
      | (subst hs; (try simp only [State.setEp, State.retn]); clear h0 hsp hm hq
         constructor <;> (try simp only [upd_apply]) <;> grind [inM, has, unn, inU, isW])
      | (exfalso; clear h0 h1 h2 h3 h4 h5 h6 hsp; grind [unt])

end Verif.Sync
