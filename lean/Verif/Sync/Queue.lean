import Verif.Sync.Lemmas
/-!
The wait queues of the mutex and of the condition variable: who is in them, and who takes care of those who are.
-/
namespace Verif.Sync
open Verif.Common
variable {G L C : Type} {P : Client G L C} {hold : L → Bool}

/-- No timed wait is in progress. -/
def unt : EPc → Bool
  | .lAcq k | .lCs k | .lRelOk k | .lRelSlp k | .lSleep k | .lWoken k => match k with
    | .wait true _ => false
    | _ => true
  | .uAcq k | .uCs k | .uNtf k | .uAct k _ | .uRel k => match k with
    | .wait true => false
    | _ => true
  | .cSleep tm => !tm
  | .cWoken tm _ => !tm
  | .post _ => false
  | _ => true

theorem unt_of (hU : Untimed P) {s : State G L} (hc : CInv P s) (t : Nat) : unt (s.ep t) = true := by
  have h1 := hc t
  have h2 := hU (s.cl t)
  unfold callOk at h1; unfold unt
  repeat' split at h1
  all_goals repeat' split
  all_goals grind [callK, callU]

def isW : UK → Bool
  | .unlock => false
  | .wait _ => true

/-- Inside `wait`, from linking the waiter to suspending. -/
def inU : EPc → Bool
  | .uAcq k | .uCs k | .uNtf k | .uAct k _ | .uRel k => isW k
  | _ => false

/-- `Unnotified`, computed. -/
def unn (n : Bool) : EPc → Bool
  | .cSleep _ => true
  | e => inU e && !n

theorem unn_iff (s : State G L) (t : Nat) : Unnotified s t ↔ unn (s.ntf t) (s.ep t) = true := by
  unfold Unnotified
  cases s.ep t <;> try simp [unn, inU]
  all_goals first
    | (rename_i k; cases k <;> simp [isW]; done)
    | (rename_i k _; cases k <;> simp [isW]; done)

/-- Linked in the queue of the mutex. -/
def inM : EPc → Bool
  | .lRelSlp _ | .lSleep _ => true
  | _ => false

/-- Someone will see to the queue of the mutex. -/
def cares : EPc → Bool
  | .uNtf _ | .uAct _ _ | .lWoken _ | .lAcq _ | .lCs _ => true
  | _ => false

/-- The queue of the mutex. -/
structure QInv (s : State G L) : Prop where
  nd : s.mq.Nodup
  inq : ∀ t, t ∈ s.mq → inM (s.ep t) = true
  rel : ∀ t k, s.ep t = .lRelSlp k → t ∈ s.mq
  slp : ∀ t k, s.ep t = .lSleep k → t ∈ s.mq ∨ ∃ u k', s.ep u = .uAct k' t
  act : ∀ u k w, s.ep u = .uAct k w → w ∉ s.mq ∧ ∃ k', s.ep w = .lSleep k'
  care : s.owner = none → s.mq ≠ [] → ∃ u, cares (s.ep u) = true

/-- The queue of the condition variable. -/
structure VInv (s : State G L) : Prop where
  nd : s.cq.Nodup
  inq : ∀ t, t ∈ s.cq → unn (s.ntf t) (s.ep t) = true
  out : ∀ t, unn (s.ntf t) (s.ep t) = true → t ∈ s.cq ∨ ∃ u all, s.ep u = .nAct all t
  act : ∀ u all w, s.ep u = .nAct all w → w ∉ s.cq ∧ unn (s.ntf w) (s.ep w) = true
  uniq : ∀ u u' all all' w, s.ep u = .nAct all w → s.ep u' = .nAct all' w → u = u'
  ntf : ∀ t, inU (s.ep t) = false → s.ntf t = false
  stl : ∀ t, s.stale t = false
  bad : s.bad = false

/-- What activation does to a fiber blocked on the mutex, or waiting unnotified. -/
theorem activate_m {s : State G L} {w : Nat} {k : LK} (h : s.ep w = .lSleep k) : s.activate w = s.setEp w (.lWoken k) := by
  unfold State.activate; rw [h]

theorem activate_v {s : State G L} {w : Nat} (h : unn (s.ntf w) (s.ep w) = true) :
    (∃ tm, s.ep w = .cSleep tm ∧ s.activate w = s.setEp w (.cWoken tm false)) ∨
    (inU (s.ep w) = true ∧ s.activate w = { s with ntf := upd s.ntf w true }) := by
  unfold unn at h
  unfold State.activate
  split at h
  · rename_i tm he; left; exact ⟨tm, he, by rw [he]⟩
  · right
    refine ⟨by grind, ?_⟩
    have : inU (s.ep w) = true := by grind
    unfold inU at this
    revert this
    cases he : s.ep w <;> intro this <;> first
    | (simp at this; done)
    | (rename_i k; cases k <;> first | rfl | (simp [isW] at this; done))
    | (rename_i k _; cases k <;> first | rfl | (simp [isW] at this; done))

theorem qinv_pop {s : State G L} {u w : Nat} {k : UK} {q : List Nat} (hm : MInv hold s) (h : QInv s) (he : s.ep u = .uNtf k)
    (hq : s.mq = w :: q) : QInv { s with mq := q, ep := upd s.ep u (.uAct k w) } := by
  obtain ⟨h1, h2, h3, h4, h5, h6⟩ := h
  have hsp := hm.spin
  have hu : s.spin = some u := (hsp u).2 (by rw [he]; rfl)
  have hnr : ∀ t k, s.ep t ≠ .lRelSlp k := by
    intro t k ht
    have : s.spin = some t := (hsp t).2 (by rw [ht]; rfl)
    grind
  have hw := h2 w (by simp [hq])
  have hwu : w ≠ u := by rintro rfl; rw [he] at hw; simp [inM] at hw
  rw [hq, List.nodup_cons] at h1
  constructor
  · exact h1.2
  · intro t ht
    have := h2 t (by simp [hq, ht])
    show inM (upd s.ep u (.uAct k w) t) = true
    simp only [upd_apply]; grind [inM]
  · intro t k' ht
    simp only [upd_apply] at ht; grind
  · intro t k' ht
    simp only [upd_apply] at ht
    split at ht
    · cases ht
    · rcases h4 t k' ht with h | ⟨v, k2, hv⟩
      · rw [hq, List.mem_cons] at h
        rcases h with rfl | h
        · exact .inr ⟨u, k, by simp [upd_apply]⟩
        · exact .inl h
      · have : s.spin = some v := (hsp v).2 (by rw [hv]; rfl)
        have : v = u := by grind
        subst this; rw [he] at hv; cases hv
  · intro v k' x hx
    simp only [upd_apply] at hx ⊢
    split at hx
    · cases hx
      refine ⟨h1.1, ?_⟩
      rw [if_neg hwu]
      unfold inM at hw; split at hw
      · rename_i k2 h2'; exact absurd h2' (hnr _ _)
      · rename_i k2 h2'; exact ⟨k2, h2'⟩
      · cases hw
    · have : s.spin = some v := (hsp v).2 (by rw [hx]; rfl)
      grind
  · intro _ _
    exact ⟨u, by simp [upd_apply, cares]⟩

theorem qinv_actv {s : State G L} {w : Nat} (h : QInv s) (hw : unn (s.ntf w) (s.ep w) = true) : QInv (s.activate w) := by
  obtain ⟨h1, h2, h3, h4, h5, h6⟩ := h
  rcases activate_v hw with ⟨tm, h7, h8⟩ | ⟨h7, h8⟩
  · rw [h8]; simp only [State.setEp]
    constructor <;> (try simp only [upd_apply]) <;> grind [inM, cares]
  · rw [h8]; exact ⟨h1, h2, h3, h4, h5, h6⟩

/-- A step of `u` that leaves the queue, the owner and all others alone. -/
theorem qinv_ctl {s s' : State G L} {u : Nat} {e : EPc} (h : QInv s) (h1 : s'.mq = s.mq) (h2 : s'.owner = s.owner)
    (h3 : s'.ep = upd s.ep u e) (h4 : inM (s.ep u) = false) (h5 : inM e = false) (h6 : cares (s.ep u) = true → cares e = true)
    (h7 : ∀ k w, s.ep u ≠ .uAct k w) (h8 : ∀ k w, e ≠ .uAct k w) : QInv s' := by
  obtain ⟨g1, g2, g3, g4, g5, g6⟩ := h
  constructor
  · rw [h1]; exact g1
  · rw [h1, h3]; simp only [upd_apply]; grind
  · rw [h1, h3]; simp only [upd_apply]; grind [inM]
  · rw [h1, h3]; simp only [upd_apply]
    intro t k ht
    split at ht
    · subst ht; simp [inM] at h5
    · rcases g4 t k ht with h | ⟨v, k', hv⟩
      · exact .inl h
      · refine .inr ⟨v, k', ?_⟩
        rw [if_neg]; exact hv
        rintro rfl; exact h7 _ _ hv
  · rw [h1, h3]; simp only [upd_apply]
    intro v k w hv
    split at hv
    · exact absurd hv (h8 _ _)
    · obtain ⟨a, k', b⟩ := g5 v k w hv
      refine ⟨a, k', ?_⟩
      rw [if_neg]; exact b
      rintro rfl; rw [b] at h4; simp [inM] at h4
  · rw [h1, h2, h3]; simp only [upd_apply]
    intro a b
    obtain ⟨v, hv⟩ := g6 a b
    refine ⟨v, ?_⟩
    split
    · rename_i hvu; subst hvu; exact h6 hv
    · exact hv

theorem act_ep_ne {s : State G L} {w u : Nat} (h : u ≠ w) : (s.activate w).ep u = s.ep u := by
  unfold State.activate; split <;> simp [State.setEp, upd_apply, h]

theorem qinv_step {s s' : State G L} {a : Act C} (hm : MInv hold s) (hv : VInv s) (h : QInv s) (hs : step P s a = some s') :
    QInv s' := by
  have h0 := h
  obtain ⟨h1, h2, h3, h4, h5, h6⟩ := h
  have hsp := hm.spin
  have hstl := hv.stl
  have hva := hv.act
  cases a with
  | timer u =>
    sync_split hs; subst hs; simp only [State.setEp]
    rename_i he
    exact qinv_ctl h0 rfl rfl rfl (by rw [he]; rfl) rfl (by rw [he]; simp [cares]) (by rw [he]; simp) (by simp)
  | stale u => simp [step, hstl] at hs
  | go u c =>
    have hu := hsp u
    sync_split hs
    all_goals first
      | (obtain ⟨r, hr, rfl⟩ := hs; exact ⟨h1, h2, h3, h4, h5, h6⟩)
      | (rename_i k w he
         obtain ⟨hw, k', hk⟩ := h5 u k w he
         rw [activate_m hk] at hs; subst hs; simp only [State.setEp]; clear hva
         constructor <;> (try simp only [upd_apply]) <;> grind [inM, cares, inSpin])
      | (rename_i k he _ w q hq
         subst hs; exact qinv_pop hm h0 he hq)
      | (rename_i all w he hb
         obtain ⟨h7, h8⟩ := hva _ _ _ he
         have hne : u ≠ w := by rintro rfl; rw [he] at h8; simp [unn, inU] at h8
         subst hs
         refine qinv_ctl (u := u) (qinv_actv h0 h8) rfl rfl rfl ?_ rfl ?_ ?_ ?_ <;>
          (try rw [act_ep_ne hne, he]) <;> simp [inM, cares])
      | (subst hs; (try simp only [State.setEp, State.retn])
         refine qinv_ctl (u := u) h0 rfl rfl rfl ?_ ?_ ?_ ?_ ?_ <;> clear h0 h1 h2 h3 h4 h5 h6 hsp hva hstl hm hv <;> grind [inM, cares])
      | (subst hs; (try simp only [State.setEp, State.retn]); clear hva hstl
         constructor <;> (try simp only [upd_apply]) <;> grind [inM, cares, inSpin, unn, inU])

end Verif.Sync
