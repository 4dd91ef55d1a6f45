import Verif.Sync.Spec
/-!
Invariants of the mutex and condition variable for clients that follow the contract and use no timed waits.
-/
namespace Verif.Sync
open Verif.Common
variable {G L C : Type} {P : Client G L C} {hold : L → Bool}

/-- Does the fiber hold the spin lock? -/
def inSpin : EPc → Bool
  | .lCs _ | .lRelOk _ | .lRelSlp _ | .tCs | .tRel _ | .uCs _ | .uNtf _ | .uAct _ _ | .uRel _ => true
  | _ => false

def callK : LK → Call
  | .lock => .lock
  | .wait tm _ => .wait tm

def callU : UK → Call
  | .unlock => .unlock
  | .wait tm => .wait tm

/-- Which call is the fiber executing? -/
def callOk (c : Call) : EPc → Prop
  | .cl => True
  | .lAcq k | .lCs k | .lRelOk k | .lRelSlp k | .lSleep k | .lWoken k => c = callK k
  | .tAcq | .tCs | .tRel _ => c = .tryLock
  | .uAcq k | .uCs k | .uNtf k | .uAct k _ | .uRel k => c = callU k
  | .cSleep tm => c = .wait tm
  | .cWoken tm _ => c = .wait tm
  | .post _ => c = .wait true
  | .nGo all _ | .nAct all _ => c = .notify all

def CInv (P : Client G L C) (s : State G L) : Prop := ∀ t, callOk (P.call (s.cl t)) (s.ep t)

/-- Moves, with the definitions unfolded. -/
theorem upd_apply {β : Type} (f : Nat → β) (t : Nat) (v : β) (i : Nat) : upd f t v i = if i = t then v else f i := rfl

theorem activate_cl (s : State G L) (w : Nat) : (s.activate w).cl = s.cl := by
  unfold State.activate; split <;> rfl

macro "sync_split" hs:ident : tactic => `(tactic| (
  simp only [step, stepCall, stepEp] at $hs:ident
  repeat' split at $hs:ident
  all_goals simp only [reduceCtorEq, Option.some.injEq, Option.map_eq_some_iff] at $hs:ident))

theorem cinv_step {s s' : State G L} {a : Act C} (h : CInv P s) (hs : step P s a = some s') : CInv P s' := by
  have hact : ∀ w t, callOk (P.call (s.cl t)) ((s.activate w).ep t) := by
    intro w t
    have := h t
    unfold State.activate
    split <;> simp only [State.setEp, upd_apply] <;> try split
    all_goals grind [callOk, callK, callU]
  cases a with
  | timer u => sync_split hs; subst hs; intro t; have := h t; simp only [State.setEp, upd_apply]; grind [callOk, callK, callU]
  | stale u => sync_split hs; subst hs; intro t; have := h t; simp only [upd_apply]; grind [callOk, callK, callU]
  | go u c =>
    sync_split hs
    all_goals first
      | (subst hs; intro t; have := h t; have := hact; simp only [State.setEp, State.retn, upd_apply, activate_cl]; grind [callOk, callK, callU])
      | (obtain ⟨r, h1, rfl⟩ := hs; intro t; have := h t; simp only [upd_apply]; grind [callOk, callK, callU])

/-- The mutex and the spin lock. -/
structure MInv (hold : L → Bool) (s : State G L) : Prop where
  own : ∀ t, s.owner = some t ↔ has (hold (s.cl t)) (s.ep t) = true
  spin : ∀ t, s.spin = some t ↔ inSpin (s.ep t) = true

theorem has_act (s : State G L) (w t : Nat) (b : Bool) : has b ((s.activate w).ep t) = has b (s.ep t) := by
  unfold State.activate
  split <;> simp only [State.setEp, upd_apply] <;> try split
  all_goals grind [has]

theorem inSpin_act (s : State G L) (w t : Nat) : inSpin ((s.activate w).ep t) = inSpin (s.ep t) := by
  unfold State.activate
  split <;> simp only [State.setEp, upd_apply] <;> try split
  all_goals grind [inSpin]

theorem activate_same (s : State G L) (w : Nat) : (s.activate w).owner = s.owner ∧ (s.activate w).spin = s.spin ∧
    (s.activate w).mq = s.mq ∧ (s.activate w).cq = s.cq ∧ (s.activate w).bad = s.bad ∧ (s.activate w).g = s.g ∧ (s.activate w).n = s.n := by
  unfold State.activate; split <;> simp [State.setEp]

theorem minv_step (hD : Disc P hold) {s s' : State G L} {a : Act C} (hc : CInv P s) (h : MInv hold s) (hs : step P s a = some s') :
    MInv hold s' := by
  obtain ⟨h1, h2⟩ := h
  have d1 := hD.lock
  have d2 := hD.tryLock
  have d3 := hD.unlock
  have d4 := hD.wait
  have d5 := hD.notify
  have d6 := hD.loc
  have e1 : ∀ l, P.call l = .lock → hold l = false := fun l h => (hD.lock l true h).1
  have e2 : ∀ l, P.call l = .unlock → hold l = true := fun l h => (hD.unlock l true h).1
  have e3 : ∀ l tm, P.call l = .wait tm → hold l = true := fun l tm h => (hD.wait l true tm h).1
  have ha1 := has_act s
  have ha2 := inSpin_act s
  have ha3 := activate_same s
  cases a with
  | timer u =>
    sync_split hs; subst hs; simp only [State.setEp]
    constructor <;> intro t <;> have := h1 t <;> have := h2 t <;> (try simp only [upd_apply]) <;> grind [has, inSpin]
  | stale u =>
    sync_split hs; subst hs
    constructor <;> intro t <;> have := h1 t <;> have := h2 t <;> (try simp only [upd_apply]) <;> grind [has, inSpin]
  | go u c =>
    have hcu := hc u
    have h1u := h1 u
    have h2u := h2 u
    sync_split hs
    all_goals first
      | (obtain ⟨r, h3, rfl⟩ := hs
         constructor <;> intro t <;> have := h1 t <;> have := h2 t <;> (try simp only [upd_apply]) <;> grind [has, inSpin, callOk, callK, callU])
      | (subst hs; try simp only [State.setEp, State.retn]
         constructor <;> intro t <;> have := h1 t <;> have := h2 t <;> (try simp only [upd_apply, activate_cl]) <;> grind [has, inSpin, callOk, callK, callU])

end Verif.Sync
