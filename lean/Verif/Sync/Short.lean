import Verif.Sync.Spec
/-!
Concrete executions, and a client that runs any script of calls, for showing that hypotheses of theorems are met.
-/
namespace Verif.Sync
open Verif.Common
variable {G L C : Type} {P : Client G L C}

/-- A concrete execution ending in a state that passes a check. -/
theorem run_ex {I : G → Prop} {J : L → Prop} {R : State G L → Prop} (g : G) (n : Nat) (cl : Nat → L) (hg : I g) (hl : ∀ t, J (cl t))
    (acts : List (Act C)) (chk : State G L → Bool) (hP : ∀ s, chk s = true → R s)
    (he : (match exec (step P) { g, n, cl } acts with | some s => chk s | none => false) = true) :
    ∃ s, Reachable (Init I J) (step P) s ∧ R s := by
  split at he
  · rename_i s hs
    exact ⟨s, Reachable.exec (.init ⟨hg, hl, rfl⟩ trivial) acts hs, hP s he⟩
  · simp at he

/-- `exec`, with a check at every state. -/
def execChk (P : Client G L C) (d : State G L → Bool) (s : State G L) : List (Act C) → Option (State G L)
  | [] => if d s then some s else none
  | a :: as => if d s then match step P s a with
      | some s' => execChk P d s' as
      | none => none
    else none

/-- The same for executions all of whose states satisfy `D`. -/
theorem run_ex_q {I : G → Prop} {J : L → Prop} {R D : State G L → Prop} (g : G) (n : Nat) (cl : Nat → L) (hg : I g) (hl : ∀ t, J (cl t))
    (acts : List (Act C)) (d : State G L → Bool) (hd : ∀ s, d s = true → D s) (chk : State G L → Bool) (hP : ∀ s, chk s = true → R s)
    (he : (match execChk P d { g, n, cl } acts with | some s => chk s | none => false) = true) :
    ∃ s, Reach (Init I J) (step P) D s ∧ R s := by
  have key : ∀ acts (s1 s : State G L), (d s1 = true → Reach (Init I J) (step P) D s1) → execChk P d s1 acts = some s → Reach (Init I J) (step P) D s := by
    intro acts
    induction acts with
    | nil =>
      intro s1 s h he
      simp only [execChk] at he
      split at he
      · rename_i hh; simp only [Option.some.injEq] at he; exact he ▸ h hh
      · cases he
    | cons a acts ih =>
      intro s1 s h he
      simp only [execChk] at he
      split at he
      · rename_i hh
        split at he
        · rename_i s2 hs; exact ih s2 s (fun h2 => .step (h hh) hs (hd _ h2)) he
        · cases he
      · cases he
  split at he
  · rename_i s hs
    exact ⟨s, key acts _ s (fun h => .init ⟨hg, hl, rfl⟩ (hd _ h)) hs, hP s he⟩
  · simp at he

/-- A fiber running a script: whether it has the mutex, and the calls it still has to make. -/
structure Scr where
  has : Bool := false
  todo : List Call
deriving DecidableEq

/-- Calls the contract does not allow in this state are not made: the fiber stops. -/
def script : Client Unit Scr Unit where
  call l := match l.todo with
    | .lock :: _ => if l.has then .loc else .lock
    | .tryLock :: _ => .tryLock
    | .unlock :: _ => if l.has then .unlock else .loc
    | .wait tm :: _ => if l.has then .wait tm else .loc
    | .notify all :: _ => if l.has then .notify all else .loc
    | _ => .loc
  loc _ _ _ _ := none
  ret l b := match l.todo with
    | .lock :: q => { has := true, todo := q }
    | .tryLock :: q => { has := l.has || b, todo := q }
    | .unlock :: q => { has := false, todo := q }
    | _ :: q => { has := l.has, todo := q }
    | [] => l

theorem script_disc : Disc script Scr.has where
  loc := by intro g l t c g' l' _ h; cases h
  lock := by
    intro l b h
    simp only [script] at h ⊢
    repeat' split at h
    all_goals simp_all
  tryLock := by
    intro l b h
    simp only [script] at h ⊢
    repeat' split at h
    all_goals simp_all [Bool.or_comm]
  unlock := by
    intro l b h
    simp only [script] at h ⊢
    repeat' split at h
    all_goals simp_all
  wait := by
    intro l b tm h
    simp only [script] at h ⊢
    repeat' split at h
    all_goals simp_all
  notify := by
    intro l b tm h
    simp only [script] at h ⊢
    repeat' split at h
    all_goals simp_all

theorem script_locked : NotifyLocked script Scr.has := by
  intro l all h
  simp only [script] at h
  repeat' split at h
  all_goals simp_all

/-- The scripts of fibers 0, 1, ...; all other fibers do nothing. -/
def scripts (q : List (List Call)) : Nat → Scr := fun t => { todo := (q[t]?).getD [] }

/-- Moves of the given fibers. -/
def gos (q : List Nat) : List (Act Unit) := q.map fun t => .go t ()

/-- The same without timed waits. -/
def script0 : Client Unit Scr Unit :=
  { script with call := fun l => match script.call l with | .wait true => .loc | c => c }

theorem script0_call {l : Scr} {c : Call} (h : script0.call l = c) (hc : c ≠ .loc) : script.call l = c := by
  simp only [script0] at h
  split at h
  · exact absurd h.symm hc
  · exact h

theorem script0_disc : Disc script0 Scr.has where
  loc := by intro g l t c g' l' _ h; cases h
  lock := fun l b h => script_disc.lock l b (script0_call h (by simp))
  tryLock := fun l b h => script_disc.tryLock l b (script0_call h (by simp))
  unlock := fun l b h => script_disc.unlock l b (script0_call h (by simp))
  wait := fun l b tm h => script_disc.wait l b tm (script0_call h (by simp))
  notify := fun l b all h => script_disc.notify l b all (script0_call h (by simp))

theorem script0_untimed : Untimed script0 := by
  intro l h
  simp only [script0] at h
  split at h
  · cases h
  · rename_i hn; exact hn h

theorem script0_locked : NotifyLocked script0 Scr.has := fun l all h => script_locked l all (script0_call h (by simp))

end Verif.Sync
