import Verif.EventCount.Client
/-!
# `await` and `await_until` as a client of the event count machine

Fibers share an arbitrary state `G`. A fiber may wait, with or without a deadline, for any of the conditions
`cond k`; or update the shared state by any function and then notify; or update it without notifying by a function
that makes no condition true.
-/
namespace Verif.EventCount
open Verif.Common

/-- Where a fiber is in `await` (synchronization.h 411-431) or `await_until` (469-486), or in an update followed by a
notification. `k` is the condition, `tm` tells `await_until`. -/
inductive APc (κ : Type)
  | idle
  | chk0 (k : κ) (tm : Bool)       -- 412 / 472
  | prep (k : κ) (tm : Bool)       -- 421 / 477
  | chk1 (k : κ) (tm : Bool)       -- 422 / 478
  | wait (k : κ) (tm : Bool)       -- 426 / 481
  | dropL (k : κ) (tm : Bool)      -- ~Key at the end of the loop body
  | dropX (k : κ) (ok : Bool)      -- ~Key on break; `ok` = not by timeout
  | fin (k : κ) (ok : Bool)        -- returned
  | owe (all : Bool)               -- state updated, notify / notifyAll comes next
  deriving DecidableEq

/-- A choice of an idle fiber. -/
inductive ACh (G κ : Type) (cond : κ → G → Bool)
  | await (k : κ) (tm : Bool)
  | set (f : G → G) (all : Bool)
  | quiet (f : G → G) (h : ∀ g k, cond k (f g) = true → cond k g = true)

/-- The client program; every event count operation is on event count 0. -/
def awaitClient (G κ : Type) (cond : κ → G → Bool) (onlyAll : Bool) : Client G (APc κ) (ACh G κ cond) where
  call
    | .prep _ _ => .prep 0
    | .wait _ tm => .wait 0 tm
    | .dropL _ _ => .drop
    | .dropX _ _ => .drop
    | .owe all => .notify 0 (onlyAll || all)
    | _ => .loc
  loc g l _ c :=
    match l with
    | .idle => match c with
      | .await k tm => some (g, .chk0 k tm)
      | .set f all => some (f g, .owe all)
      | .quiet f _ => some (f g, .idle)
    | .chk0 k tm => some (g, if cond k g then .fin k true else .prep k tm)
    | .chk1 k tm => some (g, if cond k g then .dropX k true else .wait k tm)
    | .fin _ _ => some (g, .idle)
    | _ => none
  ret
    | .prep k tm, _ => .chk1 k tm
    | .wait k tm, b => if tm && !b then .dropX k false else .dropL k tm     -- 482-483
    | .dropL k tm, _ => .prep k tm
    | .dropX k ok, _ => .fin k ok
    | .owe _, _ => .idle
    | l, _ => l

/-- The waiting condition of a fiber. -/
def aCond {G κ : Type} (cond : κ → G → Bool) : APc κ → G → Prop
  | .wait k _, g => cond k g = true
  | _, _ => False

def aObl {κ : Type} : APc κ → Prop
  | .owe _ => True
  | _ => False

theorem await_sound {G κ : Type} (cond : κ → G → Bool) (oa : Bool) :
    Sound (awaitClient G κ cond oa) 0 (aCond cond) aObl := by
  constructor
  · intro g l t c g' l' hc hs hw
    cases l <;> cases c <;> grind [awaitClient, aCond]
  · intro l b hc g
    cases l <;> grind [awaitClient, aCond]
  · intro g l t c g' l' hc hs w hcd ho
    cases l <;> simp [awaitClient] at hc hs
    · split at hs <;> simp at hs <;> obtain ⟨rfl, rfl⟩ := hs
      · rcases ho with ho | ho
        · exact absurd hcd ho
        · simp [aObl] at ho
      · trivial
      · rcases ho with ho | ho
        · rename_i f hf
          cases w <;> simp [aCond] at hcd ho
          rename_i k' _
          have := hf _ _ hcd
          rw [this] at ho; simp at ho
        · simp [aObl] at ho
    all_goals
      obtain ⟨rfl, rfl⟩ := hs
      rcases ho with ho | ho
      · exact absurd hcd ho
      · simp [aObl] at ho
  · intro l g tm ho
    cases l <;> simp [aObl] at ho <;> simp [awaitClient]
  · intro l b ho hc hn
    cases l <;> simp [aObl] at ho
    simp [awaitClient] at hn

def aKey {κ : Type} : APc κ → Option Nat
  | .chk1 _ _ => some 0
  | .wait _ _ => some 0
  | .dropL _ _ => some 0
  | .dropX _ _ => some 0
  | _ => none

theorem await_keydisc {G κ : Type} (cond : κ → G → Bool) (oa : Bool) : KeyDisc (awaitClient G κ cond oa) aKey := by
  constructor
  · intro g l t c g' l' hc hs
    cases l <;> cases c <;> grind [awaitClient, aKey]
  · intro l j hc; cases l <;> grind [awaitClient, aKey]
  · intro l hc; cases l <;> grind [awaitClient, aKey]
  · intro l b hc; cases l <;> simp [awaitClient] at hc <;> simp [awaitClient, aKey] <;> grind

end Verif.EventCount
