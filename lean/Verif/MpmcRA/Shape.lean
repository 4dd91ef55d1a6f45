import Verif.MpmcRA.Inv
import Verif.Mpmc.Props
/-! What a step does to the part shared with `Verif.Mpmc`. -/
namespace Verif.MpmcRA
open Verif.Common Verif.RelAcq
variable {α : Type}

/-- A step either moves one thread after a load, or does what the sequentially consistent queue does. -/
def Shape (s s' : State α) : Prop :=
  (∃ t pc' ev, (∀ v p, pc' ≠ .sStored v p) ∧ (∀ v, ev ≠ .deqOk v) ∧ s'.q = s.q.setPc t pc' ev) ∨ ∃ b, Mpmc.step s.q b = some s'.q

theorem shape_load {s s' : State α} {t ts : Nat} {l : Loc} {a : Bool} {k : Nat → Mpmc.State α}
    (hk : ∀ v, ∃ pc' ev, k v = s.q.setPc t pc' ev ∧ (∀ v p, pc' ≠ .sStored v p) ∧ (∀ v, ev ≠ .deqOk v))
    (hst : withLoad s t l a ts k = some s') : Shape s s' := by
  unfold withLoad at hst
  split at hst <;> cases hst
  rename_i v m hl
  obtain ⟨pc', ev, h3, h1, h2⟩ := hk v
  exact Or.inl ⟨t, pc', ev, h1, h2, h3⟩

theorem shape_sc {s : State α} {t : Nat} {pc : Mpmc.Pc α} {q' : Mpmc.State α} (ht : s.q.th[t]? = some pc) (hq : Mpmc.stepPc s.q t pc = some q') :
    Mpmc.step s.q (.go t) = some q' := by
  simp only [Mpmc.step]; rw [ht]; exact hq

theorem shape_access {s s' : State α} {t pos : Nat} {pc : Mpmc.Pc α} (ht : s.q.th[t]? = some pc)
    (hst : withAccess s t pos (Mpmc.stepPc s.q t pc) = some s') : Shape s s' := by
  unfold withAccess at hst
  split at hst <;> cases hst
  exact Or.inr ⟨_, shape_sc ht ‹_›⟩

theorem shape_store {s s' : State α} {t pos v ts : Nat} {r : Bool} {pc : Mpmc.Pc α} (ht : s.q.th[t]? = some pc)
    (hst : withStore s t pos v r ts (Mpmc.stepPc s.q t pc) = some s') : Shape s s' := by
  unfold withStore at hst
  split at hst
  · cases hst
  · split at hst <;> cases hst
    exact Or.inr ⟨_, shape_sc ht ‹_›⟩

theorem shape {s s' : State α} {a : Act α} (h : RInv s) (hst : step theCode s a = some s') : Shape s s' := by
  cases a with
  | enqueue t x =>
    simp only [step] at hst
    split at hst <;> cases hst
    exact Or.inr ⟨_, ‹_›⟩
  | dequeue t =>
    simp only [step] at hst
    split at hst <;> cases hst
    exact Or.inr ⟨_, ‹_›⟩
  | casFail t ts =>
    simp only [step] at hst
    split at hst
    · refine shape_load (fun v => ?_) hst; exact ⟨_, _, rfl, nofun, nofun⟩
    · refine shape_load (fun v => ?_) hst; exact ⟨_, _, rfl, nofun, nofun⟩
    · cases hst
  | go t ts =>
    simp only [step] at hst
    split at hst
    case h_2 => cases hst
    rename_i pc ht
    cases pc with
    | idle => cases hst
    | eStart x => refine shape_load (fun v => ?_) hst; exact ⟨_, _, rfl, nofun, nofun⟩
    | dStart => refine shape_load (fun v => ?_) hst; exact ⟨_, _, rfl, nofun, nofun⟩
    | sStart => refine shape_load (fun v => ?_) hst; exact ⟨_, _, rfl, nofun, nofun⟩
    | eLoaded x pos =>
      refine shape_load (fun v => ?_) hst
      unfold afterE
      split
      · exact ⟨_, _, rfl, nofun, nofun⟩
      · split <;> exact ⟨_, _, rfl, nofun, nofun⟩
    | dLoaded pos =>
      refine shape_load (fun v => ?_) hst
      unfold afterD
      split
      · exact ⟨_, _, rfl, nofun, nofun⟩
      · split <;> exact ⟨_, _, rfl, nofun, nofun⟩
    | sLoaded pos =>
      refine shape_load (fun v => ?_) hst
      unfold afterS
      split <;> exact ⟨_, _, rfl, nofun, nofun⟩
    | eReady x pos =>
      simp only [stepPc, withCas] at hst
      split at hst <;> cases hst
      rename_i m hm
      refine Or.inr ⟨_, shape_sc ht ?_⟩
      simp only [Mpmc.stepPc]; rw [if_pos (cas_enq h hm).1]
    | dReady pos =>
      simp only [stepPc, withCas] at hst
      split at hst <;> cases hst
      rename_i m hm
      refine Or.inr ⟨_, shape_sc ht ?_⟩
      simp only [Mpmc.stepPc]; rw [if_pos (cas_deq h (h.q.modeD t _ ht rfl) hm).1]
    | eClaimed x pos => exact shape_access ht hst
    | dClaimed pos => exact shape_access ht hst
    | dMoved v pos => exact shape_access ht hst
    | sReady pos => exact shape_access ht hst
    | sMoved v pos => exact shape_access ht hst
    | eBuilt x pos => exact shape_store ht hst
    | dDestroyed v pos => exact shape_store ht hst
    | sStored v pos => exact shape_store ht hst
    | sDestroyed v pos =>
      simp only [stepPc, withPos] at hst
      split at hst <;> cases hst
      exact Or.inr ⟨_, shape_sc ht rfl⟩

theorem inv2_step (s : State α) (a : Act α) (s' : State α) (h : RInv s ∧ Mpmc.Inv2 s.q) (hst : step theCode s a = some s') :
    RInv s' ∧ Mpmc.Inv2 s'.q := by
  refine ⟨inv_step _ _ _ h.1 hst, ?_⟩
  rcases shape h.1 hst with ⟨t, pc', ev, h1, h2, e⟩ | ⟨b, hb⟩
  · rw [e]
    refine ⟨h.2.ord, fun i v p hi => ?_⟩
    rcases get_set hi with ⟨_, e⟩ | ⟨_, hi⟩
    · exact absurd e.symm (h1 v p)
    · exact h.2.last i v p hi
  · exact Mpmc.inv2_step h.1.q h.2 hb

theorem inv2_reach {s : State α} (h : Reached theCode s) : RInv s ∧ Mpmc.Inv2 s.q := by
  refine Reachable.invariant (fun s => RInv s ∧ Mpmc.Inv2 s.q) (fun s hs => ⟨inv_init s hs, ?_⟩) inv2_step h
  obtain ⟨q, ⟨k, n, sc, _, rfl⟩, rfl⟩ := hs
  refine ⟨fun _ _ => by simp, fun i v p hi => ?_⟩
  have := Mpmc.replicate_get hi
  simp at this

end Verif.MpmcRA
