import Verif.Join.Spec
/-!
Invariants of `Join` / `Terminate` and of the reference count.
-/
namespace Verif.Join
open Verif.Common

theorem upd_apply {β : Type} (f : Nat → β) (i j : Nat) (v : β) : upd f i v j = if j = i then v else f j := rfl

/-- Which fibers hold the `kBusyBit` lock. -/
def jcs : JPc → Bool
  | .rel | .link | .clr => true
  | _ => false

def fcs : FPc → Bool
  | .ntf | .act _ | .clr => true
  | _ => false

/-- The target has not acquired the lock for its notifications. -/
def early : FPc → Bool
  | .run | .sched | .or_ => true
  | _ => false

/-- The lock, the waiter list and the wake-ups. -/
structure QInv (s : State) : Prop where
  jj : ∀ t u, jcs (s.jpc t) = true → jcs (s.jpc u) = true → t = u
  jf : ∀ t, jcs (s.jpc t) = true → fcs (s.fpc) = false
  jb : ∀ t, jcs (s.jpc t) = true → s.flagB = true
  fb : fcs s.fpc = true → s.flagB = true
  tT : s.flagT = true → s.fpc ≠ .run ∧ s.fpc ≠ .sched
  lT : early s.fpc = false → s.flagT = true
  rT : ∀ t, s.jpc t = .ret ∨ s.jpc t = .rel → s.flagT = true
  le : ∀ t, s.jpc t = .link ∨ s.jpc t = .clr → early s.fpc = true
  q1 : ∀ t, t ∈ s.jq → (s.jpc t = .clr ∨ s.jpc t = .susp) ∧ s.wake t = false ∧ s.fpc ≠ .act t
  q2 : ∀ t, s.jpc t = .clr → t ∈ s.jq
  q3 : ∀ t, s.jpc t = .susp → s.wake t = false → t ∈ s.jq ∨ s.fpc = .act t
  nd : s.jq.Nodup
  qe : s.fpc = .clr ∨ s.fpc = .pre ∨ s.fpc = .out → s.jq = []
  ac : ∀ u, s.fpc = .act u → s.jpc u = .susp ∧ s.wake u = false
  wk : ∀ t, s.wake t = true → s.jpc t = .susp
  wT : ∀ t, s.wake t = true → s.flagT = true

/-- The lock is held by somebody if its bit is set. -/
def Lck (s : State) : Prop := s.flagB = true → fcs s.fpc = true ∨ ∃ t, jcs (s.jpc t) = true

/-- Fields that only matter for the reference count. -/
theorem qinv_frame {s s' : State} (h : QInv s) (h1 : s'.flagT = s.flagT) (h2 : s'.flagB = s.flagB) (h3 : s'.jq = s.jq)
    (h4 : s'.fpc = s.fpc) (h5 : s'.jpc = s.jpc) (h6 : s'.wake = s.wake) : QInv s' := by
  obtain ⟨a1,a2,a3,a4,a5,a6,a7,a8,a9,a10,a11,a12,a13,a14,a15,a16⟩ := h
  constructor <;> (try rw [h1]) <;> (try rw [h2]) <;> (try rw [h3]) <;> (try rw [h4]) <;> (try rw [h5]) <;> (try rw [h6]) <;> assumption

end Verif.Join
namespace Verif.Join
open Verif.Common

theorem release_q {s : State} : s.release.flagT = s.flagT ∧ s.release.flagB = s.flagB ∧ s.release.jq = s.jq ∧
    s.release.fpc = s.fpc ∧ s.release.jpc = s.jpc ∧ s.release.wake = s.wake ∧ s.release.hold = s.hold ∧ s.release.tq = s.tq ∧
    s.release.popped = s.popped ∧ s.release.entry = s.entry ∧ s.release.mem = s.mem := by
  unfold State.release State.touch; dsimp only; split <;> simp

theorem qinv_j {s s' : State} {t : Nat} (h : QInv s) (hs : stepJ s t = some s') : QInv s' := by
  obtain ⟨a1,a2,a3,a4,a5,a6,a7,a8,a9,a10,a11,a12,a13,a14,a15,a16⟩ := h
  unfold stepJ at hs
  cases hj : s.jpc t <;> simp only [hj] at hs
  · simp at hs
  · split at hs
    · split at hs <;> cases hs <;> constructor <;> simp only [State.touch, upd_apply] <;> grind [jcs, fcs, early]
    · split at hs <;> cases hs <;> constructor <;> simp only [State.touch, upd_apply] <;> grind [jcs, fcs, early]
  · cases hs; constructor <;> simp only [State.touch, upd_apply] <;> grind [jcs, fcs, early]
  · cases hs; constructor <;> simp only [State.touch, upd_apply] <;> grind [jcs, fcs, early]
  · cases hs; constructor <;> simp only [State.touch, upd_apply] <;> grind [jcs, fcs, early]
  · split at hs
    · cases hs; constructor <;> simp only [upd_apply] <;> grind [jcs, fcs, early]
    · simp at hs
  · obtain ⟨r1, r2, r3, r4, r5, r6, -⟩ := @release_q s
    cases hs; constructor <;> simp only [upd_apply, r1, r2, r3, r4, r6] <;> grind [jcs, fcs, early]

theorem qinv_f {s s' : State} (h : QInv s) (hs : stepF s = some s') : QInv s' := by
  obtain ⟨a1,a2,a3,a4,a5,a6,a7,a8,a9,a10,a11,a12,a13,a14,a15,a16⟩ := h
  unfold stepF at hs
  cases hj : s.fpc <;> simp only [hj] at hs
  · cases hs; constructor <;> grind [jcs, fcs, early]
  · cases hs; constructor <;> simp only [State.touch] <;> grind [jcs, fcs, early]
  · split at hs <;> cases hs <;> constructor <;> simp only [State.touch] <;> grind [jcs, fcs, early]
  · split at hs
    · cases hs; constructor <;> simp only [State.touch] <;> grind [jcs, fcs, early]
    · cases hs; constructor <;> simp only [State.touch] <;> grind [jcs, fcs, early]
  · cases hs; constructor <;> simp only [State.touch, upd_apply] <;> grind [jcs, fcs, early]
  · cases hs; constructor <;> simp only [State.touch] <;> grind [jcs, fcs, early]
  · cases hs; constructor <;> simp only [State.touch] <;> grind [jcs, fcs, early]
  · simp at hs

theorem qinv_step {s s' : State} {a : Act} (h : QInv s) (hs : step s a = some s') : QInv s' := by
  obtain ⟨r1, r2, r3, r4, r5, r6, -⟩ := @release_q s
  cases a <;> simp only [step] at hs
  case f => exact qinv_f h hs
  case j t => exact qinv_j h hs
  case d =>
    unfold stepD at hs
    split at hs
    · split at hs
      · cases hs; exact qinv_frame h r1 r2 r3 r4 r5 r6
      · split at hs
        · cases hs; exact qinv_frame h rfl rfl rfl rfl rfl rfl
        · cases hs
    · cases hs
  case x =>
    unfold stepX at hs
    cases hd : s.dpc <;> simp only [hd] at hs
    · cases hs
    all_goals (cases hs; exact qinv_frame h rfl rfl rfl rfl rfl rfl)
  case join t =>
    split at hs
    · cases hs
      obtain ⟨a1,a2,a3,a4,a5,a6,a7,a8,a9,a10,a11,a12,a13,a14,a15,a16⟩ := h
      constructor <;> simp only [upd_apply] <;> grind [jcs, fcs, early]
    · cases hs
  case copy t =>
    split at hs
    · cases hs; exact qinv_frame h rfl rfl rfl rfl rfl rfl
    · cases hs
  case drop t =>
    split at hs
    · cases hs; exact qinv_frame h r1 r2 r3 r4 r5 r6
    · cases hs
  case give t u =>
    split at hs
    · cases hs; exact qinv_frame h rfl rfl rfl rfl rfl rfl
    · cases hs

theorem qinv_init {s : State} (h : Init s) : QInv s := by
  obtain ⟨c, rfl⟩ := h
  constructor <;> simp [start, jcs, fcs, early]

theorem lck_step {s s' : State} {a : Act} (h : QInv s) (hl : Lck s) (hs : step s a = some s') : Lck s' := by
  obtain ⟨r1, r2, r3, r4, r5, r6, -⟩ := @release_q s
  unfold Lck at *
  have jj := h.jj
  have jf := h.jf
  cases a <;> simp only [step] at hs
  case f =>
    unfold stepF at hs
    cases hj : s.fpc <;> simp only [hj] at hs <;> (try split at hs) <;> cases hs <;> simp only [State.touch] <;> grind [fcs]
  case j t =>
    unfold stepJ at hs
    have key : ∀ p : JPc, (∃ u, jcs (s.jpc u) = true ∧ u ≠ t) → ∃ u, jcs (upd s.jpc t p u) = true := by
      rintro p ⟨u, h1, h2⟩; exact ⟨u, by rw [upd_ne _ _ h2]; exact h1⟩
    have key2 : ∀ p : JPc, jcs p = true → ∃ u, jcs (upd s.jpc t p u) = true := fun p hp => ⟨t, by simpa using hp⟩
    cases hj : s.jpc t <;> simp only [hj] at hs <;> (repeat' split at hs) <;> cases hs <;> simp only [State.touch, r2, r4]
    all_goals first
      | grind [jcs]
      | (intro _; right; exact key2 _ rfl)
      | (intro hb
         rcases hl (by first | exact hb | assumption) with h2 | ⟨u, hu⟩
         · exact .inl h2
         · exact .inr (key _ ⟨u, hu, by rintro rfl; simp [hj, jcs] at hu⟩))
  case d =>
    unfold stepD at hs
    (repeat' split at hs) <;> cases hs <;> simp only [State.touch, r2, r4, r5] <;> exact hl
  case x =>
    unfold stepX at hs
    cases hd : s.dpc <;> simp only [hd] at hs <;> cases hs <;> exact hl
  case join t =>
    split at hs
    · cases hs
      rename_i h1
      intro hb
      rcases hl hb with h2 | ⟨u, hu⟩
      · exact .inl h2
      · right; refine ⟨u, ?_⟩
        dsimp only; rw [upd_ne]; exact hu
        rintro rfl; simp [h1.1, jcs] at hu
    · cases hs
  case copy t => split at hs <;> cases hs; exact hl
  case drop t => split at hs <;> cases hs; simp only [r2, r4, r5]; exact hl
  case give t u => split at hs <;> cases hs; exact hl

end Verif.Join

namespace Verif.Join
open Verif.Common

/-- The reference count and the destruction. -/
structure RInv (s : State) : Prop where
  /-- The count is the number of handles plus the fiber's own reference. -/
  own : (s.fpc ≠ .out ∨ s.tq = true ∨ s.popped = true) → s.use = s.hold.length + 1 ∧ s.dtors = 0
  rel : s.fpc = .out → s.tq = false → s.popped = false → s.use = s.hold.length
  d0 : s.dtors = 0 → s.mem = .live ∧ s.dpc = .none
  dz : s.fpc = .out → s.tq = false → s.popped = false → (s.hold = [] ↔ s.dtors ≠ 0)
  d1 : s.dtors ≤ 1
  jh : ∀ t, s.jpc t ≠ .idle → t ∈ s.hold
  tp : s.tq = true → s.popped = false ∧ s.fpc ≠ .run ∧ s.fpc ≠ .sched
  pp : s.popped = true → s.fpc = .out
  tq : s.fpc ≠ .run → s.fpc ≠ .sched → s.fpc ≠ .out → s.tq = true
  en : s.fpc = .out → s.dpc = .none ∨ s.dpc = .move → s.dtors = 0 ∨ s.dpc = .move → s.entry = true
  ml : s.dpc = .move ∨ s.dpc = .dtor → s.mem = .live
  mr : s.dpc = .resume → s.mem = .destroyed
  mf : s.dtors = 1 → s.dpc = .none → s.mem = .freed
  ok : s.bad = false

theorem nodup_count {l : List Nat} {t : Nat} (h : t ∈ l) : (l.erase t).length + 1 = l.length := by
  have := List.length_erase_of_mem h
  have := List.length_pos_of_mem h
  omega

theorem few_mod {s : State} (h : Few s) : (s.hold.length + 1) % 2 ^ 32 = s.hold.length + 1 := Nat.mod_eq_of_lt h

end Verif.Join
