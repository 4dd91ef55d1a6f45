import Verif.Join.Lemmas
/-!
The reference count invariant.
-/
namespace Verif.Join
open Verif.Common

theorem release_use {s : State} (h1 : 1 ≤ s.use) (h2 : s.use < 2 ^ 32) : s.release.use = s.use - 1 := by
  have : (s.use + (2 ^ 32 - 1)) % 2 ^ 32 = s.use - 1 := by omega
  unfold State.release State.touch; dsimp only; split <;> exact this

theorem release_ne {s : State} (h : s.use ≠ 1) : s.release.dtors = s.dtors ∧ s.release.dpc = s.dpc := by
  unfold State.release State.touch; dsimp only; rw [if_neg h]; exact ⟨rfl, rfl⟩

theorem release_one {s : State} (h : s.use = 1) : s.release.dtors = s.dtors + 1 ∧ s.release.dpc = .move := by
  unfold State.release State.touch; dsimp only; rw [if_pos h]; exact ⟨rfl, rfl⟩

theorem release_bad {s : State} : s.release.bad = (s.bad || s.mem != .live) := by
  unfold State.release State.touch; dsimp only; split <;> rfl

theorem touch_live {s : State} (h : s.mem = .live) : s.touch = s := by
  unfold State.touch; cases s; dsimp only at h; subst h; simp

/-- A live fiber: it has its own reference, or there is a handle. -/
theorem live_own {s : State} (h : RInv s) (h1 : s.fpc ≠ .out ∨ s.tq = true ∨ s.popped = true) : s.mem = .live :=
  (h.d0 (h.own h1).2).1

theorem dtors_hold {s : State} (h : RInv s) (h1 : s.hold ≠ []) : s.dtors = 0 := by
  by_cases ho : s.fpc ≠ .out ∨ s.tq = true ∨ s.popped = true
  · exact (h.own ho).2
  · have h2 : s.fpc = .out := by grind
    have h3 : s.tq = false := by grind
    have h4 : s.popped = false := by grind
    have := h.dz h2 h3 h4
    grind

theorem live_hold {s : State} (h : RInv s) {t : Nat} (h1 : t ∈ s.hold) : s.mem = .live :=
  (h.d0 (dtors_hold h (List.ne_nil_of_mem h1))).1

theorem rinv_f {s s' : State} (hq : QInv s) (h : RInv s) (hs : stepF s = some s') : RInv s' := by
  have hl : s.fpc ≠ .out → s.mem = .live := fun ho => live_own h (.inl ho)
  have hac := hq.ac
  obtain ⟨a1,a2,a3,a4,a5,a6,a7,a8,a9,a10,a11,a12,a13,a14⟩ := h
  unfold stepF at hs
  cases hj : s.fpc <;> simp only [hj] at hs
  case out => cases hs
  all_goals have hl := hl (by rw [hj]; simp)
  all_goals (try simp only [touch_live hl] at hs)
  case run => cases hs; constructor <;> grind
  case sched => cases hs; constructor <;> grind
  case or_ => split at hs <;> cases hs <;> constructor <;> grind
  case ntf => split at hs <;> cases hs <;> constructor <;> grind
  case act u =>
    have hw : waiting s u = true := by obtain ⟨h1, h2⟩ := hac u hj; simp [waiting, h1, h2]
    cases hs; constructor <;> simp only [hw, hl] <;> grind
  case clr => cases hs; constructor <;> grind
  case pre => cases hs; constructor <;> grind

/-- Releasing a handle. -/
theorem rinv_drop {s : State} {t : Nat} {p : Nat → JPc} (h : RInv s) (hf : Few s) (ht : t ∈ s.hold)
    (hp : ∀ u, p u ≠ .idle → s.jpc u ≠ .idle ∧ u ≠ t) :
    RInv { s.release with hold := s.hold.erase t, jpc := p } := by
  have hl := live_hold h ht
  have hd := dtors_hold h (List.ne_nil_of_mem ht)
  have hlen := nodup_count ht
  obtain ⟨r1, r2, r3, r4, r5, r6, r7, r8, r9, r10, r11⟩ := @release_q s
  have hb : s.release.bad = false := by rw [release_bad, h.ok, hl]; rfl
  have hh : ∀ u, p u ≠ .idle → u ∈ s.hold.erase t := by
    intro u hu; obtain ⟨h1, h2⟩ := hp u hu
    exact (List.mem_erase_of_ne h2).2 (h.jh u h1)
  have hdp := (h.d0 hd).2
  by_cases ho : s.fpc ≠ .out ∨ s.tq = true ∨ s.popped = true
  · have hu := (h.own ho).1
    have h1 : s.use ≠ 1 := by omega
    have h2 := release_use (s := s) (by omega) (by unfold Few at hf; omega)
    obtain ⟨h3, h4⟩ := release_ne h1
    obtain ⟨a1,a2,a3,a4,a5,a6,a7,a8,a9,a10,a11,a12,a13,a14⟩ := h
    clear hf
    constructor <;> simp only [r4, r8, r9, r10, r11, h2, h3, h4] <;> first | exact hh | exact hb | grind
  · have e1 : s.fpc = .out := by grind
    have e2 : s.tq = false := by grind
    have e3 : s.popped = false := by grind
    have hu := h.rel e1 e2 e3
    have h2 := release_use (s := s) (by omega) (by unfold Few at hf; omega)
    clear hf
    by_cases h1 : s.use = 1
    · obtain ⟨h3, h4⟩ := release_one h1
      have he : s.hold.erase t = [] := List.eq_nil_of_length_eq_zero (by omega)
      obtain ⟨a1,a2,a3,a4,a5,a6,a7,a8,a9,a10,a11,a12,a13,a14⟩ := h
      constructor <;> simp only [r4, r8, r9, r10, r11, h2, h3, h4] <;> first | exact hh | exact hb | grind
    · obtain ⟨h3, h4⟩ := release_ne h1
      have he : s.hold.erase t ≠ [] := by intro he; rw [he] at hlen; simp at hlen; omega
      obtain ⟨a1,a2,a3,a4,a5,a6,a7,a8,a9,a10,a11,a12,a13,a14⟩ := h
      constructor <;> simp only [r4, r8, r9, r10, r11, h2, h3, h4] <;> first | exact hh | exact hb | grind

theorem rinv_j {s s' : State} {t : Nat} (hq : QInv s) (h : RInv s) (hf : Few s) (hs : stepJ s t = some s') : RInv s' := by
  unfold stepJ at hs
  by_cases hi : s.jpc t = .idle
  · simp [hi] at hs
  have ht := h.jh t hi
  have hl := live_hold h ht
  have hq1 := hq.q1
  cases hj : s.jpc t <;> simp only [hj] at hs
  case idle => exact absurd hj hi
  case ret =>
    cases hs
    refine rinv_drop h hf ht ?_
    intro u hu
    simp only [upd_apply] at hu
    split at hu <;> simp_all
  all_goals (try simp only [touch_live hl] at hs)
  all_goals obtain ⟨a1,a2,a3,a4,a5,a6,a7,a8,a9,a10,a11,a12,a13,a14⟩ := h
  all_goals clear hf
  case try_ =>
    (repeat' split at hs) <;> cases hs <;> constructor <;> simp only [upd_apply] <;> grind
  case susp =>
    split at hs
    · cases hs; constructor <;> simp only [upd_apply] <;> grind
    · cases hs
  all_goals (cases hs; constructor <;> simp only [upd_apply] <;> grind)

theorem rinv_d {s s' : State} (h : RInv s) (hf : Few s) (hs : stepD s = some s') : RInv s' := by
  unfold stepD at hs
  split at hs
  · split at hs
    · rename_i hg hp
      cases hs
      obtain ⟨r1, r2, r3, r4, r5, r6, r7, r8, r9, r10, r11⟩ := @release_q s
      have hl := live_own h (.inr (.inr hp))
      have hb : s.release.bad = false := by rw [release_bad, h.ok, hl]; rfl
      obtain ⟨hu, hd⟩ := h.own (.inr (.inr hp))
      have h2 := release_use (s := s) (by omega) (by unfold Few at hf; omega)
      have hdp := (h.d0 hd).2
      clear hf
      have htq : s.tq = false := by
        cases ht : s.tq with
        | false => rfl
        | true => have := (h.tp ht).1; grind
      by_cases h1 : s.use = 1
      · obtain ⟨h3, h4⟩ := release_one h1
        have he : s.hold = [] := List.eq_nil_of_length_eq_zero (by omega)
        obtain ⟨a1,a2,a3,a4,a5,a6,a7,a8,a9,a10,a11,a12,a13,a14⟩ := h
        constructor <;> simp only [r4, r5, r7, r8, r10, r11, h2, h3, h4] <;> first | exact hb | grind
      · obtain ⟨h3, h4⟩ := release_ne h1
        have he : s.hold ≠ [] := by intro he; rw [he] at hu; simp at hu; omega
        obtain ⟨a1,a2,a3,a4,a5,a6,a7,a8,a9,a10,a11,a12,a13,a14⟩ := h
        constructor <;> simp only [r4, r5, r7, r8, r10, r11, h2, h3, h4] <;> first | exact hb | grind
    · split at hs
      · rename_i h1
        rw [touch_live (live_own h (.inr (.inl h1)))] at hs
        cases hs
        obtain ⟨a1,a2,a3,a4,a5,a6,a7,a8,a9,a10,a11,a12,a13,a14⟩ := h
        clear hf
        constructor <;> grind
      · cases hs
  · cases hs

theorem rinv_x {s s' : State} (hq : QInv s) (h : RInv s) (hs : stepX s = some s') : RInv s' := by
  have hqe := hq.qe
  unfold stepX at hs
  obtain ⟨a1,a2,a3,a4,a5,a6,a7,a8,a9,a10,a11,a12,a13,a14⟩ := h
  cases hd : s.dpc <;> simp only [hd] at hs
  · cases hs
  · have hl := a11 (.inl hd)
    rw [touch_live hl] at hs
    cases hs
    constructor <;> simp only [hl] <;> grind
  · have hl := a11 (.inr hd)
    have h1 : s.dtors = 1 := by grind
    have h2 : s.fpc = .out ∧ s.tq = false ∧ s.popped = false := by grind
    have h3 : s.hold = [] := by grind
    have h4 : s.use = 0 := by grind
    have h5 : s.jq = [] := by grind
    cases hs
    constructor <;> simp only [hl, h4, h5] <;> grind
  · have hl := a12 hd
    cases hs
    constructor <;> simp only [hl] <;> grind

theorem rinv_step {s s' : State} {a : Act} (hq : QInv s) (h : RInv s) (hf : Few s) (hf' : Few s') (hs : step s a = some s') :
    RInv s' := by
  cases a <;> simp only [step] at hs
  case f => exact rinv_f hq h hs
  case d => exact rinv_d h hf hs
  case x => exact rinv_x hq h hs
  case j t => exact rinv_j hq h hf hs
  case join t =>
    split at hs
    · cases hs
      obtain ⟨a1,a2,a3,a4,a5,a6,a7,a8,a9,a10,a11,a12,a13,a14⟩ := h
      clear hf hf'
      constructor <;> simp only [upd_apply] <;> grind
    · cases hs
  case copy t =>
    split at hs
    · rename_i h1
      have hl := live_hold h h1.2
      have hd := dtors_hold h (List.ne_nil_of_mem h1.2)
      rw [touch_live hl] at hs
      have hm : (s.use + 1) % 2 ^ 32 = s.use + 1 := by
        cases hs
        unfold Few at hf'
        simp only [List.length_cons] at hf'
        by_cases ho : s.fpc ≠ .out ∨ s.tq = true ∨ s.popped = true
        · have := (h.own ho).1; omega
        · have := h.rel (by grind) (by grind) (by grind); omega
      rw [hm] at hs
      cases hs
      obtain ⟨a1,a2,a3,a4,a5,a6,a7,a8,a9,a10,a11,a12,a13,a14⟩ := h
      clear hf hf' hm
      constructor <;> grind
    · cases hs
  case drop t =>
    split at hs
    · rename_i h1
      cases hs
      have := rinv_drop (p := s.jpc) h hf h1.2 (by intro u hu; exact ⟨hu, by rintro rfl; exact hu h1.1⟩)
      rw [(@release_q s).2.2.2.2.1]
      exact this
    · cases hs
  case give t u =>
    split at hs
    · rename_i h1
      cases hs
      have hlen := nodup_count h1.2
      have hd := dtors_hold h (List.ne_nil_of_mem h1.2)
      obtain ⟨a1,a2,a3,a4,a5,a6,a7,a8,a9,a10,a11,a12,a13,a14⟩ := h
      have hh : ∀ v, s.jpc v ≠ .idle → v ∈ u :: s.hold.erase t := by
        intro v hv
        refine List.mem_cons_of_mem _ ((List.mem_erase_of_ne ?_).2 (a6 v hv))
        rintro rfl; exact hv h1.1
      clear hf hf'
      constructor <;> simp only [List.length_cons, hlen] <;> first | exact hh | grind
    · cases hs

theorem rinv_init {s : State} (h : Init s) : RInv s := by
  obtain ⟨c, rfl⟩ := h
  constructor <;> simp [start]

/-- The invariants of all reachable states. -/
theorem q_reach {s : State} (h : Reachable Init step s) : QInv s ∧ Lck s :=
  Reachable.invariant (fun s => QInv s ∧ Lck s)
    (fun s hi => ⟨qinv_init hi, by obtain ⟨c, rfl⟩ := hi; simp [Lck, start]⟩)
    (fun _ _ _ hI hs => ⟨qinv_step hI.1 hs, lck_step hI.1 hI.2 hs⟩) h

theorem r_reach {s : State} (h : Reach Init step Few s) : QInv s ∧ RInv s :=
  Reach.invariant (fun s => QInv s ∧ RInv s) (fun _ hi _ => ⟨qinv_init hi, rinv_init hi⟩)
    (fun _ _ _ hI hf hs hf' => ⟨qinv_step hI.1 hs, rinv_step hI.1 hI.2 hf hf' hs⟩) h

end Verif.Join
