import Verif.RelAcq.Model
/-! What the accesses do to memory and views. -/
namespace Verif.RelAcq
open Verif.Common

variable {L : Type} [DecidableEq L]

theorem le_join_left (a b : View L) (l : L) : a l ≤ join a b l := by unfold join; omega
theorem le_join_right (a b : View L) (l : L) : b l ≤ join a b l := by unfold join; omega
@[simp] theorem single_same (l : L) (ts : Nat) : single l ts l = ts := by simp [single]
theorem single_ne {l x : L} (ts : Nat) (h : x ≠ l) : single l ts x = 0 := by simp [single, h]

theorem load_iff {s s' : Mem L} {t : Nat} {l : L} {a : Bool} {ts v : Nat} :
    s.load t l a ts = some (v, s') ↔ ∃ m, s.msg l ts = some m ∧ s.cur t l ≤ ts ∧ v = m.val ∧ s' = s.saw t l ts a m := by
  unfold Mem.load
  cases h : s.msg l ts with
  | none => simp
  | some m =>
    simp only [Option.some.injEq]
    constructor
    · intro h1
      split at h1
      · simp only [Option.some.injEq, Prod.mk.injEq] at h1
        exact ⟨m, rfl, ‹_›, h1.1.symm, h1.2.symm⟩
      · cases h1
    · rintro ⟨m', rfl, h2, rfl, rfl⟩
      rw [if_pos h2]

theorem store_iff {s s' : Mem L} {t : Nat} {l : L} {v : Nat} {r : Bool} {ts : Nat} :
    s.store t l v r ts = some s' ↔ s.cur t l < ts ∧ s.msg l ts = none ∧
      s' = { s with msg := s.put l ts ⟨v, if r then join (s.cur t) (single l ts) else single l ts⟩,
                    cur := upd s.cur t (join (s.cur t) (single l ts)) } := by
  unfold Mem.store
  constructor
  · intro h
    split at h
    · rename_i hc
      simp only [Option.some.injEq] at h
      exact ⟨hc.1, Option.isNone_iff_eq_none.1 hc.2, h.symm⟩
    · cases h
  · rintro ⟨h1, h2, rfl⟩
    rw [if_pos ⟨h1, by rw [h2]; rfl⟩]

theorem rmw_iff {s s' : Mem L} {t : Nat} {l : L} {f : Nat → Nat} {a r : Bool} {ts v : Nat} :
    s.rmw t l f a r ts = some (v, s') ↔ ∃ m, s.msg l ts = some m ∧ s.cur t l ≤ ts ∧ s.msg l (ts + 1) = none ∧ v = m.val ∧
      s' = { s.saw t l ts a m with
        msg := s.put l (ts + 1) ⟨f m.val, join (join m.view (single l (ts + 1)))
          (if r then join ((s.saw t l ts a m).cur t) (single l (ts + 1)) else zero)⟩,
        cur := upd (s.saw t l ts a m).cur t (join ((s.saw t l ts a m).cur t) (single l (ts + 1))) } := by
  unfold Mem.rmw
  cases h : s.msg l ts with
  | none => simp
  | some m =>
    simp only [Option.some.injEq]
    constructor
    · intro h1
      split at h1
      · rename_i hc
        simp only [Option.some.injEq, Prod.mk.injEq] at h1
        exact ⟨m, rfl, hc.1, Option.isNone_iff_eq_none.1 hc.2, h1.1.symm, h1.2.symm⟩
      · cases h1
    · rintro ⟨m', rfl, h2, h3, rfl, rfl⟩
      rw [if_pos ⟨h2, by rw [h3]; rfl⟩]

theorem cas_iff {s s' : Mem L} {t : Nat} {l : L} {old new : Nat} {a r : Bool} {ts : Nat} :
    s.cas t l old new a r ts = some s' ↔ s.rmw t l (fun _ => new) a r ts = some (old, s') := by
  unfold Mem.cas
  cases h : s.rmw t l (fun _ => new) a r ts with
  | none => simp
  | some p =>
    obtain ⟨v, s1⟩ := p
    simp only [Option.some.injEq, Prod.mk.injEq]
    constructor
    · intro h1
      split at h1
      · cases h1; exact ⟨‹_›, rfl⟩
      · cases h1
    · rintro ⟨rfl, rfl⟩
      rw [if_pos rfl]

@[simp] theorem saw_msg (s : Mem L) (t : Nat) (l : L) (ts : Nat) (a : Bool) (m : Msg L) : (s.saw t l ts a m).msg = s.msg := rfl
@[simp] theorem saw_log (s : Mem L) (t : Nat) (l : L) (ts : Nat) (a : Bool) (m : Msg L) : (s.saw t l ts a m).log = s.log := rfl

theorem saw_cur_same (s : Mem L) (t : Nat) (l : L) (ts : Nat) (a : Bool) (m : Msg L) :
    (s.saw t l ts a m).cur t = join (join (s.cur t) (single l ts)) (if a then m.view else zero) := by
  unfold Mem.saw; simp

theorem saw_cur_ne {s : Mem L} {t u : Nat} (h : u ≠ t) (l : L) (ts : Nat) (a : Bool) (m : Msg L) : (s.saw t l ts a m).cur u = s.cur u := by
  unfold Mem.saw; simp [upd_ne _ _ h]

theorem saw_cur_mono (s : Mem L) (t u : Nat) (l x : L) (ts : Nat) (a : Bool) (m : Msg L) : s.cur u x ≤ (s.saw t l ts a m).cur u x := by
  by_cases h : u = t
  · subst h; rw [saw_cur_same]; exact Nat.le_trans (le_join_left _ _ _) (le_join_left _ _ _)
  · rw [saw_cur_ne h]; exact Nat.le_refl _

theorem saw_cur_ts (s : Mem L) (t : Nat) (l : L) (ts : Nat) (a : Bool) (m : Msg L) : ts ≤ (s.saw t l ts a m).cur t l := by
  rw [saw_cur_same]
  refine Nat.le_trans ?_ (le_join_left _ _ _)
  have := le_join_right (s.cur t) (single l ts) l
  rw [single_same] at this
  exact this

theorem saw_cur_acq (s : Mem L) (t : Nat) (l x : L) (ts : Nat) (m : Msg L) : m.view x ≤ (s.saw t l ts true m).cur t x := by
  rw [saw_cur_same]; exact le_join_right _ _ _

/-- A relaxed load of another location leaves the view of a location as it is. -/
theorem saw_cur_relaxed {s : Mem L} {t : Nat} {l x : L} {ts : Nat} {m : Msg L} (h : x ≠ l) : (s.saw t l ts false m).cur t x = s.cur t x := by
  rw [saw_cur_same]; simp [join, single_ne _ h, zero]

theorem put_same (s : Mem L) (l : L) (ts : Nat) (m : Msg L) : s.put l ts m l ts = some m := by simp [Mem.put]
theorem put_ne {s : Mem L} {l x : L} {ts u : Nat} {m : Msg L} (h : ¬ (x = l ∧ u = ts)) : s.put l ts m x u = s.msg x u := by simp [Mem.put, h]

/-- What a load does. -/
structure Loaded (s s' : Mem L) (t : Nat) (l : L) (a : Bool) (ts : Nat) (m : Msg L) : Prop where
  src : s.msg l ts = some m
  may : s.cur t l ≤ ts
  msg : s'.msg = s.msg
  log : s'.log = s.log
  other : ∀ u, u ≠ t → s'.cur u = s.cur u
  mono : ∀ u x, s.cur u x ≤ s'.cur u x
  acq : a = true → ∀ x, m.view x ≤ s'.cur t x
  cur : s'.cur t = join (join (s.cur t) (single l ts)) (if a then m.view else zero)
  acqv : ∀ x, m.view x ≤ s'.acq t x
  acqMono : ∀ u x, s.acq u x ≤ s'.acq u x

theorem load_facts {s s' : Mem L} {t : Nat} {l : L} {a : Bool} {ts v : Nat} (h : s.load t l a ts = some (v, s')) :
    ∃ m, Loaded s s' t l a ts m ∧ v = m.val := by
  obtain ⟨m, h1, h2, h3, rfl⟩ := load_iff.1 h
  refine ⟨m, ⟨h1, h2, rfl, rfl, fun u hu => saw_cur_ne hu _ _ _ _, fun u x => saw_cur_mono _ _ _ _ _ _ _ _, ?_, saw_cur_same _ _ _ _ _ _,
    ?_, ?_⟩, h3⟩
  · rintro rfl x; exact saw_cur_acq _ _ _ _ _ _
  · intro x
    unfold Mem.saw
    simp only [upd_same]
    exact Nat.le_trans (le_join_right _ _ _) (le_join_right _ _ _)
  · intro u x
    unfold Mem.saw
    by_cases hu : u = t
    · subst hu; simp only [upd_same]; exact le_join_left _ _ _
    · simp only [upd_ne _ _ hu]; exact Nat.le_refl _

/-- What a store does. -/
structure Stored (s s' : Mem L) (t : Nat) (l : L) (v : Nat) (r : Bool) (ts : Nat) (w : View L) : Prop where
  above : s.cur t l < ts
  free : s.msg l ts = none
  new : s'.msg l ts = some ⟨v, w⟩
  old : ∀ x u, ¬ (x = l ∧ u = ts) → s'.msg x u = s.msg x u
  log : s'.log = s.log
  other : ∀ u, u ≠ t → s'.cur u = s.cur u
  mono : ∀ u x, s.cur u x ≤ s'.cur u x
  ge : ts ≤ s'.cur t l
  cur : s'.cur t = join (s.cur t) (single l ts)
  pub : r = true → w = s'.cur t
  acq : s'.acq = s.acq

theorem store_facts {s s' : Mem L} {t : Nat} {l : L} {v : Nat} {r : Bool} {ts : Nat} (h : s.store t l v r ts = some s') :
    ∃ w, Stored s s' t l v r ts w := by
  obtain ⟨h1, h2, rfl⟩ := store_iff.1 h
  refine ⟨_, ⟨h1, h2, put_same _ _ _ _, fun x u hx => put_ne hx, rfl, fun u hu => upd_ne _ _ hu, ?_, ?_, upd_same _ _ _, ?_, rfl⟩⟩
  · intro u x
    show _ ≤ (upd s.cur t (join (s.cur t) (single l ts))) u x
    by_cases hu : u = t
    · subst hu; rw [upd_same]; exact le_join_left _ _ _
    · rw [upd_ne _ _ hu]; exact Nat.le_refl _
  · show _ ≤ (upd s.cur t (join (s.cur t) (single l ts))) t l
    rw [upd_same]
    have := le_join_right (s.cur t) (single l ts) l
    rw [single_same] at this
    exact this
  · rintro rfl
    show _ = (upd s.cur t (join (s.cur t) (single l ts))) t
    rw [upd_same, if_pos rfl]

/-- What a read-modify-write does. -/
structure Swapped (s s' : Mem L) (t : Nat) (l : L) (f : Nat → Nat) (a r : Bool) (ts : Nat) (m : Msg L) (w : View L) : Prop where
  src : s.msg l ts = some m
  may : s.cur t l ≤ ts
  free : s.msg l (ts + 1) = none
  new : s'.msg l (ts + 1) = some ⟨f m.val, w⟩
  old : ∀ x u, ¬ (x = l ∧ u = ts + 1) → s'.msg x u = s.msg x u
  log : s'.log = s.log
  other : ∀ u, u ≠ t → s'.cur u = s.cur u
  mono : ∀ u x, s.cur u x ≤ s'.cur u x
  ge : ts + 1 ≤ s'.cur t l
  acq : a = true → ∀ x, m.view x ≤ s'.cur t x
  rel : ∀ x, m.view x ≤ w x
  pub : r = true → ∀ x, s'.cur t x ≤ w x
  cur : s'.cur t = join (join (join (s.cur t) (single l ts)) (if a then m.view else zero)) (single l (ts + 1))
  view : w = join (join m.view (single l (ts + 1))) (if r then s'.cur t else zero)
  acqv : ∀ x, m.view x ≤ s'.acq t x
  acqMono : ∀ u x, s.acq u x ≤ s'.acq u x

theorem rmw_facts {s s' : Mem L} {t : Nat} {l : L} {f : Nat → Nat} {a r : Bool} {ts v : Nat} (h : s.rmw t l f a r ts = some (v, s')) :
    ∃ m w, Swapped s s' t l f a r ts m w ∧ v = m.val := by
  obtain ⟨m, h1, h2, h3, h4, rfl⟩ := rmw_iff.1 h
  have hc : ∀ (s : Mem L) c, (upd s.cur t c) t = c := fun _ _ => upd_same _ _ _
  refine ⟨m, _, ⟨h1, h2, h3, put_same _ _ _ _, fun x u hx => put_ne hx, rfl, ?_, ?_, ?_, ?_, ?_, ?_, ?_, ?_, ?_, ?_⟩, h4⟩
  · intro u hu
    show (upd _ t _) u = _
    rw [upd_ne _ _ hu]
    exact saw_cur_ne hu _ _ _ _
  · intro u x
    by_cases hu : u = t
    · subst hu
      show _ ≤ (upd (s.saw u l ts a m).cur u (join ((s.saw u l ts a m).cur u) (single l (ts + 1)))) u x
      rw [upd_same]
      exact Nat.le_trans (saw_cur_mono _ _ _ _ _ _ _ _) (le_join_left _ _ _)
    · show _ ≤ (upd (s.saw t l ts a m).cur t (join ((s.saw t l ts a m).cur t) (single l (ts + 1)))) u x
      rw [upd_ne _ _ hu]
      exact saw_cur_mono _ _ _ _ _ _ _ _
  · show _ ≤ (upd (s.saw t l ts a m).cur t (join ((s.saw t l ts a m).cur t) (single l (ts + 1)))) t l
    rw [upd_same]
    have := le_join_right ((s.saw t l ts a m).cur t) (single l (ts + 1)) l
    rw [single_same] at this
    exact this
  · rintro rfl x
    show _ ≤ (upd (s.saw t l ts true m).cur t (join ((s.saw t l ts true m).cur t) (single l (ts + 1)))) t x
    rw [upd_same]
    exact Nat.le_trans (saw_cur_acq _ _ _ _ _ _) (le_join_left _ _ _)
  · intro x; exact Nat.le_trans (le_join_left _ _ _) (le_join_left _ _ _)
  · rintro rfl x
    show (upd (s.saw t l ts a m).cur t (join ((s.saw t l ts a m).cur t) (single l (ts + 1)))) t x ≤ _
    rw [upd_same, if_pos rfl]
    exact le_join_right _ _ _
  · show (upd (s.saw t l ts a m).cur t (join ((s.saw t l ts a m).cur t) (single l (ts + 1)))) t = _
    rw [upd_same, saw_cur_same]
  · show _ = join _ (if r then (upd (s.saw t l ts a m).cur t (join ((s.saw t l ts a m).cur t) (single l (ts + 1)))) t else zero)
    rw [upd_same]
  · intro x
    show _ ≤ (s.saw t l ts a m).acq t x
    unfold Mem.saw
    simp only [upd_same]
    exact Nat.le_trans (le_join_right _ _ _) (le_join_right _ _ _)
  · intro u x
    show _ ≤ (s.saw t l ts a m).acq u x
    unfold Mem.saw
    by_cases hu : u = t
    · subst hu; simp only [upd_same]; exact le_join_left _ _ _
    · simp only [upd_ne _ _ hu]; exact Nat.le_refl _

end Verif.RelAcq
