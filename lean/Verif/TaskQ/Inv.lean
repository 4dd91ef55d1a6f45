import Verif.TaskQ.Spec
namespace Verif.TaskQ
open Common

/-- The task of a call that is going on. -/
def heldBy : Phase → Option Nat
  | .first _ t | .prep _ t | .retry _ t _ | .wait _ t _ | .asleep _ t => some t
  | _ => none

def Busy (x : P) : Prop := x.q ≠ [] ∨ x.running = true ∨ x.loc ≠ []

structure Inv (cap : Nat) (s : S) : Prop where
  sleep : ∀ i p t, s.th i = .asleep p t → Busy (s.ps p)
  waits : ∀ i p t, s.th i = .wait p t (s.ps p).epoch → Busy (s.ps p)
  epr : ∀ i p t e, s.th i = .retry p t e → e ≤ (s.ps p).epoch
  epw : ∀ i p t e, s.th i = .wait p t e → e ≤ (s.ps p).epoch
  fifo : ∀ p, (s.ps p).ran ++ (s.ps p).q = (s.ps p).acc
  len : ∀ p, (s.ps p).q.length ≤ cap
  held : ∀ i t, heldBy (s.th i) = some t → s.stat t = .caller i
  dn : ∀ i p t w, s.th i = .done p t w → s.stat t = .accepted p
  lc : ∀ p t, t ∈ (s.ps p).loc → s.stat t = .local p
  lnd : ∀ p, (s.ps p).loc.Nodup
  sp : ∀ p d t, (s.ps p).spin = some (d, t) → s.stat t = .moving p
  ac : ∀ p t, t ∈ (s.ps p).acc ↔ s.stat t = .accepted p
  acnd : ∀ p, (s.ps p).acc.Nodup

theorem inv_init (cap : Nat) : Inv cap {} := by
  constructor <;> simp [heldBy]

theorem woken_held (p : Nat) (x : Phase) : heldBy (woken p x) = heldBy x := by
  cases x with
  | asleep p' t => simp only [woken]; split <;> rfl
  | _ => rfl

theorem inv_setTh {cap : Nat} {s : S} {i : Nat} {v : Phase} (I : Inv cap s)
    (hh : ∀ t, heldBy v = some t → s.stat t = .caller i)
    (hs : ∀ p t, v = .asleep p t → Busy (s.ps p)) (hw : ∀ p t, v = .wait p t (s.ps p).epoch → Busy (s.ps p))
    (hr : ∀ p t e, v = .retry p t e → e ≤ (s.ps p).epoch) (hwe : ∀ p t e, v = .wait p t e → e ≤ (s.ps p).epoch)
    (hd : ∀ p t w, v = .done p t w → s.stat t = .accepted p) : Inv cap (setTh s i v) := by
  obtain ⟨i1, i2, i3, i4, i5, i6, i7, i8, i9, i10, i11, i12, i13⟩ := I
  constructor <;> simp only [setTh] <;> grind [upd]

theorem inv_enqueue {cap : Nat} {s : S} {p t : Nat} (I : Inv cap s) (hl : (s.ps p).q.length < cap)
    (h1 : ∀ i, heldBy (s.th i) ≠ some t) (h2 : ∀ p, t ∉ (s.ps p).loc) (h3 : ∀ p d, (s.ps p).spin ≠ some (d, t))
    (h4 : ∀ p, s.stat t ≠ .accepted p) : Inv cap (enqueue s p t) := by
  obtain ⟨i1, i2, i3, i4, i5, i6, i7, i8, i9, i10, i11, i12, i13⟩ := I
  constructor <;> simp only [enqueue]
  · intro i p' t' h
    have := i1 i p' t' h
    unfold Busy upd at *
    split <;> simp_all
  · intro i p' t' h
    by_cases hp : p' = p
    · subst hp; simp [Busy, upd]
    · simp only [upd, hp, if_false] at h ⊢; exact i2 i p' t' h
  · grind [upd]
  · grind [upd]
  · intro p'
    have := i5 p'
    unfold upd; split
    · rename_i h; subst h; simp only; rw [← List.append_assoc, this]
    · exact this
  · intro p'
    have := i6 p'
    unfold upd; split
    · rename_i h; subst h; simp; omega
    · exact this
  · grind [upd]
  · grind [upd]
  · grind [upd]
  · grind [upd]
  · grind [upd]
  · intro p' t'
    have := i12 p' t'
    unfold upd
    by_cases hp : p' = p <;> by_cases ht : t' = t <;> grind
  · intro p'
    have := i13 p'
    have h5 := i12 p' t
    unfold upd; split
    · rename_i h; subst h
      simp only
      refine List.nodup_append.2 ⟨this, by simp, ?_⟩
      intro a ha b hb
      simp at hb; subst hb
      rintro rfl
      exact h4 _ (h5.1 ha)
    · exact this

theorem inv_notify {cap : Nat} {s : S} (p : Nat) (I : Inv cap s) : Inv cap (notifyAll s p) := by
  obtain ⟨i1, i2, i3, i4, i5, i6, i7, i8, i9, i10, i11, i12, i13⟩ := I
  constructor <;> simp only [notifyAll]
  · intro i p' t h
    have h' : s.th i = .asleep p' t ∧ p' ≠ p := by
      revert h; cases s.th i <;> simp [woken]
      intro h; split at h <;> simp_all
    have := i1 i p' t h'.1
    simp only [upd, h'.2, if_false]; exact this
  · intro i p' t h
    have h' : s.th i = .wait p' t (upd s.ps p { s.ps p with epoch := (s.ps p).epoch + 1 } p').epoch := by
      revert h; cases s.th i <;> simp [woken]
      intro h; split at h <;> simp_all
    have h3 := i4 _ _ _ _ h'
    by_cases hp : p' = p
    · subst hp; simp [upd] at h3
      omega
    · simp only [upd, hp, if_false] at h' ⊢; exact i2 _ _ _ h'
  · intro i p' t e h
    have h' : s.th i = .retry p' t e := by
      revert h; cases s.th i <;> simp [woken]
      intro h; split at h <;> simp_all
    have := i3 _ _ _ _ h'
    unfold upd; split <;> simp_all; omega
  · intro i p' t e h
    have h' : s.th i = .wait p' t e := by
      revert h; cases s.th i <;> simp [woken]
      intro h; split at h <;> simp_all
    have := i4 _ _ _ _ h'
    unfold upd; split <;> simp_all; omega
  · grind [upd]
  · grind [upd]
  · intro i t h; rw [woken_held] at h; exact i7 i t h
  · intro i p' t w h
    have h' : s.th i = .done p' t w := by
      revert h; cases s.th i <;> simp [woken]
      intro h; split at h <;> simp_all
    exact i8 _ _ _ _ h'
  · grind [upd]
  · grind [upd]
  · grind [upd]
  · grind [upd]
  · grind [upd]

theorem notify_awake (s : S) (p i t : Nat) : (notifyAll s p).th i ≠ .asleep p t := by
  simp only [notifyAll]
  cases s.th i <;> simp [woken]
  intro h; split at h <;> simp_all

theorem notify_wait {cap : Nat} {s : S} (p : Nat) (I : Inv cap s) (i t : Nat) :
    (notifyAll s p).th i ≠ .wait p t ((notifyAll s p).ps p).epoch := by
  simp only [notifyAll]
  intro h
  have h' : s.th i = .wait p t ((s.ps p).epoch + 1) := by
    revert h; cases s.th i <;> simp [woken, upd]
    intro h; split at h <;> simp_all
  have := I.epw _ _ _ _ h'
  omega

/-- A change of one proactor that keeps its notifications and what it accepted. -/
theorem inv_ps {cap : Nat} {s : S} {p : Nat} {P' : P} (I : Inv cap s) (he : P'.epoch = (s.ps p).epoch) (ha : P'.acc = (s.ps p).acc)
    (hb : (∃ i t, s.th i = .asleep p t ∨ s.th i = .wait p t (s.ps p).epoch) → Busy (s.ps p) → Busy P') (hf : P'.ran ++ P'.q = P'.acc) (hl : P'.q.length ≤ cap)
    (hloc : ∀ t ∈ P'.loc, s.stat t = .local p) (hnd : P'.loc.Nodup) (hsp : ∀ d t, P'.spin = some (d, t) → s.stat t = .moving p) :
    Inv cap { s with ps := upd s.ps p P' } := by
  obtain ⟨i1, i2, i3, i4, i5, i6, i7, i8, i9, i10, i11, i12, i13⟩ := I
  constructor <;> simp only
  · intro i p' t h
    have := i1 i p' t h
    unfold upd; split
    · rename_i hp; subst hp; exact hb ⟨i, t, .inl h⟩ this
    · exact this
  · intro i p' t h
    by_cases hp : p' = p
    · subst hp
      simp only [upd, if_true, he] at h ⊢
      exact hb ⟨i, t, .inr h⟩ (i2 i p' t h)
    · simp only [upd, hp, if_false] at h ⊢; exact i2 i p' t h
  all_goals grind [upd]

/-- A task is born. -/
theorem inv_stat {cap : Nat} {s : S} {t : Nat} {v : Stat} (I : Inv cap s) (hu : s.stat t = .unborn) (hv : ∀ p, v ≠ .accepted p) :
    Inv cap { s with stat := upd s.stat t v } := by
  obtain ⟨i1, i2, i3, i4, i5, i6, i7, i8, i9, i10, i11, i12, i13⟩ := I
  constructor <;> simp only <;> grind [upd]

theorem upd_self {α : Type} (f : Nat → α) (i : Nat) (v : α) : upd f i v i = v := by simp [upd]

theorem inv_step {cap : Nat} (hc : 0 < cap) {s s' : S} {a : Act} (I : Inv cap s) (h : step cap s a = some s') : Inv cap s' := by
  cases a with
  | call i p t =>
    simp only [step] at h
    have key : s.stat t = .unborn → Inv cap (setTh { s with stat := upd s.stat t (.caller i) } i (.first p t)) := by
      intro hu
      refine inv_setTh (inv_stat I hu (by simp)) ?_ ?_ ?_ ?_ ?_ ?_ <;> simp [heldBy, upd]
    split at h
    · split at h
      · cases h; exact key (by assumption)
      · cases h
    · split at h
      · cases h; exact key (by assumption)
      · cases h
    · cases h
  | first i =>
    simp only [step] at h
    split at h
    · rename_i p t ht
      have hst := I.held i t (by rw [ht]; rfl)
      cases h
      split
      · rename_i hl
        have e : setTh (enqueue s p t) i (.done p t false) = setTh (enqueue (setTh s i .idle) p t) i (.done p t false) := by
          simp [setTh, enqueue]; funext j; simp [upd]; split <;> simp_all
        rw [e]
        have I1 : Inv cap (setTh s i .idle) := by refine inv_setTh I ?_ ?_ ?_ ?_ ?_ ?_ <;> simp [heldBy]
        have I2 : Inv cap (enqueue (setTh s i .idle) p t) := by
          refine inv_enqueue I1 hl ?_ ?_ ?_ ?_
          · intro j hj
            have := I1.held j t hj
            simp only [setTh] at this hj
            rw [hst] at this; cases this
            simp [upd, heldBy] at hj
          · intro p' hp; have := I.lc p' t hp; rw [hst] at this; cases this
          · intro p' d hp; have := I.sp p' d t hp; rw [hst] at this; cases this
          · intro p' hp; rw [setTh] at hp; simp only at hp; rw [hst] at hp; cases hp
        refine inv_setTh I2 ?_ ?_ ?_ ?_ ?_ ?_ <;> simp [heldBy, enqueue, upd]
      · refine inv_setTh I ?_ ?_ ?_ ?_ ?_ ?_ <;> simp [heldBy]; exact hst
    · cases h
  | prepare i =>
    simp only [step] at h
    split at h
    · rename_i p t ht
      have hst := I.held i t (by rw [ht]; rfl)
      cases h
      refine inv_setTh I ?_ ?_ ?_ ?_ ?_ ?_ <;> simp [heldBy]
      · exact hst
    · cases h
  | retry i =>
    simp only [step] at h
    split at h
    · rename_i p t e0 ht
      have hst := I.held i t (by rw [ht]; rfl)
      have hep := I.epr _ _ _ _ ht
      cases h
      split
      · rename_i hl
        have e : setTh (enqueue s p t) i (.done p t true) = setTh (enqueue (setTh s i .idle) p t) i (.done p t true) := by
          simp [setTh, enqueue]; funext j; simp [upd]; split <;> simp_all
        rw [e]
        have I1 : Inv cap (setTh s i .idle) := by refine inv_setTh I ?_ ?_ ?_ ?_ ?_ ?_ <;> simp [heldBy]
        have I2 : Inv cap (enqueue (setTh s i .idle) p t) := by
          refine inv_enqueue I1 hl ?_ ?_ ?_ ?_
          · intro j hj
            have := I1.held j t hj
            simp only [setTh] at this hj
            rw [hst] at this; cases this
            simp [upd, heldBy] at hj
          · intro p' hp; have := I.lc p' t hp; rw [hst] at this; cases this
          · intro p' d hp; have := I.sp p' d t hp; rw [hst] at this; cases this
          · intro p' hp; rw [setTh] at hp; simp only at hp; rw [hst] at hp; cases hp
        refine inv_setTh I2 ?_ ?_ ?_ ?_ ?_ ?_ <;> simp [heldBy, enqueue, upd]
      · rename_i hl
        have hb : Busy (s.ps p) := .inl (by intro h0; rw [h0] at hl; exact hl hc)
        refine inv_setTh I ?_ ?_ ?_ ?_ ?_ ?_ <;> simp [heldBy]
        · exact hst
        · intro _; exact hb
        · exact hep
    · cases h
  | wait i =>
    simp only [step] at h
    split at h
    · rename_i p t e0 ht
      have hst := I.held i t (by rw [ht]; rfl)
      have hw := I.waits i p t
      cases h
      split
      · rename_i he
        refine inv_setTh I ?_ ?_ ?_ ?_ ?_ ?_ <;> simp [heldBy]
        · exact hst
        · exact hw (by rw [he]; exact ht)
      · refine inv_setTh I ?_ ?_ ?_ ?_ ?_ ?_ <;> simp [heldBy]; exact hst
    · cases h
  | deq p =>
    simp only [step] at h
    split at h
    · cases h
      refine inv_ps I ?_ ?_ ?_ ?_ ?_ ?_ ?_ ?_
      · simp [runHead]; split <;> rfl
      · simp [runHead]; split <;> rfl
      · intro _ _; exact .inr (.inl rfl)
      · have := I.fifo p
        simp only [runHead]; split
        · exact this
        · rename_i h; rw [h] at this; simpa using this
      · have := I.len p
        simp only [runHead]; split
        · exact this
        · rename_i h; rw [h] at this; simp at this ⊢; omega
      · have := I.lc p
        simp only [runHead]; split <;> exact this
      · have := I.lnd p
        simp only [runHead]; split <;> exact this
      · have := I.sp p
        simp only [runHead]; split <;> exact this
    · cases h
  | mid p =>
    simp only [step] at h
    split at h
    · cases h; exact inv_notify p I
    · cases h
  | endBatch p =>
    simp only [step] at h
    split at h
    · cases h
      have J := inv_notify p I
      refine inv_ps J rfl rfl ?_ (J.fifo p) (J.len p) (J.lc p) (J.lnd p) (J.sp p)
      rintro ⟨i, t, h | h⟩
      · exact absurd h (notify_awake s p i t)
      · exact absurd h (notify_wait p I i t)
    · cases h
  | localCall p t =>
    simp only [step] at h
    split at h
    · rename_i hg
      simp only [Bool.and_eq_true, decide_eq_true_eq] at hg
      cases h
      have J := inv_stat (t := t) (v := .local p) I hg.2 (by simp)
      refine inv_ps (s := { s with stat := upd s.stat t (.local p) }) J rfl rfl ?_ (J.fifo p) (J.len p) ?_ ?_ (J.sp p)
      · intro _ _; exact .inr (.inr (by simp))
      · intro t' ht'
        simp only [List.mem_cons] at ht'
        rcases ht' with rfl | ht'
        · simp [upd]
        · exact J.lc p t' ht'
      · refine List.nodup_cons.2 ⟨?_, J.lnd p⟩
        intro hm
        have := I.lc p t hm
        rw [hg.2] at this; cases this
    · cases h
  | localTry p =>
    simp only [step] at h
    split at h
    · rename_i t r hloc
      have hst := I.lc p t (by rw [hloc]; simp)
      have hnd := I.lnd p
      rw [hloc] at hnd
      cases h
      split
      · rename_i hl
        -- the queue is non-empty afterwards, which the intermediate state cannot show
        have e : enqueue { s with ps := upd s.ps p { s.ps p with loc := r } } p t =
            { enqueue { s with ps := upd s.ps p { s.ps p with loc := r, running := true } } p t with
              ps := upd (enqueue { s with ps := upd s.ps p { s.ps p with loc := r, running := true } } p t).ps p
                { (enqueue { s with ps := upd s.ps p { s.ps p with loc := r, running := true } } p t).ps p with
                  running := (s.ps p).running } } := by
          simp only [enqueue]; congr 1; funext j; by_cases hj : j = p <;> simp [upd, hj]
        rw [e]
        have I1 : Inv cap { s with ps := upd s.ps p { s.ps p with loc := r, running := true } } := by
          refine inv_ps I rfl rfl ?_ (I.fifo p) (I.len p) ?_ (List.nodup_cons.1 hnd).2 (I.sp p)
          · intro _ _; exact .inr (.inl rfl)
          · intro t' ht'; exact I.lc p t' (by rw [hloc]; simp [ht'])
        have I2 : Inv cap (enqueue { s with ps := upd s.ps p { s.ps p with loc := r, running := true } } p t) := by
          refine inv_enqueue I1 (by simpa [upd] using hl) ?_ ?_ ?_ ?_
          · intro j hj; have := I.held j t hj; rw [hst] at this; cases this
          · intro p' hm
            by_cases hp : p' = p
            · subst hp; simp only [upd, if_true] at hm; exact (List.nodup_cons.1 hnd).1 hm
            · simp only [upd, hp, if_false] at hm
              have := I.lc p' t hm; rw [hst] at this; cases this; exact hp rfl
          · intro p' d hm
            have := I1.sp p' d t hm; simp only at this; rw [hst] at this; cases this
          · intro p' hm; simp only at hm; rw [hst] at hm; cases hm
        refine inv_ps I2 rfl rfl ?_ (I2.fifo p) (I2.len p) (I2.lc p) (I2.lnd p) (I2.sp p)
        intro _ _; exact .inl (by simp [enqueue, upd])
      · refine inv_ps I ?_ ?_ ?_ ?_ ?_ ?_ ?_ ?_
        · simp [runHead]; split <;> rfl
        · simp [runHead]; split <;> rfl
        · intro _ _; refine .inr (.inr ?_); simp only [runHead]; split <;> (simp only [hloc]; simp)
        · have := I.fifo p
          simp only [runHead]; split
          · exact this
          · rename_i h; rw [h] at this; simpa using this
        · have := I.len p
          simp only [runHead]; split
          · exact this
          · rename_i h; rw [h] at this; simp at this ⊢; omega
        · have := I.lc p
          simp only [runHead]; split <;> exact this
        · have := I.lnd p
          simp only [runHead]; split <;> exact this
        · have := I.sp p
          simp only [runHead]; split <;> exact this
    · cases h
  | migrate p d t =>
    simp only [step] at h
    split at h
    · rename_i hg
      simp only [Bool.and_eq_true, decide_eq_true_eq] at hg
      cases h
      have J := inv_stat (t := t) (v := .moving p) I hg.2 (by simp)
      refine inv_ps (s := { s with stat := upd s.stat t (.moving p) }) J rfl rfl ?_ (J.fifo p) (J.len p) (J.lc p) (J.lnd p) ?_
      · intro _ h; exact h
      · intro d' t' h; cases h; simp [upd]
    · cases h
  | migTry p =>
    simp only [step] at h
    split at h
    · rename_i d t hsp
      have hst := I.sp p d t hsp
      split at h
      · rename_i hl
        cases h
        have I1 : Inv cap { s with ps := upd s.ps p { s.ps p with spin := none } } := by
          refine inv_ps I rfl rfl ?_ (I.fifo p) (I.len p) (I.lc p) (I.lnd p) (by simp)
          intro _ h; exact h
        refine inv_enqueue I1 ?_ ?_ ?_ ?_ ?_
        · simp only [upd]; split
          · rename_i h; subst h; exact hl
          · exact hl
        · intro j hj; have := I.held j t hj; rw [hst] at this; cases this
        · intro p' hm; have := I1.lc p' t hm; simp only at this; rw [hst] at this; cases this
        · intro p' d' hm
          by_cases hp : p' = p
          · subst hp; simp [upd] at hm
          · simp only [upd, hp, if_false] at hm
            have := I.sp p' d' t hm; rw [hst] at this; cases this; exact hp rfl
        · intro p' hm; simp only at hm; rw [hst] at hm; cases hm
      · cases h; exact I
    · cases h

theorem inv {cap : Nat} (hc : 0 < cap) {s : S} (h : Reaches cap s) : Inv cap s :=
  Reachable.invariant (Inv cap) (fun s hs => by subst hs; exact inv_init cap) (fun s a s' I h => inv_step hc I h) h

end Verif.TaskQ
