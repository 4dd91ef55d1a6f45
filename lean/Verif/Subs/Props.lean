import Verif.Subs.Spec
/-!
# C116: subscriptions
-/
namespace Verif.Subs
open Common

@[simp] theorem upd_same (f : Nat → T) (i : Nat) (t : T) : upd f i t i = t := by simp [upd]

theorem upd_ne (f : Nat → T) {i j : Nat} (t : T) (h : j ≠ i) : upd f i t j = f j := by simp [upd, h]

/-- The party has a key. -/
def hasKey : Pc → Bool
  | .chk1 _ | .sub _ | .drop _ | .pers1 | .held | .unsub => true
  | _ => false

structure Inv (s : S) : Prop where
  cnt : s.waiters = s.keys.length + s.leak
  knd : s.keys.Nodup
  key : ∀ i, i ∈ s.keys ↔ hasKey (s.th i).pc = true
  nd : s.q.Nodup
  qh : ∀ w, w ∈ s.q → (s.th w).pc = .held
  ph : ∀ w, (s.th w).pc = .held → (s.th w).pers = true → w ∈ s.q
  pp : ∀ w, (s.th w).pers = true → (s.th w).pc = .pers1 ∨ (s.th w).pc = .held
  p1 : ∀ w, (s.th w).pc = .pers1 → (s.th w).pers = true
  os : ∀ w, (s.th w).pc = .held → (s.th w).pers = false → (w ∈ s.q ∧ (s.th w).got = 0) ∨ (w ∉ s.q ∧ (s.th w).got = 1)
  ep : ∀ w e, (s.th w).pc = .chk1 e ∨ (s.th w).pc = .sub e → e ≤ s.epoch
  i5 : s.one = false → s.ready = true → ∀ w e, (s.th w).pc = .sub e → e < s.epoch ∨ ∃ t, (s.th t).pc = .setN true
  i6 : s.one = false → s.ready = true → ∀ w, w ∈ s.q → (s.th w).pers = false → ∃ t, (s.th t).pc = .setN true ∨ (s.th t).pc = .n2 true
  i7 : s.one = false → ∀ t, (s.th t).pc ≠ .setN false

theorem inv_init : Inv {} := by
  refine ⟨rfl, by simp, by simp [hasKey], by simp, by simp, by simp, by simp, by simp, by simp, by simp, by simp, by simp, by simp⟩

/-- Firing changes only the counters. -/
theorem fire_pc (f : Nat → T) (w j : Nat) : (fire f w j).pc = (f j).pc ∧ (fire f w j).pers = (f j).pers := by
  by_cases h : j = w
  · subst h; simp [fire]
  · simp [fire, upd_ne f _ h]

theorem fold_pc (l : List Nat) : ∀ (f : Nat → T) (j : Nat), (l.foldl fire f j).pc = (f j).pc ∧ (l.foldl fire f j).pers = (f j).pers := by
  induction l with
  | nil => intro f j; exact ⟨rfl, rfl⟩
  | cons a l ih =>
    intro f j
    rw [List.foldl_cons, (ih _ j).1, (ih _ j).2]
    exact fire_pc f a j

theorem fold_got (l : List Nat) : ∀ (f : Nat → T) (j : Nat), l.Nodup → (l.foldl fire f j).got = (f j).got + if j ∈ l then 1 else 0 := by
  induction l with
  | nil => intro f j _; simp
  | cons a l ih =>
    intro f j hn
    rw [List.nodup_cons] at hn
    rw [List.foldl_cons, ih _ j hn.2]
    by_cases h : j = a
    · subst h; simp [fire, hn.1]
    · simp [fire, upd_ne f _ h, h]

theorem keep5 {f : Nat → T} {i : Nat} {t : T} (hi : (f i).pc ≠ .setN true) (h : ∃ t, (f t).pc = .setN true) : ∃ j, (upd f i t j).pc = .setN true := by
  obtain ⟨j, hj⟩ := h
  refine ⟨j, ?_⟩
  rw [upd_ne]
  · exact hj
  · rintro rfl; exact hi hj

theorem keep6 {f : Nat → T} {i : Nat} {t : T} (h1 : (f i).pc ≠ .setN true) (h2 : (f i).pc ≠ .n2 true) (h : ∃ t, (f t).pc = .setN true ∨ (f t).pc = .n2 true) :
    ∃ j, (upd f i t j).pc = .setN true ∨ (upd f i t j).pc = .n2 true := by
  obtain ⟨j, hj⟩ := h
  refine ⟨j, ?_⟩
  rw [upd_ne]
  · exact hj
  · rintro rfl; rcases hj with hj | hj
    · exact h1 hj
    · exact h2 hj

theorem Inv.busy {s : S} (I : Inv s) {w : Nat} (h : hasKey (s.th w).pc = true) : s.waiters ≠ 0 := by
  have := I.cnt
  have h2 := (I.key w).2 h
  have : 0 < s.keys.length := List.length_pos_of_mem h2
  omega

/-- A step of party `i` that touches neither the queue nor the notifications. -/
theorem inv_bump {s : S} {i : Nat} {all : Bool} (I : Inv s) (hp : (s.th i).pc = .idle ∨ (s.th i).pc = .setN all) : Inv (bump s i all) := by
  have hb := @Inv.busy s I
  obtain ⟨cnt, knd, key, nd, qh, ph, pp, p1, os, ep, i5, i6, i7⟩ := I
  simp only [bump]
  refine ⟨cnt, knd, ?_, nd, ?_, ?_, ?_, ?_, ?_, ?_, ?_, ?_, ?_⟩
  · simp only; grind [upd, hasKey]
  · simp only; grind [upd, hasKey]
  · simp only; grind [upd, hasKey]
  · simp only; grind [upd, hasKey]
  · simp only; grind [upd, hasKey]
  · simp only; grind [upd, hasKey]
  · simp only; grind [upd, hasKey]
  · intro ho hr w e hw
    simp only at hw ⊢
    left
    have : e ≤ s.epoch := by
      by_cases hwi : w = i
      · subst hwi; rw [upd_same] at hw; simp only at hw; split at hw <;> cases hw
      · rw [upd_ne _ _ hwi] at hw; exact ep w e (Or.inr hw)
    omega
  · intro ho hr w hq hper
    simp only at hq hper ⊢
    have hwh := qh w hq
    have hwi : w ≠ i := by rintro rfl; rw [hwh] at hp; rcases hp with h | h <;> cases h
    rw [upd_ne _ _ hwi] at hper
    have hz : s.waiters ≠ 0 := hb (w := w) (by rw [hwh]; rfl)
    obtain ⟨t, ht⟩ := i6 ho hr w hq hper
    by_cases hti : t = i
    · subst hti
      refine ⟨t, Or.inr ?_⟩
      rw [upd_same]
      simp only [hz, ne_eq, not_false_eq_true, if_true]
      rcases hp with h | h
      · rw [h] at ht; rcases ht with h' | h' <;> cases h'
      · rw [h] at ht; rcases ht with h' | h' <;> cases h'
        rfl
    · exact ⟨t, by rw [upd_ne _ _ hti]; exact ht⟩
  · intro ho t
    simp only
    by_cases hti : t = i
    · subst hti; rw [upd_same]; simp only; split <;> simp
    · rw [upd_ne _ _ hti]; exact i7 ho t

/-- The end of a notification: the waiters of `l` were called, and the queue has become `q'`. -/
theorem inv_notified {s : S} {i : Nat} {all : Bool} (I : Inv s) (hp : (s.th i).pc = .n2 all) (f : Nat → T) (q' : List Nat)
    (h1 : ∀ j, (f j).pc = (s.th j).pc) (h2 : ∀ j, (f j).pers = (s.th j).pers)
    (hq : q'.Nodup) (hsub : ∀ w, w ∈ q' → w ∈ s.q) (hpers : ∀ w, w ∈ s.q → (s.th w).pers = true → w ∈ q')
    (hgot : ∀ w, (s.th w).pers = false → (w ∈ s.q ∧ w ∉ q' ∧ (f w).got = (s.th w).got + 1) ∨ ((w ∈ s.q ↔ w ∈ q') ∧ (f w).got = (s.th w).got))
    (hall : all = true → ∀ w, w ∈ q' → (s.th w).pers = true) :
    Inv { s with q := q', th := upd f i { f i with pc := .idle } } := by
  obtain ⟨cnt, knd, key, nd, qh, ph, pp, p1, os, ep, i5, i6, i7⟩ := I
  refine ⟨cnt, knd, ?_, hq, ?_, ?_, ?_, ?_, ?_, ?_, ?_, ?_, ?_⟩
  · simp only; grind [upd, hasKey]
  · simp only; grind [upd, hasKey]
  · simp only; grind [upd, hasKey]
  · simp only; grind [upd, hasKey]
  · simp only; grind [upd, hasKey]
  · simp only; grind [upd, hasKey]
  · simp only; grind [upd, hasKey]
  · intro ho hr w e hw
    simp only at hw ⊢
    have hw' : (s.th w).pc = .sub e := by
      by_cases hwi : w = i
      · subst hwi; rw [upd_same] at hw; cases hw
      · rw [upd_ne _ _ hwi, h1] at hw; exact hw
    rcases i5 ho hr w e hw' with h | ⟨t, ht⟩
    · exact Or.inl h
    · exact Or.inr (keep5 (by rw [h1, hp]; intro h; cases h) ⟨t, by rw [h1]; exact ht⟩)
  · intro ho hr w hw hper
    simp only at hw hper ⊢
    have hwi : w ≠ i := by rintro rfl; have := qh w (hsub w hw); rw [hp] at this; cases this
    rw [upd_ne _ _ hwi, h2] at hper
    cases all with
    | true => rw [hall rfl w hw] at hper; cases hper
    | false =>
      obtain ⟨t, ht⟩ := i6 ho hr w (hsub w hw) hper
      exact keep6 (by rw [h1, hp]; intro h; cases h) (by rw [h1, hp]; intro h; cases h) ⟨t, by rw [h1]; exact ht⟩
  · intro ho t
    simp only
    by_cases hti : t = i
    · subst hti; rw [upd_same]; simp
    · rw [upd_ne _ _ hti, h1]; exact i7 ho t

/-- A step of party `i` that leaves the queue, the epoch and the condition alone. -/
theorem inv_move {s : S} {i : Nat} {t : T} {wa le : Nat} {ks : List Nat} (I : Inv s)
    (h1 : (s.th i).pc ≠ .setN true) (h2 : (s.th i).pc ≠ .n2 true) (h3 : (s.th i).pc ≠ .held ∨ i ∉ s.q) (h4 : t.pc ≠ .held)
    (hc : wa = ks.length + le) (hk : ks.Nodup) (hkey : ∀ j, j ∈ ks ↔ hasKey (upd s.th i t j).pc = true)
    (hpers : t.pers = true → t.pc = .pers1) (hp1 : t.pc = .pers1 → t.pers = true) (hep : ∀ e, t.pc = .chk1 e ∨ t.pc = .sub e → e ≤ s.epoch)
    (hs : ∀ e, t.pc = .sub e → s.ready = false) (h7 : t.pc ≠ .setN false) :
    Inv { s with waiters := wa, keys := ks, leak := le, th := upd s.th i t } := by
  obtain ⟨cnt, knd, key, nd, qh, ph, pp, p1, os, ep, i5, i6, i7⟩ := I
  have hiq : i ∉ s.q := by
    rcases h3 with h | h
    · intro hq; exact h (qh i hq)
    · exact h
  refine ⟨hc, hk, hkey, nd, ?_, ?_, ?_, ?_, ?_, ?_, ?_, ?_, ?_⟩
  · simp only; grind [upd, hasKey]
  · simp only; grind [upd]
  · simp only; grind [upd]
  · simp only; grind [upd]
  · simp only; grind [upd]
  · simp only; grind [upd]
  · intro ho hr w e hw
    simp only at hw ho hr ⊢
    by_cases hwi : w = i
    · subst hwi; rw [upd_same] at hw; rw [hs e hw] at hr; cases hr
    · rw [upd_ne _ _ hwi] at hw
      rcases i5 ho hr w e hw with h | h
      · exact Or.inl h
      · exact Or.inr (keep5 h1 h)
  · intro ho hr w hw hper
    simp only at hw hper ho hr ⊢
    have hwi : w ≠ i := by rintro rfl; exact hiq hw
    rw [upd_ne _ _ hwi] at hper
    exact keep6 h1 h2 (i6 ho hr w hw hper)
  · intro ho j
    simp only
    by_cases hj : j = i
    · subst hj; rw [upd_same]; exact h7
    · rw [upd_ne _ _ hj]; exact i7 ho j

/-- Linking. -/
theorem inv_link {s : S} {i : Nat} (I : Inv s) (hp : (s.th i).pc = .pers1 ∧ (s.th i).pers = true ∨ (s.th i).pc = .sub s.epoch ∧ (s.th i).pers = false) :
    Inv { s with q := s.q ++ [i], th := upd s.th i { s.th i with pc := .held, got := 0 } } := by
  obtain ⟨cnt, knd, key, nd, qh, ph, pp, p1, os, ep, i5, i6, i7⟩ := I
  have hiq : i ∉ s.q := by
    intro hq; have := qh i hq; rcases hp with ⟨h, _⟩ | ⟨h, _⟩ <;> rw [h] at this <;> cases this
  have h1 : (s.th i).pc ≠ .setN true := by rcases hp with ⟨h, _⟩ | ⟨h, _⟩ <;> rw [h] <;> intro h <;> cases h
  have h2 : (s.th i).pc ≠ .n2 true := by rcases hp with ⟨h, _⟩ | ⟨h, _⟩ <;> rw [h] <;> intro h <;> cases h
  refine ⟨cnt, knd, ?_, ?_, ?_, ?_, ?_, ?_, ?_, ?_, ?_, ?_, ?_⟩
  · simp only; grind [upd, hasKey]
  · simp only; rw [List.nodup_append]; exact ⟨nd, by simp, by simp; intro a ha hai; exact hiq (hai ▸ ha)⟩
  · simp only; grind [upd]
  · simp only; grind [upd]
  · simp only; grind [upd]
  · simp only; grind [upd]
  · simp only; grind [upd]
  · simp only; grind [upd]
  · intro ho hr w e hw
    simp only at hw ho hr ⊢
    by_cases hwi : w = i
    · subst hwi; rw [upd_same] at hw; cases hw
    · rw [upd_ne _ _ hwi] at hw
      rcases i5 ho hr w e hw with h | h
      · exact Or.inl h
      · exact Or.inr (keep5 h1 h)
  · intro ho hr w hw hper
    simp only at hw hper ho hr ⊢
    by_cases hwi : w = i
    · subst hwi
      rw [upd_same] at hper
      rcases hp with ⟨_, h⟩ | ⟨h, _⟩
      · rw [h] at hper; cases hper
      · rcases i5 ho hr w _ h with h' | ⟨t, ht⟩
        · omega
        · exact keep6 h1 h2 ⟨t, Or.inl ht⟩
    · rw [upd_ne _ _ hwi] at hper
      have : w ∈ s.q := by simpa [hwi] using hw
      exact keep6 h1 h2 (i6 ho hr w this hper)
  · intro ho j
    simp only
    by_cases hj : j = i
    · subst hj; rw [upd_same]; simp
    · rw [upd_ne _ _ hj]; exact i7 ho j

/-- Unsubscribing. -/
theorem inv_unlink {s : S} {i : Nat} (I : Inv s) (hp : (s.th i).pc = .held) :
    Inv { s with q := s.q.erase i, th := upd s.th i { s.th i with pc := .unsub, pers := false } } := by
  obtain ⟨cnt, knd, key, nd, qh, ph, pp, p1, os, ep, i5, i6, i7⟩ := I
  have h1 : (s.th i).pc ≠ .setN true := by rw [hp]; intro h; cases h
  have h2 : (s.th i).pc ≠ .n2 true := by rw [hp]; intro h; cases h
  have hm : ∀ w, w ∈ s.q.erase i ↔ w ≠ i ∧ w ∈ s.q := fun w => nd.mem_erase_iff
  refine ⟨cnt, knd, ?_, nd.erase i, ?_, ?_, ?_, ?_, ?_, ?_, ?_, ?_, ?_⟩
  · simp only; grind [upd, hasKey]
  · simp only [hm]; grind [upd]
  · simp only [hm]; grind [upd]
  · simp only; grind [upd]
  · simp only; grind [upd]
  · simp only [hm]; grind [upd]
  · simp only; grind [upd]
  · intro ho hr w e hw
    simp only at hw ho hr ⊢
    by_cases hwi : w = i
    · subst hwi; rw [upd_same] at hw; cases hw
    · rw [upd_ne _ _ hwi] at hw
      rcases i5 ho hr w e hw with h | h
      · exact Or.inl h
      · exact Or.inr (keep5 h1 h)
  · intro ho hr w hw hper
    simp only at hw hper ho hr ⊢
    obtain ⟨hwi, hw⟩ := (hm w).1 hw
    rw [upd_ne _ _ hwi] at hper
    exact keep6 h1 h2 (i6 ho hr w hw hper)
  · intro ho j
    simp only
    by_cases hj : j = i
    · subst hj; rw [upd_same]; simp
    · rw [upd_ne _ _ hj]; exact i7 ho j

/-- Setting the condition. -/
theorem inv_set {s : S} {i : Nat} {all : Bool} (I : Inv s) (hp : (s.th i).pc = .idle) :
    Inv { s with ready := true, one := s.one || !all, th := upd s.th i { s.th i with pc := .setN all } } := by
  obtain ⟨cnt, knd, key, nd, qh, ph, pp, p1, os, ep, i5, i6, i7⟩ := I
  refine ⟨cnt, knd, ?_, nd, ?_, ?_, ?_, ?_, ?_, ?_, ?_, ?_, ?_⟩
  · simp only; grind [upd, hasKey]
  · simp only; grind [upd, hasKey]
  · simp only; grind [upd]
  · simp only; grind [upd]
  · simp only; grind [upd]
  · simp only; grind [upd]
  · simp only; grind [upd]
  · intro ho hr w e hw
    simp only [Bool.or_eq_false_iff, Bool.not_eq_false'] at ho
    exact Or.inr ⟨i, by simp only; rw [upd_same, ho.2]⟩
  · intro ho hr w hw hper
    simp only [Bool.or_eq_false_iff, Bool.not_eq_false'] at ho
    exact ⟨i, Or.inl (by simp only; rw [upd_same, ho.2])⟩
  · intro ho j
    simp only [Bool.or_eq_false_iff, Bool.not_eq_false'] at ho ⊢
    by_cases hj : j = i
    · subst hj; rw [upd_same, ho.2]; simp
    · rw [upd_ne _ _ hj]; exact i7 ho.1 j

theorem notpers {s : S} (I : Inv s) {i : Nat} (h1 : (s.th i).pc ≠ .pers1) (h2 : (s.th i).pc ≠ .held) : (s.th i).pers = false := by
  cases h : (s.th i).pers with
  | false => rfl
  | true => rcases I.pp i h with h' | h'
            · exact absurd h' h1
            · exact absurd h' h2

theorem cons_keys {s : S} (I : Inv s) {i : Nat} {t : T} (h : hasKey (s.th i).pc = false) (ht : hasKey t.pc = true) :
    (i :: s.keys).Nodup ∧ (∀ j, j ∈ i :: s.keys ↔ hasKey (upd s.th i t j).pc = true) ∧ s.waiters + 1 = (i :: s.keys).length + s.leak := by
  have hi : i ∉ s.keys := by rw [I.key, h]; simp
  refine ⟨List.nodup_cons.2 ⟨hi, I.knd⟩, ?_, by have := I.cnt; simp only [List.length_cons]; omega⟩
  intro j
  by_cases hj : j = i
  · subst hj; simp [ht]
  · simp [hj, upd_ne _ _ hj, I.key]

theorem erase_keys {s : S} (I : Inv s) {i : Nat} {t : T} (h : hasKey (s.th i).pc = true) (ht : hasKey t.pc = false) :
    (s.keys.erase i).Nodup ∧ (∀ j, j ∈ s.keys.erase i ↔ hasKey (upd s.th i t j).pc = true) ∧ (s.keys.erase i).length + 1 = s.keys.length := by
  have hi : i ∈ s.keys := by rw [I.key, h]
  refine ⟨I.knd.erase i, ?_, ?_⟩
  · intro j
    rw [I.knd.mem_erase_iff]
    by_cases hj : j = i
    · subst hj; simp [ht]
    · simp [hj, upd_ne _ _ hj, I.key]
  · rw [List.length_erase_of_mem hi]
    have := List.length_pos_of_mem hi
    omega

theorem same_keys {s : S} (I : Inv s) {i : Nat} {t : T} (h : hasKey t.pc = hasKey (s.th i).pc) : ∀ j, j ∈ s.keys ↔ hasKey (upd s.th i t j).pc = true := by
  intro j
  by_cases hj : j = i
  · subst hj; rw [upd_same, h, I.key]
  · rw [upd_ne _ _ hj, I.key]

theorem inv_step {s s' : S} {a : Nat × Act} (I : Inv s) (h : step s a = some s') : Inv s' := by
  obtain ⟨i, a⟩ := a
  simp only [step, goto] at h
  split at h
  case h_1 all hp => cases h; exact inv_set I hp
  case h_2 all hp => cases h; exact inv_bump I (Or.inl hp)
  case h_3 all hp => cases h; exact inv_bump I (Or.inr hp)
  case h_4 hp =>
    cases h
    refine inv_notified (all := true) I hp (s.q.foldl fire s.th) (s.q.filter fun w => (s.th w).pers) (fun j => (fold_pc _ _ j).1) (fun j => (fold_pc _ _ j).2)
      (I.nd.filter _) (fun w hw => (List.mem_filter.1 hw).1) (fun w hw hp => List.mem_filter.2 ⟨hw, hp⟩) ?_ (fun _ w hw => (List.mem_filter.1 hw).2)
    intro w hw
    rw [fold_got _ _ _ I.nd]
    by_cases hq : w ∈ s.q
    · left; exact ⟨hq, by simp [hw], by simp [hq]⟩
    · right; exact ⟨by simp [hq], by simp [hq]⟩
  case h_5 hp =>
    cases h
    cases hq : s.q with
    | nil =>
      have e : (notifyOne s) = s := by rw [notifyOne, hq]
      rw [e]
      exact inv_notified (all := false) I hp s.th s.q (fun _ => rfl) (fun _ => rfl) I.nd (fun _ h => h) (fun _ h _ => h) (fun w _ => Or.inr ⟨Iff.rfl, rfl⟩) (by simp)
    | cons w r =>
      have e : (notifyOne s) = { s with q := if (s.th w).pers then w :: r else r, th := fire s.th w } := by rw [notifyOne, hq]
      rw [e]
      have nd := I.nd
      rw [hq] at nd
      have nd' := List.nodup_cons.1 nd
      refine inv_notified (all := false) I hp (fire s.th w) (if (s.th w).pers then w :: r else r) (fun j => (fire_pc _ _ j).1) (fun j => (fire_pc _ _ j).2) ?_ ?_ ?_ ?_ (by simp)
      · split
        · exact nd
        · exact nd'.2
      · rw [hq]; intro x hx; split at hx
        · exact hx
        · exact List.mem_cons_of_mem _ hx
      · rw [hq]; intro x hx hpx
        split
        · exact hx
        · rename_i hn
          rcases List.mem_cons.1 hx with rfl | hx
          · exact absurd hpx hn
          · exact hx
      · rw [hq]; intro x hx
        by_cases hxw : x = w
        · subst hxw
          left
          rw [hx]
          exact ⟨by simp, by simpa using nd'.1, by simp [fire]⟩
        · right
          refine ⟨by split <;> simp [hxw], by simp [fire, upd_ne _ _ hxw]⟩
  case h_6 hp =>
    cases h
    exact inv_move I (by simp [hp]) (by simp [hp]) (by simp [hp]) (by simp) I.cnt I.knd (same_keys I (by simp [hp, hasKey]))
      (by simp [notpers I (i := i) (by simp [hp]) (by simp [hp])]) (by simp) (by simp) (by simp) (by simp)
  case h_7 hp =>
    cases h
    exact inv_move I (by simp [hp]) (by simp [hp]) (by simp [hp]) (by simp only; split <;> simp) I.cnt I.knd (same_keys I (by simp only [hp]; split <;> simp [hasKey]))
      (by simp [notpers I (i := i) (by simp [hp]) (by simp [hp])]) (by simp only; split <;> simp) (by simp only; split <;> simp) (by simp only; split <;> simp) (by simp only; split <;> simp)
  case h_8 hp =>
    cases h
    obtain ⟨k1, k2, k3⟩ := cons_keys I (i := i) (t := { s.th i with pc := .chk1 s.epoch }) (by simp [hp, hasKey]) rfl
    exact inv_move I (by simp [hp]) (by simp [hp]) (by simp [hp]) (by simp) k3 k1 k2
      (by simp [notpers I (i := i) (by simp [hp]) (by simp [hp])]) (by simp) (by simp) (by simp) (by simp)
  case h_9 e hp =>
    cases h
    have he := I.ep i e (Or.inl hp)
    exact inv_move I (by simp [hp]) (by simp [hp]) (by simp [hp]) (by simp only; split <;> simp) I.cnt I.knd (same_keys I (by simp only [hp]; split <;> simp [hasKey]))
      (by simp [notpers I (i := i) (by simp [hp]) (by simp [hp])]) (by simp only; split <;> simp) (by simp only; split <;> simp <;> omega) (by simp only; split <;> simp_all) (by simp only; split <;> simp)
  case h_10 e hp =>
    split at h
    · rename_i he
      cases h
      exact inv_link I (Or.inr ⟨by rw [he]; exact hp, notpers I (by simp [hp]) (by simp [hp])⟩)
    · cases h
      exact inv_move I (by simp [hp]) (by simp [hp]) (by simp [hp]) (by simp) I.cnt I.knd (same_keys I (by simp [hp, hasKey]))
        (by simp [notpers I (i := i) (by simp [hp]) (by simp [hp])]) (by simp) (by simp) (by simp) (by simp)
  case h_11 again hp =>
    cases h
    obtain ⟨k1, k2, k3⟩ := erase_keys I (i := i) (t := { s.th i with pc := if again = true then .prep else .idle }) (by simp [hp, hasKey]) (by simp only; split <;> rfl)
    exact inv_move I (by simp [hp]) (by simp [hp]) (by simp [hp]) (by simp only; split <;> simp) (by have := I.cnt; omega) k1 k2
      (by simp [notpers I (i := i) (by simp [hp]) (by simp [hp])]) (by simp only; split <;> simp) (by simp only; split <;> simp) (by simp only; split <;> simp) (by simp only; split <;> simp)
  case h_12 hp =>
    cases h
    obtain ⟨k1, k2, k3⟩ := cons_keys I (i := i) (t := { s.th i with pc := .pers1, pers := true }) (by simp [hp, hasKey]) rfl
    exact inv_move I (by simp [hp]) (by simp [hp]) (by simp [hp]) (by simp) k3 k1 k2 (by simp) (by simp) (by simp) (by simp) (by simp)
  case h_13 hp =>
    cases h; exact inv_link I (Or.inl ⟨hp, I.p1 i hp⟩)
  case h_14 hp => cases h; exact inv_unlink I hp
  case h_15 hp =>
    cases h
    obtain ⟨k1, k2, k3⟩ := erase_keys I (i := i) (t := { s.th i with pc := .idle }) (by simp [hp, hasKey]) rfl
    exact inv_move I (by simp [hp]) (by simp [hp]) (by simp [hp]) (by simp) (by have := I.cnt; omega) k1 k2
      (by simp [notpers I (i := i) (by simp [hp]) (by simp [hp])]) (by simp) (by simp) (by simp) (by simp)
  case h_16 hp =>
    split at h
    · cases h
    · rename_i hq
      cases h
      obtain ⟨k1, k2, k3⟩ := erase_keys I (i := i) (t := { s.th i with pc := .idle }) (by simp [hp, hasKey]) rfl
      have hper : (s.th i).pers = false := by
        cases h : (s.th i).pers with
        | false => rfl
        | true => exact absurd (I.ph i hp h) hq
      exact inv_move I (by simp [hp]) (by simp [hp]) (Or.inr hq) (by simp) (by have := I.cnt; omega) k1 k2 (by simp [hper]) (by simp) (by simp) (by simp) (by simp)
  case h_17 => cases h

theorem inv {s : S} (h : Reaches s) : Inv s :=
  Reachable.invariant Inv (fun s hs => by subst hs; exact inv_init) (fun s a s' I h => inv_step I h) h

/-! ## What is proved -/

/-- One-shot subscriptions. Once the condition has been set and everybody who set it has finished the `notifyAll` that follows, every
subscription of `check_or_subscribe` that is held has had its callback called, exactly once; and never more than once in any
case. -/
theorem C116_one_shot {s : S} (h : Reaches s) {w : Nat} (hw : (s.th w).pc = .held) (hp : (s.th w).pers = false) :
    (s.th w).got ≤ 1 ∧ (s.one = false → s.ready = true → Told s → (s.th w).got = 1) := by
  have I := inv h
  rcases I.os w hw hp with ⟨h1, h2⟩ | ⟨h1, h2⟩
  · refine ⟨by omega, ?_⟩
    intro ho hr ht
    obtain ⟨t, h'⟩ := I.i6 ho hr w h1 hp
    rcases h' with h' | h'
    · exact absurd h' (ht t).1
    · exact absurd h' (ht t).2
  · exact ⟨by omega, fun _ _ _ => h2⟩

theorem got_step {s s' : S} (I : Inv s) {a : Nat × Act} (h : step s a = some s') (w : Nat) :
    (Calls s s' w ∧ w ∈ s.q ∧ ∃ all, (s.th a.1).pc = .n2 all) ∨ (s'.th w).got = (s.th w).got ∨ ((s'.th w).pc = .held ∧ (s.th w).pc ≠ .held ∧ a.1 = w) := by
  obtain ⟨i, a⟩ := a
  have hu : ∀ (f : Nat → T) (p : Pc) (b : Bool), (upd f i { f i with pc := p, pers := b } w).got = (f w).got := by
    intro f p b
    by_cases hw : w = i
    · subst hw; simp
    · rw [upd_ne _ _ hw]
  have hg : ∀ (f : Nat → T) (p : Pc), (upd f i { f i with pc := p } w).got = (f w).got := fun f p => hu f p (f i).pers
  have link : ∀ (hn : (s.th i).pc ≠ .held), (upd s.th i { s.th i with pc := .held, got := 0 } w).got = (s.th w).got ∨
      ((upd s.th i { s.th i with pc := .held, got := 0 } w).pc = .held ∧ (s.th w).pc ≠ .held ∧ i = w) := by
    intro hn
    by_cases hw : w = i
    · subst hw; right; simp [hn]
    · left; rw [upd_ne _ _ hw]
  simp only [step, goto] at h
  split at h
  case h_4 hp =>
    cases h
    rw [show (notifyAll s).th = s.q.foldl fire s.th from rfl]
    by_cases hq : w ∈ s.q
    · left; exact ⟨by simp only [Calls]; rw [hg, fold_got _ _ _ I.nd]; simp [hq], hq, true, hp⟩
    · right; left; simp only; rw [hg, fold_got _ _ _ I.nd]; simp [hq]
  case h_5 hp =>
    cases h
    cases hq : s.q with
    | nil =>
      have e : (notifyOne s) = s := by rw [notifyOne, hq]
      rw [e]
      right; left; simp only; rw [hg]
    | cons v r =>
      have e : (notifyOne s).th = fire s.th v := by rw [notifyOne, hq]
      rw [e]
      by_cases hv : w = v
      · subst hv; left; exact ⟨by simp only [Calls]; rw [hg]; simp [fire], by simp, false, hp⟩
      · right; left; simp only; rw [hg]; simp [fire, upd_ne _ _ hv]
  case h_10 e hp =>
    split at h
    · cases h; right; exact link (by simp [hp])
    · cases h; right; left; exact hg _ _
  case h_13 hp => cases h; right; exact link (by simp [hp])
  case h_16 hp =>
    split at h
    · cases h
    · cases h; right; left; exact hg _ _
  case h_17 => cases h
  all_goals
    cases h
    right; left
    first
      | exact hg _ _
      | exact hu _ _ _

/-- No callback is called outside of its subscription: neither before it is linked nor after the destructor of its key has
unlinked it, and one call at a time; and only a notification calls it. -/
theorem C116_only_while_held {s s' : S} (h : Reaches s) {a : Nat × Act} (hs : step s a = some s') (w : Nat) :
    ((s'.th w).got ≠ (s.th w).got → (s'.th w).pc = .held) ∧
    ((s.th w).pc = .held → (s'.th w).got ≠ (s.th w).got → Calls s s' w ∧ ∃ all, (s.th a.1).pc = .n2 all) := by
  have I := inv h
  rcases got_step I hs w with ⟨h1, h2, all, h3⟩ | h1 | ⟨h1, h2, -⟩
  · refine ⟨fun _ => ?_, fun _ _ => ⟨h1, all, h3⟩⟩
    have hw := I.qh w h2
    obtain ⟨i, a⟩ := a
    have hi : w ≠ i := by rintro rfl; simp only at h3; rw [hw] at h3; cases h3
    simp only at h3
    simp only [step, goto, h3] at hs
    cases all <;> cases a <;> simp only [Option.some.injEq, reduceCtorEq] at hs
    · subst hs
      simp only [upd_ne _ _ hi]
      cases hq : s.q with
      | nil => simp only [notifyOne, hq]; exact hw
      | cons v r => simp only [notifyOne, hq]; rw [(fire_pc _ _ _).1]; exact hw
    · subst hs
      simp only [upd_ne _ _ hi]
      rw [show (notifyAll s).th = s.q.foldl fire s.th from rfl, (fold_pc _ _ _).1]
      exact hw
  · exact ⟨fun h' => absurd h1 h', fun _ h' => absurd h1 h'⟩
  · exact ⟨fun _ => h1, fun h' => absurd h' h2⟩

/-- Persistent subscriptions. While one is held, a `notifyAll` that begins does not return before it has been through the queue; when it
goes through the queue it calls the callback once; and the subscription stays. So each `notifyAll` that begins and ends while the
subscription is held calls it exactly once. -/
theorem C116_persistent {s s' : S} (h : Reaches s) {w : Nat} (hw : (s.th w).pc = .held) (hp : (s.th w).pers = true) {i : Nat} (all : Bool) :
    (∀ act, (s.th i).pc = .idle ∧ act = Act.notify all ∨ (s.th i).pc = .setN all ∧ act = Act.go → step s (i, act) = some s' → (s'.th i).pc = .n2 all) ∧
    ((s.th i).pc = .n2 true → step s (i, .go) = some s' → Calls s s' w ∧ (s'.th w).pc = .held ∧ (s'.th w).pers = true) := by
  have I := inv h
  have hz : s.waiters ≠ 0 := I.busy (w := w) (by rw [hw]; rfl)
  constructor
  · rintro act (⟨h1, rfl⟩ | ⟨h1, rfl⟩) hs
    · simp only [step, h1, Option.some.injEq] at hs
      subst hs
      simp [bump, hz]
    · simp only [step, h1, Option.some.injEq] at hs
      subst hs
      simp [bump, hz]
  · intro h1 hs
    have hi : w ≠ i := by rintro rfl; rw [hw] at h1; cases h1
    have hq := I.ph w hw hp
    simp only [step, goto, h1, Option.some.injEq] at hs
    subst hs
    simp only [Calls, upd_ne _ _ hi]
    rw [show (notifyAll s).th = s.q.foldl fire s.th from rfl, (fold_pc _ _ _).1, (fold_pc _ _ _).2, fold_got _ _ _ I.nd]
    exact ⟨by simp [hq], hw, hp⟩

/-- When a subscription is over it leaves nothing behind: the waiter is not linked, is one-shot again, and the count of waiters is the
number of keys that exist, if nobody used `Drop`. -/
theorem C116_released {s : S} (h : Reaches s) :
    (∀ w, (s.th w).pc = .idle → w ∉ s.q ∧ (s.th w).pers = false) ∧ (s.leak = 0 → (∀ w, (s.th w).pc = .idle) → s.waiters = 0 ∧ s.q = []) := by
  have I := inv h
  refine ⟨fun w hw => ⟨fun hq => ?_, notpers I (by simp [hw]) (by simp [hw])⟩, ?_⟩
  · rw [I.qh w hq] at hw; cases hw
  intro hl hi
  constructor
  · have := I.cnt
    have hk : s.keys = [] := by
      apply List.eq_nil_iff_forall_not_mem.2
      intro j hj
      rw [I.key, hi j] at hj
      cases hj
    rw [hk, hl] at this
    exact this
  · apply List.eq_nil_iff_forall_not_mem.2
    intro j hj
    have := I.qh j hj
    rw [hi j] at this
    cases this

theorem reach (l : List (Nat × Act)) (s : S) (h : exec step {} l = some s) : Reaches s := Reachable.exec (.init rfl trivial) l h

/-- A one-shot and a persistent subscription are both held when the condition is set, and both are called. -/
theorem C116_case : ∃ s, Reaches s ∧ (s.th 0).pc = .held ∧ (s.th 0).pers = false ∧ (s.th 1).pc = .held ∧ (s.th 1).pers = true ∧ s.ready = true ∧
    (s.th 0).got = 1 ∧ (s.th 1).got = 1 ∧ s.one = false :=
  ⟨_, reach [(0, .check), (0, .go), (0, .go), (0, .go), (0, .go), (1, .persist), (1, .go), (2, .set true), (2, .go), (2, .go)] _ rfl,
    rfl, rfl, rfl, rfl, rfl, rfl, rfl, rfl⟩

/-- As the comment in the code says, a notification between the two halves of `subscribe_persistent` is missed: the condition was set
and `notifyAll` has returned, and the callback has not been called. -/
theorem C116_gap : ∃ s, Reaches s ∧ (s.th 1).pc = .held ∧ (s.th 1).pers = true ∧ s.ready = true ∧ (s.th 2).pc = .idle ∧ (s.th 1).got = 0 ∧ s.one = false :=
  ⟨_, reach [(1, .persist), (2, .set true), (2, .go), (2, .go), (1, .go)] _ rfl, rfl, rfl, rfl, rfl, rfl, rfl⟩

/-- The situation of `C116_starved`. -/
structure Stuck (s : S) (n : Nat) : Prop where
  q : s.q = [1, 0]
  w : s.waiters ≠ 0
  p0 : (s.th 0).pc = .held
  f0 : (s.th 0).pers = false
  g0 : (s.th 0).got = 0
  f1 : (s.th 1).pers = true
  g1 : (s.th 1).got = n
  p2 : (s.th 2).pc = .idle
  r : s.ready = true

/-- With `notify` instead of `notifyAll`, a persistent subscription in front of the queue takes the notification, in a build without DCHECKs:
however often the condition is announced, the one-shot subscription behind it is not called. -/
theorem C116_starved (n : Nat) : ∃ s, Reaches s ∧ (s.th 0).pc = .held ∧ (s.th 0).pers = false ∧ (s.th 0).got = 0 ∧ s.ready = true ∧ (s.th 2).pc = .idle ∧ (s.th 1).got = n + 1 := by
  have key : ∃ s, Reaches s ∧ Stuck s (n + 1) := by
    induction n with
    | zero =>
      exact ⟨_, reach [(1, .persist), (1, .go), (0, .check), (0, .go), (0, .go), (0, .go), (0, .go), (2, .set false), (2, .go), (2, .go)] _ rfl,
        rfl, by decide, rfl, rfl, rfl, rfl, rfl, rfl, rfl⟩
    | succ n ih =>
      obtain ⟨s, hr, hs⟩ := ih
      obtain ⟨q, w, p0, f0, g0, f1, g1, p2, r⟩ := hs
      have e : exec step s [(2, .notify false), (2, .go)] = some { (notifyOne (bump s 2 false)) with th := goto (notifyOne (bump s 2 false)) 2 .idle } := by
        simp only [exec, step, p2]
        simp only [bump, upd_same, w, ne_eq, not_false_eq_true, if_true]
      refine ⟨_, Reachable.exec hr _ e, ?_⟩
      have hn : notifyOne (bump s 2 false) = { bump s 2 false with th := fire (bump s 2 false).th 1 } := by
        have h1 : ((bump s 2 false).th 1).pers = true := by simp [bump, upd, f1]
        have h2 : (bump s 2 false).q = [1, 0] := q
        rw [notifyOne, h2]
        simp only [h1, if_true]
        rw [← h2]
      rw [hn]
      refine ⟨q, w, ?_, ?_, ?_, ?_, ?_, ?_, r⟩
      all_goals simp [goto, fire, bump, upd, p0, f0, g0, f1, g1]
  obtain ⟨s, hr, hs⟩ := key
  exact ⟨s, hr, hs.p0, hs.f0, hs.g0, hs.r, hs.p2, hs.g1⟩

/-- Giving up a key with `Drop` leaves the event count with a waiter that does not exist: notifications take the lock for ever. -/
theorem C116_drop_leaks : ∃ s, Reaches s ∧ s.waiters = 1 ∧ s.q = [] ∧ s.keys = [] :=
  ⟨_, reach [(0, .check), (0, .go), (0, .go), (0, .go), (0, .go), (2, .set true), (2, .go), (2, .go), (0, .dropKey)] _ rfl, rfl, rfl, rfl⟩

end Verif.Subs
