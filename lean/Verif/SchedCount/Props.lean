import Verif.SchedCount.Spec
/-!
# Properties of the bookkeeping of fibers (C124)
-/
namespace Verif.SchedCount
open Verif.Common

theorem sum_upd (l : List Nat) (g h : Nat → Int) (f : Nat) (hn : l.Nodup) (hf : f ∈ l) (he : ∀ x, x ≠ f → h x = g x) :
    (l.map h).sum = (l.map g).sum + h f - g f := by
  induction l with
  | nil => simp at hf
  | cons a l ih =>
    obtain ⟨ha, hn⟩ := List.nodup_cons.1 hn
    simp only [List.map_cons, List.sum_cons]
    by_cases hfa : a = f
    · subst hfa
      have : l.map h = l.map g := List.map_congr_left fun x hx => he x (fun e => ha (e ▸ hx))
      rw [this]; omega
    · have hf' : f ∈ l := by
        rcases List.mem_cons.1 hf with e | e
        · exact absurd e.symm hfa
        · exact e
      rw [ih hn hf', he a hfa]; omega

structure Inv (wk : Nat → Bool) (sz : Nat → Nat) (s : S) : Prop where
  ub : s.ub = false
  bn : s.born.Nodup
  bmem : ∀ f, f ∈ s.born ↔ s.loc f ≠ .fresh
  ln : ∀ t, (s.list t).Nodup
  lmem : ∀ t f, f ∈ s.list t ↔ s.loc f = .on t ∨ s.loc f = .done t
  tn : ∀ t, (s.term t).Nodup
  tmem : ∀ t f, f ∈ s.term t ↔ s.loc f = .done t
  num : ∀ t, s.num t = total wk s (fun _ => 1) t
  size : ∀ t, s.size t = total wk s sz t

variable {wk : Nat → Bool} {sz : Nat → Nat}

/-- How the total changes when fiber `f`, one of those started, gets another place. -/
theorem total_move (s s' : S) (f : Nat) (l : Loc) (w : Nat → Nat) (t : Nat) (hb : s'.born = s.born) (hl : s'.loc = upd s.loc f l) (hn : s.born.Nodup)
    (hf : f ∈ s.born) : total wk s' w t = total wk s w t + (if wk f ∧ l = .on t then (w f : Int) else 0)
      - (if wk f ∧ s.loc f = .on t then (w f : Int) else 0) := by
  unfold total
  rw [hb, hl]
  rw [sum_upd s.born (fun x => if wk x ∧ s.loc x = .on t then (w x : Int) else 0) (fun x => if wk x ∧ upd s.loc f l x = .on t then (w x : Int) else 0) f hn hf]
  · simp [upd]
  · intro x hx; simp [upd, hx]

theorem total_born (s s' : S) (f : Nat) (l : Loc) (w : Nat → Nat) (t : Nat) (hb : s'.born = f :: s.born) (hl : s'.loc = upd s.loc f l) 
    (hf : f ∉ s.born) : total wk s' w t = total wk s w t + (if wk f ∧ l = .on t then (w f : Int) else 0) := by
  unfold total
  rw [hb, hl]
  simp only [List.map_cons, List.sum_cons]
  have : s.born.map (fun x => if wk x ∧ upd s.loc f l x = .on t then (w x : Int) else 0) =
      s.born.map (fun x => if wk x ∧ s.loc x = .on t then (w x : Int) else 0) := by
    refine List.map_congr_left fun x hx => ?_
    have : x ≠ f := fun e => hf (e ▸ hx)
    simp [upd, this]
  rw [this]; simp [upd]; omega

theorem upd_same {α : Type} (g : Nat → α) (i : Nat) (a : α) : upd g i a i = a := by simp [upd]
theorem upd_other {α : Type} (g : Nat → α) {i j : Nat} (a : α) (h : j ≠ i) : upd g i a j = g j := by simp [upd, h]

theorem attach_list (t f : Nat) (s : S) : (attach wk sz t f s).list = upd s.list t (s.list t ++ [f]) := by unfold attach; dsimp only; split <;> rfl
theorem attach_loc (t f : Nat) (s : S) : (attach wk sz t f s).loc = upd s.loc f (.on t) := by unfold attach; dsimp only; split <;> rfl
theorem attach_term (t f : Nat) (s : S) : (attach wk sz t f s).term = s.term := by unfold attach; dsimp only; split <;> rfl
theorem attach_born (t f : Nat) (s : S) : (attach wk sz t f s).born = s.born := by unfold attach; dsimp only; split <;> rfl
theorem attach_ub (t f : Nat) (s : S) : (attach wk sz t f s).ub = s.ub := by unfold attach; dsimp only; split <;> rfl
theorem attach_num (t f : Nat) (s : S) (u : Nat) : (attach wk sz t f s).num u = s.num u + (if wk f ∧ Loc.on t = .on u then 1 else 0) := by
  unfold attach; dsimp only
  by_cases h : wk f = true <;> by_cases h2 : u = t
  · simp [h, h2, upd]
  · have : t ≠ u := fun e => h2 e.symm
    simp [h, h2, upd, this]
  · simp [h]
  · simp [h]
theorem attach_size (t f : Nat) (s : S) (u : Nat) : (attach wk sz t f s).size u = s.size u + (if wk f ∧ Loc.on t = .on u then (sz f : Int) else 0) := by
  unfold attach; dsimp only
  by_cases h : wk f = true <;> by_cases h2 : u = t
  · simp [h, h2, upd]
  · have : t ≠ u := fun e => h2 e.symm
    simp [h, h2, upd, this]
  · simp [h]
  · simp [h]

theorem erase_in {t f : Nat} {s : S} (h : f ∈ s.list t) : erase t f s = { s with list := upd s.list t ((s.list t).erase f) } := if_pos h

theorem inv_step (s s' : S) (a : Act) (I : Inv wk sz s) (h : step wk sz s a = some s') : Inv wk sz s' := by
  have attach_lists : ∀ t f, (s.loc f = .fresh ∨ s.loc f = .moving) →
      (∀ u, ((upd s.list t (s.list t ++ [f])) u).Nodup) ∧
      (∀ u x, x ∈ (upd s.list t (s.list t ++ [f])) u ↔ upd s.loc f (.on t) x = .on u ∨ upd s.loc f (.on t) x = .done u) ∧
      (∀ u x, x ∈ s.term u ↔ upd s.loc f (.on t) x = .done u) := by
    intro t f hf
    have hnot : ∀ u, f ∉ s.list u := by
      intro u hu
      rcases (I.lmem u f).1 hu with h | h <;> rcases hf with h' | h' <;> rw [h] at h' <;> cases h'
    refine ⟨fun u => ?_, fun u x => ?_, fun u x => ?_⟩
    · by_cases hu : u = t
      · subst hu
        rw [upd_same]
        rw [List.nodup_append]
        refine ⟨I.ln u, by simp, ?_⟩
        intro a ha b hb e
        simp only [List.mem_singleton] at hb
        subst hb; subst e; exact hnot u ha
      · rw [upd_other _ _ hu]; exact I.ln u
    · have hm := I.lmem u x
      have hno := hnot u
      by_cases hx : x = f
      · subst hx
        rw [upd_same]
        by_cases hu : u = t
        · subst hu; rw [upd_same]; simp
        · rw [upd_other _ _ hu]
          have : t ≠ u := fun e => hu e.symm
          simp [hno, this]
      · rw [upd_other _ _ hx]
        by_cases hu : u = t
        · subst hu; rw [upd_same]; simp [hx, hm]
        · rw [upd_other _ _ hu]; exact hm
    · by_cases hx : x = f
      · subst hx
        rw [upd_same, I.tmem]
        rcases hf with h' | h' <;> simp [h']
      · rw [upd_other _ _ hx]; exact I.tmem u x
  cases a with
  | start t f =>
    simp only [step] at h
    split at h
    · rename_i hl
      cases h
      have hnb : f ∉ s.born := fun hm => (I.bmem f).1 hm hl
      obtain ⟨h1, h2, h3⟩ := attach_lists t f (.inl hl)
      refine ⟨by simpa [attach_ub] using I.ub, ?_, ?_, by simpa [attach_list] using h1, by simpa [attach_list, attach_loc] using h2,
        by simpa [attach_term] using I.tn, by simpa [attach_term, attach_loc] using h3, ?_, ?_⟩
      · exact List.nodup_cons.2 ⟨hnb, I.bn⟩
      · intro x
        by_cases hx : x = f
        · subst hx; simp [attach_loc, upd]
        · simp [attach_loc, upd, hx, I.bmem]
      · intro u
        refine Eq.trans ?_ (total_born (wk := wk) s _ f (.on t) _ u (by rfl) (by exact attach_loc t f s) hnb).symm
        simp only [attach_num, I.num u]; rfl
      · intro u
        refine Eq.trans ?_ (total_born (wk := wk) s _ f (.on t) _ u (by rfl) (by exact attach_loc t f s) hnb).symm
        simp only [attach_size, I.size u]
    · cases h
  | arrive t f =>
    simp only [step] at h
    split at h
    · rename_i hl
      cases h
      have hnb : f ∈ s.born := (I.bmem f).2 (by rw [hl]; simp)
      obtain ⟨h1, h2, h3⟩ := attach_lists t f (.inr hl)
      refine ⟨by simpa [attach_ub] using I.ub, by simpa [attach_born] using I.bn, ?_, by simpa [attach_list] using h1, by simpa [attach_list, attach_loc] using h2,
        by simpa [attach_term] using I.tn, by simpa [attach_term, attach_loc] using h3, ?_, ?_⟩
      · intro x
        rw [attach_born, attach_loc]
        by_cases hx : x = f
        · subst hx; simp [upd, hnb]
        · simp [upd, hx, I.bmem]
      · intro u
        rw [total_move s _ f (.on t) _ u (attach_born t f s) (attach_loc t f s) I.bn hnb]
        simp only [attach_num, I.num u, hl]; simp
      · intro u
        rw [total_move s _ f (.on t) _ u (attach_born t f s) (attach_loc t f s) I.bn hnb]
        simp only [attach_size, I.size u, hl]; simp
    · cases h
  | leave f =>
    simp only [step] at h
    split at h
    · rename_i t hl
      split at h
      · rename_i hw
        cases h
        have hnb : f ∈ s.born := (I.bmem f).2 (by rw [hl]; simp)
        have hin : f ∈ s.list t := (I.lmem t f).2 (.inl hl)
        simp only [detach, erase_in hin]
        refine ⟨I.ub, I.bn, ?_, ?_, ?_, I.tn, ?_, ?_, ?_⟩
        · intro x
          by_cases hx : x = f
          · subst hx; simp [upd, hnb]
          · simp [upd, hx, I.bmem]
        · intro u
          dsimp only
          by_cases hu : u = t
          · subst hu; rw [upd_same]; exact (I.ln u).erase f
          · rw [upd_other _ _ hu]; exact I.ln u
        · intro u x
          dsimp only
          by_cases hx : x = f
          · subst hx
            rw [upd_same]
            by_cases hu : u = t
            · subst hu; rw [upd_same, (I.ln u).mem_erase_iff]; simp
            · rw [upd_other _ _ hu, I.lmem, hl]
              have : t ≠ u := fun e => hu e.symm
              simp [this]
          · rw [upd_other _ _ hx]
            by_cases hu : u = t
            · subst hu; rw [upd_same, (I.ln u).mem_erase_iff, I.lmem]; simp [hx]
            · rw [upd_other _ _ hu, I.lmem]
        · intro u x
          dsimp only
          by_cases hx : x = f
          · subst hx; rw [upd_same, I.tmem, hl]; simp
          · rw [upd_other _ _ hx, I.tmem]
        · intro u
          refine Eq.trans ?_ (total_move (wk := wk) s _ f .moving _ u (by rfl) (by rfl) I.bn hnb).symm
          rw [← I.num u, hl]
          dsimp only
          by_cases hu : u = t
          · subst hu; rw [upd_same]; simp [hw]
          · rw [upd_other _ _ hu]
            have : t ≠ u := fun e => hu e.symm
            simp [this]
        · intro u
          refine Eq.trans ?_ (total_move (wk := wk) s _ f .moving _ u (by rfl) (by rfl) I.bn hnb).symm
          rw [← I.size u, hl]
          dsimp only
          by_cases hu : u = t
          · subst hu; rw [upd_same]; simp [hw]
          · rw [upd_other _ _ hu]
            have : t ≠ u := fun e => hu e.symm
            simp [this]
      · cases h
    · cases h
  | finish f =>
    simp only [step] at h
    split at h
    · rename_i t hl
      split at h
      · rename_i hw
        cases h
        have hnb : f ∈ s.born := (I.bmem f).2 (by rw [hl]; simp)
        have hnt : ∀ u, f ∉ s.term u := by
          intro u hu
          have := (I.tmem u f).1 hu
          rw [hl] at this; cases this
        simp only [terminate, hw, if_true]
        refine ⟨I.ub, I.bn, ?_, I.ln, ?_, ?_, ?_, ?_, ?_⟩
        · intro x
          by_cases hx : x = f
          · subst hx; simp [upd, hnb]
          · simp [upd, hx, I.bmem]
        · intro u x
          dsimp only
          by_cases hx : x = f
          · subst hx
            rw [upd_same, I.lmem, hl]
            simp
          · rw [upd_other _ _ hx, I.lmem]
        · intro u
          dsimp only
          by_cases hu : u = t
          · subst hu
            rw [upd_same, List.nodup_append]
            refine ⟨I.tn u, by simp, ?_⟩
            intro a ha b hb e
            simp only [List.mem_singleton] at hb
            subst hb; subst e; exact hnt u ha
          · rw [upd_other _ _ hu]; exact I.tn u
        · intro u x
          dsimp only
          by_cases hx : x = f
          · subst hx
            rw [upd_same]
            by_cases hu : u = t
            · subst hu; rw [upd_same]; simp
            · rw [upd_other _ _ hu]
              have : t ≠ u := fun e => hu e.symm
              simp [hnt, this]
          · rw [upd_other _ _ hx]
            by_cases hu : u = t
            · subst hu; rw [upd_same]; simp [hx, I.tmem]
            · rw [upd_other _ _ hu]; exact I.tmem u x
        · intro u
          refine Eq.trans ?_ (total_move (wk := wk) s _ f (.done t) _ u (by rfl) (by rfl) I.bn hnb).symm
          rw [← I.num u, hl]
          dsimp only
          by_cases hu : u = t
          · subst hu; rw [upd_same]; simp [hw]
          · rw [upd_other _ _ hu]
            have : t ≠ u := fun e => hu e.symm
            simp [this]
        · intro u
          refine Eq.trans ?_ (total_move (wk := wk) s _ f (.done t) _ u (by rfl) (by rfl) I.bn hnb).symm
          rw [← I.size u, hl]
          dsimp only
          by_cases hu : u = t
          · subst hu; rw [upd_same]; simp [hw]
          · rw [upd_other _ _ hu]
            have : t ≠ u := fun e => hu e.symm
            simp [this]
      · cases h
    · cases h
  | destroy t =>
    simp only [step, destroyOne] at h
    split at h
    · cases h
    · rename_i f r ht
      have hl : s.loc f = .done t := (I.tmem t f).1 (by rw [ht]; simp)
      have hnb : f ∈ s.born := (I.bmem f).2 (by rw [hl]; simp)
      have hin : f ∈ s.list t := (I.lmem t f).2 (.inr hl)
      have hnr : f ∉ r ∧ r.Nodup := by have := I.tn t; rw [ht] at this; exact List.nodup_cons.1 this
      rw [erase_in (s := { s with term := upd s.term t r }) hin] at h
      cases h
      refine ⟨I.ub, I.bn, ?_, ?_, ?_, ?_, ?_, ?_, ?_⟩
      · intro x
        by_cases hx : x = f
        · subst hx; simp [upd, hnb]
        · simp [upd, hx, I.bmem]
      · intro u
        dsimp only
        by_cases hu : u = t
        · subst hu; rw [upd_same]; exact (I.ln u).erase f
        · rw [upd_other _ _ hu]; exact I.ln u
      · intro u x
        dsimp only
        by_cases hx : x = f
        · subst hx
          rw [upd_same]
          by_cases hu : u = t
          · subst hu; rw [upd_same, (I.ln u).mem_erase_iff]; simp
          · rw [upd_other _ _ hu, I.lmem, hl]
            have : t ≠ u := fun e => hu e.symm
            simp [this]
        · rw [upd_other _ _ hx]
          by_cases hu : u = t
          · subst hu; rw [upd_same, (I.ln u).mem_erase_iff, I.lmem]; simp [hx]
          · rw [upd_other _ _ hu, I.lmem]
      · intro u
        dsimp only
        by_cases hu : u = t
        · subst hu; rw [upd_same]; exact hnr.2
        · rw [upd_other _ _ hu]; exact I.tn u
      · intro u x
        dsimp only
        by_cases hx : x = f
        · subst hx
          rw [upd_same]
          by_cases hu : u = t
          · subst hu; rw [upd_same]; simp [hnr.1]
          · rw [upd_other _ _ hu, I.tmem, hl]
            have : t ≠ u := fun e => hu e.symm
            simp [this]
        · rw [upd_other _ _ hx]
          by_cases hu : u = t
          · subst hu
            have := I.tmem u x
            rw [ht] at this
            rw [upd_same, ← this]; simp [hx]
          · rw [upd_other _ _ hu]; exact I.tmem u x
      · intro u
        refine Eq.trans ?_ (total_move (wk := wk) s _ f .gone _ u (by rfl) (by rfl) I.bn hnb).symm
        rw [hl]
        dsimp only
        rw [I.num u]; simp
      · intro u
        refine Eq.trans ?_ (total_move (wk := wk) s _ f .gone _ u (by rfl) (by rfl) I.bn hnb).symm
        rw [hl]
        dsimp only
        rw [I.size u]; simp

theorem inv_reach {s : S} (h : Ok wk sz s) : Inv wk sz s := by
  refine Reachable.invariant (Inv wk sz) ?_ (fun s a s' => inv_step s s' a) h
  rintro _ rfl
  exact ⟨rfl, by simp [init], by simp [init], by simp [init], by simp [init], by simp [init], by simp [init], by simp [init, total], by simp [init, total]⟩

/-- On every thread, at any time: `WorkerFibersCount` is the number of worker fibers that are on the thread and have not finished, and
`WorkerFibersStackSize` the sum of the sizes of their stacks. -/
theorem C124_counters {s : S} (h : Ok wk sz s) (t : Nat) : s.num t = total wk s (fun _ => 1) t ∧ s.size t = total wk s sz t :=
  ⟨(inv_reach h).num t, (inv_reach h).size t⟩

theorem total_nonneg (s : S) (w : Nat → Nat) (t : Nat) : 0 ≤ total wk s w t ∧
    (total wk s w t = 0 → ∀ f ∈ s.born, wk f = true → s.loc f = .on t → w f = 0) := by
  unfold total
  induction s.born with
  | nil => simp
  | cons a l ih =>
    simp only [List.map_cons, List.sum_cons]
    obtain ⟨h1, h2⟩ := ih
    have h0 : (0 : Int) ≤ if wk a ∧ s.loc a = .on t then (w a : Int) else 0 := by split <;> omega
    refine ⟨by omega, fun he f hf hw hl => ?_⟩
    rcases List.mem_cons.1 hf with rfl | hf
    · rw [if_pos ⟨hw, hl⟩] at he; omega
    · exact h2 (by omega) f hf hw hl

/-- The counters never go below zero. -/
theorem C124_no_underflow {s : S} (h : Ok wk sz s) (t : Nat) : 0 ≤ s.num t ∧ 0 ≤ s.size t := by
  rw [(C124_counters h t).1, (C124_counters h t).2]
  exact ⟨(total_nonneg s _ t).1, (total_nonneg s _ t).1⟩

/-- The thread can end without the fatal error exactly if no worker fiber on it is unfinished. -/
theorem C124_fatal {s : S} (h : Ok wk sz s) (t : Nat) : fatal s t = true ↔ ∃ f, wk f = true ∧ s.loc f = .on t := by
  have I := inv_reach h
  simp only [fatal, ne_eq, decide_eq_true_eq]
  constructor
  · intro hne
    have : ¬ ∀ f ∈ s.born, ¬ (wk f = true ∧ s.loc f = .on t) := by
      intro hall
      apply hne
      rw [I.num t]
      unfold total
      have : s.born.map (fun f => if wk f = true ∧ s.loc f = .on t then (((fun _ => 1 : Nat → Nat) f : Nat) : Int) else 0) = s.born.map fun _ => 0 :=
        List.map_congr_left fun x hx => if_neg (hall x hx)
      rw [this]
      induction s.born with
      | nil => rfl
      | cons a l ih => simpa using ih
    exact Classical.byContradiction fun hc => this fun f _ hf => hc ⟨f, hf⟩
  · rintro ⟨f, hw, hl⟩ h0
    have := (total_nonneg (wk := wk) s (fun _ => 1) t).2 (by rw [← I.num t]; exact h0) f ((I.bmem f).2 (by rw [hl]; simp)) hw hl
    cases this

/-- The list of fibers of a thread, from which stack traces are printed, has every fiber on the thread exactly once, finished ones until they
are released, and no other; the list of fibers to be released has the finished ones; nothing is taken out of a list it is not in. -/
theorem C124_lists {s : S} (h : Ok wk sz s) (t f : Nat) :
    (s.list t).Nodup ∧ (f ∈ s.list t ↔ s.loc f = .on t ∨ s.loc f = .done t) ∧ (s.term t).Nodup ∧ (f ∈ s.term t ↔ s.loc f = .done t) ∧ s.ub = false :=
  ⟨(inv_reach h).ln t, (inv_reach h).lmem t f, (inv_reach h).tn t, (inv_reach h).tmem t f, (inv_reach h).ub⟩

/-- Two threads; a fiber that migrates, one that finishes. -/
theorem C124_case : ∃ s, Ok (fun f => f ≥ 2) (fun f => 1000 * f) s ∧ s.num 0 = 1 ∧ s.size 0 = 4000 ∧ s.num 1 = 1 ∧ s.size 1 = 2000 ∧
    s.list 0 = [0, 3, 4] ∧ s.term 0 = [3] ∧ s.loc 5 = .gone ∧ fatal s 0 = true :=
  ⟨_, Reachable.exec (.init rfl trivial) [.start 0 0, .start 1 1, .start 0 2, .start 0 5, .start 0 3, .start 0 4, .leave 2, .finish 5, .arrive 1 2, .destroy 0, .finish 3]
    rfl, rfl, rfl, rfl, rfl, rfl, rfl, rfl, rfl⟩

end Verif.SchedCount
