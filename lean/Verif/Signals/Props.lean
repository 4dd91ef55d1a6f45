import Verif.Signals.Spec
/-!
# C117: signal callbacks
-/
namespace Verif.Signals
open Common

theorem on_find {p : Nat} : ∀ {l : List Task} {t : Task}, l.find? (fun t => t.p == p) = some t → on p l = t :: on p (l.eraseP fun t => t.p == p)
  | [], _, h => by cases h
  | a :: l, t, h => by
    by_cases ha : a.p = p
    · simp only [List.find?_cons, ha, beq_self_eq_true, Option.some.injEq] at h
      subst h
      simp [on, ha]
    · have hb : (a.p == p) = false := by simp [ha]
      simp only [List.find?_cons, hb] at h
      have := on_find h
      simp only [on] at this ⊢
      simp only [List.eraseP_cons, hb, List.filter_cons, cond_false, Bool.false_eq_true, if_false]
      exact this

theorem on_other {p q : Nat} (h : q ≠ p) : ∀ (l : List Task), on q (l.eraseP fun t => t.p == p) = on q l
  | [] => rfl
  | a :: l => by
    by_cases ha : a.p = p
    · have hq : (p == q) = false := by simp; exact fun h' => h h'.symm
      simp [on, ha, hq]
    · have hb : (a.p == p) = false := by simp [ha]
      have ih := on_other h l
      simp only [on] at ih ⊢
      simp only [List.eraseP_cons, hb, List.filter_cons, cond_false, ih]

theorem mem_erase {p : Nat} {l : List Task} {t : Task} (h : t ∈ l.eraseP fun t => t.p == p) : t ∈ l := List.mem_of_mem_eraseP h

structure Inv (s : S) : Prop where
  hm : s.failed = false → ∀ sig, (s.map sig).isSome ↔ s.disp sig = .handler
  pm : s.dirty = false → ∀ t ∈ s.pend, s.map t.sig = some (t.p, t.cb)
  cr : s.dirty = false → s.crashed = false
  lg : s.dirty = false → ∀ p, on p s.log ++ on p s.pend = on p s.raised

theorem inv_init : Inv {} := ⟨by simp, by simp, by simp, by simp [on]⟩

theorem inv_step {s s' : S} {a : Act} (I : Inv s) (h : step s a = some s') : Inv s' := by
  obtain ⟨hm, pm, cr, lg⟩ := I
  unfold step at h
  split at h
  · cases h
  · rename_i hok
    have hf : s.failed = false := by simp at hok; exact hok.1.1
    cases a with
    | reg sig p cb =>
      simp only [Option.some.injEq] at h
      subst h
      unfold register
      split
      · exact ⟨hm, pm, cr, lg⟩
      · split
        · exact ⟨by simp, pm, cr, lg⟩
        · rename_i hn
          have hpm : s.dirty = false → ∀ t ∈ s.pend, setMap s.map sig (some (p, cb)) t.sig = some (t.p, t.cb) := by
            intro hd t ht
            have := pm hd t ht
            have hne : t.sig ≠ sig := by rintro rfl; rw [this] at hn; simp at hn
            simp [setMap, hne, this]
          simp only
          split
          · refine ⟨?_, hpm, cr, lg⟩
            intro _ j
            by_cases hj : j = sig
            · subst hj; simp [setMap, setDisp]
            · simp only [setMap, setDisp, hj, if_false]; exact hm hf j
          · exact ⟨by simp, hpm, cr, lg⟩
    | clear sig ign =>
      simp only [Option.some.injEq] at h
      subst h
      unfold clear
      split
      · exact ⟨hm, pm, cr, lg⟩
      · split
        · exact ⟨hm, pm, cr, lg⟩
        · refine ⟨?_, ?_, ?_, ?_⟩
          · intro _ j
            by_cases hj : j = sig
            · subst hj; simp only [setMap, setDisp, if_true]; cases ign <;> simp
            · simp only [setMap, setDisp, hj, if_false]; exact hm hf j
          · intro hd t ht
            simp only [Bool.or_eq_false_iff] at hd
            have := pm hd.1 t ht
            have hne : t.sig ≠ sig := by
              intro e
              have : s.pend.any (fun t => t.sig == sig) = true := List.any_eq_true.2 ⟨t, ht, by simp [e]⟩
              rw [this] at hd
              cases hd.2
            simp only [setMap, hne, if_false]; exact this
          · intro hd; simp only [Bool.or_eq_false_iff] at hd; exact cr hd.1
          · intro hd; simp only [Bool.or_eq_false_iff] at hd; exact lg hd.1
    | raise sig =>
      simp only [Option.some.injEq] at h
      subst h
      split
      · unfold sigAction
        split
        · rename_i p cb hs
          refine ⟨hm, ?_, cr, ?_⟩
          · intro hd t ht
            simp only [List.mem_append, List.mem_singleton] at ht
            rcases ht with ht | rfl
            · exact pm hd t ht
            · exact hs
          · intro hd q
            have := lg hd q
            simp only [on, List.filter_append] at this ⊢
            rw [← List.append_assoc, this]
        · exact ⟨hm, pm, cr, lg⟩
      · exact ⟨hm, pm, cr, lg⟩
    | run p =>
      simp only [runTask] at h
      split at h
      · cases h
      · rename_i t ht
        have htm : t ∈ s.pend := List.mem_of_find?_eq_some ht
        have htp : t.p = p := by have := List.find?_some ht; simpa using this
        split at h
        · rename_i p' cb hs
          cases h
          refine ⟨hm, fun hd t' ht' => pm hd t' (mem_erase ht'), cr, ?_⟩
          intro hd q
          have e := pm hd t htm
          rw [e] at hs
          cases hs
          rw [← lg hd q]
          by_cases hq : q = p
          · subst hq
            rw [on_find ht]
            have : (⟨q, t.sig, t.cb⟩ : Task) = t := by rw [← htp]
            simp [on, this, htp]
          · rw [on_other hq]
            have : (p == q) = false := by simp; exact fun h => hq h.symm
            simp [on, this]
        · rename_i hs
          cases h
          refine ⟨hm, fun hd t' ht' => pm hd t' (mem_erase ht'), ?_, ?_⟩
          · intro hd
            rw [pm hd t htm] at hs; cases hs
          · intro hd
            rw [pm hd t htm] at hs; cases hs

theorem inv {s : S} (h : Reaches s) : Inv s :=
  Reachable.invariant Inv (fun s hs => by subst hs; exact inv_init) (fun s a s' I h => inv_step I h) h

/-- A signal is given to the proactor of its registration exactly when it arrives while registered, with the callback of that
time, once. -/
theorem C117_arrival {s : S} (h : Reaches s) (hf : s.failed = false) (hc : s.crashed = false) (ho : s.oob = false) (sig : Nat) :
    (∀ p cb, s.map sig = some (p, cb) → ∃ s', step s (.raise sig) = some s' ∧ s'.pend = s.pend ++ [⟨p, sig, cb⟩]) ∧
    (s.map sig = none → step s (.raise sig) = some s) := by
  have I := inv h
  have hm := I.hm hf sig
  constructor
  · intro p cb hs
    have : s.disp sig = .handler := hm.1 (by simp [hs])
    refine ⟨sigAction s sig, by simp [step, hf, hc, ho, this], by simp [sigAction, hs]⟩
  · intro hs
    have : s.disp sig ≠ .handler := fun e => by have := hm.2 e; simp [hs] at this
    simp [step, hf, hc, ho, this]

/-- If no signal is cleared while a callback of it is pending: the callbacks that ran on a proactor, followed by those that are pending on it,
are exactly the arrivals of registered signals, each with the callback that was registered, in order; and nothing crashes. What is
missing is `C117_cleared`, `C117_other_callback` and `C117_out_of_range`. -/
theorem C117_calls_partial {s : S} (h : Reaches s) (hd : s.dirty = false) :
    s.crashed = false ∧ ∀ p, on p s.log ++ on p s.pend = on p s.raised :=
  ⟨(inv h).cr hd, (inv h).lg hd⟩

theorem reach (l : List Act) (s : S) (h : exec step {} l = some s) : Reaches s := Reachable.exec (.init rfl trivial) l h

/-- SIGTERM and SIGINT are registered, arrive twice and are handled once. -/
theorem C117_case : ∃ s, Reaches s ∧ s.dirty = false ∧ s.log = [⟨0, 15, 7⟩] ∧ s.pend = [⟨0, 2, 7⟩] :=
  ⟨_, reach [.reg 2 0 7, .reg 15 0 7, .raise 15, .raise 2, .run 0] _ rfl, rfl, rfl, rfl⟩

/-- A signal arrives and is cleared before its callback runs, as when an `AcceptServer` is destroyed: an empty function is called and
the program ends. -/
theorem C117_cleared : ∃ s, Reaches s ∧ s.crashed = true :=
  ⟨_, reach [.reg 15 0 7, .raise 15, .clear 15 true, .run 0] _ rfl, rfl⟩

/-- If the signal is registered again in the meantime, the new callback is called, on the old proactor. -/
theorem C117_other_callback : ∃ s, Reaches s ∧ s.map 15 = some (1, 8) ∧ s.raised = [⟨0, 15, 7⟩] ∧ s.log = [⟨0, 15, 8⟩] :=
  ⟨_, reach [.reg 15 0 7, .raise 15, .clear 15 false, .reg 15 1 8, .run 0] _ rfl, rfl, rfl, rfl⟩

/-- A signal number of 65 or more, which the type of the argument allows, is used as an index before anything checks it. -/
theorem C117_out_of_range (sig p cb : Nat) (h : 65 ≤ sig) : ∃ s, Reaches s ∧ s.oob = true := by
  refine ⟨register {} sig p cb, reach [.reg sig p cb] _ rfl, ?_⟩
  rw [register, if_pos (by exact h)]

end Verif.Signals
