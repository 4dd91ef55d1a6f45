import Verif.RecvHook.Spec
/-!
# Invariants of the receive hook
-/
namespace Verif.RecvHook
open Verif.Common

theorem given_append (cb : Nat) (l m : List (Nat × Note)) : given cb (l ++ m) = given cb l ++ given cb m := by
  induction l with
  | nil => rfl
  | cons e l ih =>
    obtain ⟨c, n⟩ := e
    cases n with
    | data b =>
      simp only [List.cons_append, given]
      split
      · rw [ih, List.append_assoc]
      · exact ih
    | closed => exact ih
    | error v => exact ih

theorem received_append (cb : Nat) (l m : List (Nat × List Nat)) :
    received cb (l ++ m) = received cb l ++ received cb m := by
  induction l with
  | nil => rfl
  | cons e l ih =>
    obtain ⟨c, b⟩ := e
    simp only [List.cons_append, received]
    split
    · rw [ih, List.append_assoc]
    · exact ih

theorem ends_append (cb : Nat) (l m : List (Nat × Note)) : ends cb (l ++ m) = ends cb l + ends cb m := by
  unfold ends; exact List.countP_append

/-- After the first end no notification follows. -/
def Quiet (cb : Nat) (l : List (Nat × Note)) : Prop :=
  ∀ a e b, l = a ++ e :: b → e.1 = cb → isEnd e.2 = true → ∀ x ∈ b, x.1 ≠ cb

structure Inv (s : S) : Prop where
  flag : s.multishot = false
  data : ∀ cb, given cb s.log ++ rest cb s.cur = received cb s.rcvd
  count : s.crash = none → ∀ cb, s.regs.count cb = ends cb s.log + s.armed.count cb + again cb s.cur
  le : ∀ cb, ends cb s.log + s.armed.count cb + again cb s.cur ≤ s.regs.count cb
  more : ∀ c, s.cur = some c → c.more = true → c.cb ∈ s.armed
  neg : ∀ e ∈ s.log, ∀ v, e.2 = .error v → v < 0
  quiet : ∀ cb, s.regs.count cb ≤ 1 → Quiet cb s.log

theorem inv_new : Inv S.new :=
  ⟨rfl, fun _ => rfl, fun _ _ => rfl, fun _ => Nat.le_refl _, fun _ h => (by cases h), fun _ h => (by cases h),
    fun _ _ a e b h => (by simp [S.new] at h)⟩

theorem quiet_append {cb : Nat} {l : List (Nat × Note)} {c : Nat} {n : Note} (h : Quiet cb l)
    (hc : c = cb → ends cb l = 0) : Quiet cb (l ++ [(c, n)]) := by
  intro a e b heq he1 he2 x hx
  rcases List.eq_nil_or_concat b with hb | ⟨b', y, hb⟩
  · rw [hb] at hx; cases hx
  · subst hb
    have heq' : l ++ [(c, n)] = (a ++ e :: b') ++ [y] := by simpa using heq
    obtain ⟨h1, h2⟩ := List.append_inj' heq' rfl
    have h2 : (c, n) = y := by simpa using h2
    rw [List.concat_eq_append] at hx
    rcases List.mem_append.mp hx with hx | hx
    · exact h a e b' h1 he1 he2 x hx
    · rw [List.mem_singleton] at hx
      rw [hx, ← h2]
      intro hcc
      have h0 := hc hcc
      have : 0 < ends cb l := by
        unfold ends
        rw [List.countP_pos_iff]
        refine ⟨e, ?_, by simp [he1, he2]⟩
        rw [h1]; simp
      omega

theorem count_erase (l : List Nat) (a b : Nat) (h : a ∈ l) :
    (l.erase a).count b + (if a = b then 1 else 0) = l.count b := by
  by_cases hab : a = b
  · subst hab
    have := List.count_pos_iff.mpr h
    rw [List.count_erase_self, if_pos rfl]
    omega
  · rw [List.count_erase_of_ne (Ne.symm hab), if_neg hab]
    omega

theorem inv_reg {s : S} (cb : Nat) (hf : s.multishot = false) : s.reg cb = { s with armed := s.armed ++ [cb] } := by
  unfold S.reg
  rw [hf]
  rfl

theorem inv_unhook {s : S} (hf : s.multishot = false) : s.unhook = s := by
  unfold S.unhook
  rw [hf]
  rfl

theorem count_one (a b : Nat) : [a].count b = if a = b then 1 else 0 := by
  by_cases h : a = b <;> simp [h]

theorem ends_one (c cb : Nat) (n : Note) : ends cb [(c, n)] = if c = cb ∧ isEnd n = true then 1 else 0 := by
  unfold ends
  by_cases h : c = cb ∧ isEnd n = true
  · rw [if_pos h]; simp [h.1, h.2]
  · rw [if_neg h]
    simp only [List.countP_singleton]
    rw [if_neg]
    simpa using h

theorem inv_final {s : S} (h : Inv s) (hc : s.crash = none) (cb errno : Nat) (hcur : s.cur = none)
    (hm : cb ∈ s.armed) : Inv (s.final cb errno) := by
  obtain ⟨flag, data, count, le, more, neg, quiet⟩ := h
  have hce := fun b => count_erase s.armed cb b hm
  have hcount := count hc
  have key : ∀ n : Note, isEnd n = true → (∀ v, n = .error v → v < 0) →
      Inv { s with armed := s.armed.erase cb, multishot := false, log := s.log ++ [(cb, n)] } := by
    intro n hn hneg
    refine ⟨rfl, ?_, ?_, ?_, ?_, ?_, ?_⟩
    · intro b
      dsimp only
      rw [given_append, ← data b]
      have : given b [(cb, n)] = [] := by
        cases n with
        | data x => cases hn
        | closed => rfl
        | error v => rfl
      rw [this, List.append_nil]
    · intro _ b
      dsimp only
      have h1 := hcount b
      have h2 := hce b
      rw [ends_append, ends_one]
      simp only [hn, and_true]
      omega
    · intro b
      dsimp only
      have h1 := hcount b
      have h2 := hce b
      rw [ends_append, ends_one]
      simp only [hn, and_true]
      omega
    · intro c hcc
      dsimp only at hcc
      rw [hcur] at hcc
      cases hcc
    · intro e he v hv
      rcases List.mem_append.mp he with he | he
      · exact neg e he v hv
      · rw [List.mem_singleton] at he
        rw [he] at hv
        exact hneg v hv
    · intro b hb
      refine quiet_append (quiet b hb) ?_
      rintro rfl
      have h1 := hcount cb
      have h2 := hce cb
      rw [if_pos rfl] at h2
      have h3 : s.regs.count cb ≤ 1 := hb
      omega
  have dead : ∀ x : Crash, Inv { s with armed := s.armed.erase cb, crash := some x } := by
    intro x
    refine ⟨flag, data, fun hh => (by cases hh), ?_, ?_, neg, quiet⟩
    · intro b
      have h1 := hcount b
      have h2 := hce b
      dsimp only
      omega
    · intro c hcc
      dsimp only at hcc
      rw [hcur] at hcc
      cases hcc
  unfold S.final
  dsimp only
  split
  · exact dead _
  · split
    · exact dead _
    · split
      · exact key .closed rfl (fun v hv => by cases hv)
      · rename_i h0
        refine key (.error _) rfl (fun v hv => ?_)
        cases hv
        omega

theorem inv_step {s s' : S} {a : Act} (h : Inv s) (hs : step s a = some s') : Inv s' := by
  unfold step at hs
  split at hs
  · cases hs
  · rename_i hcr
    have hc : s.crash = none := by
      cases hx : s.crash with
      | none => rfl
      | some x => rw [hx] at hcr; exact absurd rfl hcr
    have hcount := h.count hc
    cases a with
    | register cb =>
      dsimp only at hs
      split at hs
      · cases hs
        rw [inv_reg (s := { s with regs := s.regs ++ [cb] }) cb h.flag]
        refine ⟨h.flag, h.data, ?_, ?_, ?_, h.neg, ?_⟩
        · intro _ b
          dsimp only
          have := hcount b
          rw [List.count_append, List.count_append]
          omega
        · intro b
          dsimp only
          have := hcount b
          rw [List.count_append, List.count_append]
          omega
        · intro c hcc hm
          exact List.mem_append_left _ (h.more c hcc hm)
        · intro b hb
          dsimp only at hb
          rw [List.count_append] at hb
          exact h.quiet b (by omega)
      · cases hs
    | reset =>
      dsimp only at hs
      split at hs
      · cases hs; rw [inv_unhook h.flag]; exact h
      · cases hs
    | close =>
      dsimp only at hs
      split at hs
      · cases hs
        rw [inv_unhook h.flag]
        exact ⟨h.flag, h.data, h.count, h.le, h.more, h.neg, h.quiet⟩
      · cases hs
    | destroy =>
      dsimp only at hs
      split at hs
      · cases hs
        exact ⟨h.flag, h.data, h.count, h.le, h.more, h.neg, h.quiet⟩
      · cases hs
    | data cb segs more =>
      dsimp only at hs
      split at hs
      · rename_i hg
        simp only [Bool.and_eq_true, Option.isNone_iff_eq_none, List.contains_iff_mem] at hg
        obtain ⟨⟨hcur, hm⟩, _⟩ := hg
        cases hs
        have hce := fun b => count_erase s.armed cb b hm
        have hcnt : ∀ b, (if more = true then s.armed else s.armed.erase cb).count b +
            again b (some ⟨cb, segs, more⟩) = s.armed.count b := by
          intro b
          have h2 := hce b
          cases more with
          | true => simp [again]
          | false =>
            simp only [again, and_true, Bool.false_eq_true, if_false]
            exact h2
        have hag : ∀ b, again b s.cur = 0 := by intro b; rw [hcur]; rfl
        refine ⟨h.flag, ?_, ?_, ?_, ?_, h.neg, h.quiet⟩
        · intro b
          have := h.data b
          rw [hcur] at this
          dsimp only
          rw [received_append, ← this]
          simp only [rest, received, List.append_nil]
        · intro _ b
          have h1 := hcount b
          have h2 := hcnt b
          have h3 := hag b
          dsimp only
          omega
        · intro b
          have h1 := hcount b
          have h2 := hcnt b
          have h3 := hag b
          dsimp only
          omega
        · intro c hcc hmm
          cases hcc
          dsimp only at hmm ⊢
          rw [if_pos hmm]
          exact hm
      · cases hs
    | seg =>
      dsimp only at hs
      split at hs
      · rename_i cb b tl more hcur
        cases hs
        have hpos : 0 < s.armed.count cb + again cb s.cur := by
          cases more with
          | true =>
            have := List.count_pos_iff.mpr (h.more _ hcur rfl)
            dsimp only at this
            omega
          | false =>
            rw [hcur]
            simp [again]
        have hag : ∀ x, again x (some ⟨cb, tl, more⟩) = again x s.cur := by
          intro x; rw [hcur]; rfl
        have hen : ∀ x, ends x (s.log ++ [(cb, Note.data b)]) = ends x s.log := by
          intro x
          rw [ends_append, ends_one]
          simp [isEnd]
        refine ⟨h.flag, ?_, ?_, ?_, ?_, ?_, ?_⟩
        · intro x
          have := h.data x
          rw [hcur] at this
          dsimp only
          rw [given_append, ← this, List.append_assoc]
          congr 1
          simp only [given, rest]
          by_cases hx : cb = x
          · simp [hx]
          · simp [hx]
        · intro _ x
          dsimp only
          rw [hen, hag]
          exact hcount x
        · intro x
          dsimp only
          rw [hen, hag]
          exact h.le x
        · intro c hcc hm
          cases hcc
          exact h.more ⟨cb, b :: tl, more⟩ hcur hm
        · intro e he v hv
          rcases List.mem_append.mp he with he | he
          · exact h.neg e he v hv
          · rw [List.mem_singleton] at he
            rw [he] at hv
            cases hv
        · intro x hx
          refine quiet_append (h.quiet x hx) ?_
          rintro rfl
          have h1 := hcount cb
          have h2 : s.regs.count cb ≤ 1 := hx
          omega
      · cases hs
    | finish =>
      dsimp only at hs
      split at hs
      · rename_i cb more hcur
        have hdata : ∀ b, given b s.log ++ rest b none = received b s.rcvd := by
          intro b
          have := h.data b
          rw [hcur] at this
          rw [← this]
          simp [rest]
        have hmore : ∀ (c : Cur) {P : Prop}, (none : Option Cur) = some c → P := fun c P hh => by cases hh
        split at hs
        · rename_i hm
          cases hs
          have hag : ∀ b, again b s.cur = 0 := by intro b; rw [hcur]; simp [again, hm]
          refine ⟨h.flag, hdata, ?_, ?_, fun c hcc => hmore c hcc, h.neg, h.quiet⟩
          · intro _ b
            have h1 := hcount b
            rw [hag] at h1
            exact h1
          · intro b
            have h1 := h.le b
            rw [hag] at h1
            exact h1
        · rename_i hm
          have hag : ∀ b, again b s.cur = if cb = b then 1 else 0 := by
            intro b; rw [hcur]; simp [again, hm]
          split at hs
          · cases hs
            refine ⟨h.flag, hdata, fun hh => (by cases hh), ?_, fun c hcc => hmore c hcc, h.neg, h.quiet⟩
            intro b
            have h1 := h.le b
            dsimp only [again]
            omega
          · cases hs
            rw [inv_reg (s := { s with cur := none }) cb h.flag]
            refine ⟨h.flag, hdata, ?_, ?_, fun c hcc => hmore c hcc, h.neg, h.quiet⟩
            · intro _ b
              have h1 := hcount b
              rw [hag] at h1
              dsimp only [again]
              rw [List.count_append, count_one]
              omega
            · intro b
              have h1 := h.le b
              rw [hag] at h1
              dsimp only [again]
              rw [List.count_append, count_one]
              omega
      · cases hs
    | eof cb =>
      dsimp only at hs
      split at hs
      · rename_i hg
        simp only [Bool.and_eq_true, Option.isNone_iff_eq_none, List.contains_iff_mem] at hg
        cases hs
        exact inv_final h hc cb 0 hg.1 hg.2
      · cases hs
    | err cb errno =>
      dsimp only at hs
      split at hs
      · rename_i hg
        simp only [Bool.and_eq_true, Option.isNone_iff_eq_none, List.contains_iff_mem] at hg
        cases hs
        exact inv_final h hc cb errno hg.1.1 hg.1.2
      · cases hs

theorem inv_reachable {s : S} (h : Reachable init step s) : Inv s :=
  Reachable.invariant Inv (fun s hi => by rw [show s = S.new from hi]; exact inv_new)
    (fun _ _ _ hI hs => inv_step hI hs) h

end Verif.RecvHook
