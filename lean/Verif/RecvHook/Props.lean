import Verif.RecvHook.Lemmas
/-!
# C134: the multishot receive hook of the uring socket
-/
namespace Verif.RecvHook
open Verif.Common

/-- C134, what holds (the refutations below say what is missing). In every history, whatever the kernel
does and whatever the user calls, also from inside the callback: each callback is given exactly the data
the kernel received for it, in order, except for the segments of the completion that is being
processed. -/
theorem C134_data_partial {s : S} (h : Reachable init step s) (cb : Nat) :
    given cb s.log ++ rest cb s.cur = received cb s.rcvd := (inv_reachable h).data cb

/-- C134, a hook is not lost: a callback that was registered and was not told the end has a request in
the kernel, or a completion whose processing will make it again; unless the program died. -/
theorem C134_not_lost {s : S} (h : Reachable init step s) (hc : s.crash = none) (cb : Nat) (hr : cb ∈ s.regs)
    (he : ∀ e ∈ s.log, e.1 = cb → isEnd e.2 = false) :
    cb ∈ s.armed ∨ ∃ c, s.cur = some c ∧ c.cb = cb ∧ c.more = false := by
  have h1 := (inv_reachable h).count hc cb
  have h2 := List.count_pos_iff.mpr hr
  have h3 : ends cb s.log = 0 := by
    unfold ends
    rw [List.countP_eq_zero]
    intro e hm hh
    simp only [Bool.and_eq_true, beq_iff_eq] at hh
    rw [he e hm hh.1] at hh
    cases hh.2
  by_cases ha : cb ∈ s.armed
  · exact .inl ha
  · right
    have h4 := List.count_eq_zero.mpr ha
    cases hcur : s.cur with
    | none => rw [hcur] at h1; simp only [again] at h1; omega
    | some c =>
      rw [hcur] at h1
      simp only [again] at h1
      split at h1
      · rename_i hx; exact ⟨c, rfl, hx.1, hx.2⟩
      · omega

/-- C134, the end is told once and last: a callback that was registered once is called no more after it
was told that the stream is closed or failed. -/
theorem C134_end_last {s : S} (h : Reachable init step s) (cb : Nat) (hr : s.regs.count cb ≤ 1)
    (a : List (Nat × Note)) (n : Note) (b : List (Nat × Note)) (hl : s.log = a ++ (cb, n) :: b)
    (hn : isEnd n = true) : ∀ x ∈ b, x.1 ≠ cb :=
  (inv_reachable h).quiet cb hr a (cb, n) b hl rfl hn

/-- C134, the processing of a completion comes to its end: while the callback makes no calls, all its
segments are passed on. -/
theorem C134_drains (segs : List (List Nat)) : ∀ (s : S) (cb : Nat) (more : Bool), s.crash = none →
    s.cur = some ⟨cb, segs, more⟩ →
    exec step s (List.replicate segs.length Act.seg) =
      some { s with cur := some ⟨cb, [], more⟩, log := s.log ++ segs.map (fun b => (cb, Note.data b)) } := by
  induction segs with
  | nil =>
    intro s cb more hc hcur
    cases s
    simp only at hcur
    subst hcur
    simp [exec]
  | cons b tl ih =>
    intro s cb more hc hcur
    have hst : step s .seg = some { s with cur := some ⟨cb, tl, more⟩, log := s.log ++ [(cb, .data b)] } := by
      unfold step
      simp only [hc, Option.isSome_none, Bool.false_eq_true, if_false, hcur]
    rw [List.length_cons, List.replicate_succ]
    unfold exec
    rw [hst]
    dsimp only
    have := ih { s with cur := some ⟨cb, tl, more⟩, log := s.log ++ [(cb, .data b)] } cb more hc rfl
    rw [this]
    simp

/-- The full property is false of the code: `ResetOnRecvHook` does nothing at all in this mode, in every
state, because nothing ever sets the flag it looks at. -/
theorem C134_reset_refuted {s s' : S} (h : Reachable init step s) (hs : step s .reset = some s') : s' = s := by
  unfold step at hs
  split at hs
  · cases hs
  · dsimp only at hs
    split at hs
    · cases hs; exact inv_unhook (inv_reachable h).flag
    · cases hs

/-- So after the hook was reset, and even after the socket was closed and destroyed, the callback is
still called for data that arrives: in every reachable state with a hook. -/
theorem C134_called_after_reset_refuted {s : S} (h : Reachable init step s) (hc : s.crash = none)
    (hcur : s.cur = none) (cb : Nat) (hm : cb ∈ s.armed) (b : List Nat) :
    (s.alive = true → ∃ s', exec step s [.reset, .data cb [b] true, .seg, .finish] = some s' ∧
      s'.log = s.log ++ [(cb, .data b)]) ∧
    (s.alive = true → ∃ s', exec step s [.close, .destroy, .data cb [b] true, .seg, .finish] = some s' ∧
      s'.alive = false ∧ s'.log = s.log ++ [(cb, .data b)]) := by
  have hf := (inv_reachable h).flag
  obtain ⟨alive, opened, multishot, armed, cur, crash, log, regs, rcvd⟩ := s
  simp only at hc hcur hf hm
  subst hc hcur hf
  constructor
  · rintro ⟨⟩
    simp [exec, step, S.unhook, hm]
  · rintro ⟨⟩
    simp [exec, step, S.unhook, hm]

/-- The full property is false of the code: a socket that was closed and destroyed is used when the kernel
ends the request, in every reachable state with a hook. -/
theorem C134_freed_refuted {s : S} (h : Reachable init step s) (hc : s.crash = none)
    (hcur : s.cur = none) (ha : s.alive = true) (cb : Nat) (hm : cb ∈ s.armed) :
    ∃ s', exec step s [.reset, .close, .destroy, .eof cb] = some s' ∧ s'.crash = some .freed := by
  have hf := (inv_reachable h).flag
  obtain ⟨alive, opened, multishot, armed, cur, crash, log, regs, rcvd⟩ := s
  simp only at hc hcur hf hm ha
  subst hc hcur hf ha
  simp [exec, step, S.unhook, hm, S.final, enobufs]

/-- The full property is false of the code: a second registration is not stopped by the check that is
there for it, and data that arrives goes to one callback or the other. -/
theorem C134_twice_refuted : ∃ s, exec step S.new [.register 1, .register 2, .data 2 [[7]] true, .seg, .finish,
    .data 1 [[8]] true, .seg, .finish] = some s ∧ s.crash = none ∧
    s.log = [(2, .data [7]), (1, .data [8])] := by
  refine ⟨_, rfl, ?_, ?_⟩ <;> decide

/-- The full property is false of the code: every error code that a callback is given is negative, while
the interface promises a positive one. -/
theorem C134_sign_refuted {s : S} (h : Reachable init step s) (cb : Nat) (v : Int)
    (he : (cb, Note.error v) ∈ s.log) : v < 0 := (inv_reachable h).neg _ he v rfl

/-- The full property is false of the code: when the kernel finds no free buffer in the ring, the program
is stopped, in every reachable state with a hook. -/
theorem C134_nobufs_refuted {s : S} (h : Reachable init step s) (hc : s.crash = none) (hcur : s.cur = none)
    (cb : Nat) (hm : cb ∈ s.armed) :
    ∃ s', step s (.err cb 105) = some s' ∧ s'.crash = some .noBufs := by
  have hf := (inv_reachable h).flag
  obtain ⟨alive, opened, multishot, armed, cur, crash, log, regs, rcvd⟩ := s
  simp only at hc hcur hf hm
  subst hc hcur hf
  simp [step, hm, S.final, enobufs]

/-- These are the only ways in which the program dies: in every reachable state that died, the kernel
reported ENOBUFS or the socket had been destroyed; the checks never fail. -/
theorem C134_crashes {s : S} (h : Reachable init step s) :
    s.crash ≠ some .check ∧ (s.crash = some .freed → s.alive = false) := by
  have : Inv s ∧ s.crash ≠ some .check ∧ (s.crash = some .freed → s.alive = false) := by
    refine Reachable.invariant (fun s => Inv s ∧ s.crash ≠ some .check ∧
      (s.crash = some .freed → s.alive = false)) ?_ ?_ h
    · intro s hi
      rw [show s = S.new from hi]
      exact ⟨inv_new, by decide, by decide⟩
    · intro s a s' ⟨hI, h1, h2⟩ hs
      refine ⟨inv_step hI hs, ?_⟩
      have hfin : ∀ cb errno, s.crash = none → (s.final cb errno).crash ≠ some .check ∧
          ((s.final cb errno).crash = some .freed → (s.final cb errno).alive = false) := by
        intro cb errno hc
        unfold S.final
        dsimp only
        split
        · exact ⟨by simp, by simp⟩
        · split
          · rename_i hal; exact ⟨by simp, fun _ => hal⟩
          · split <;> simp [hc]
      unfold step at hs
      split at hs
      · cases hs
      · rename_i hcr
        have hc : s.crash = none := by
          cases hx : s.crash with
          | none => rfl
          | some x => rw [hx] at hcr; exact absurd rfl hcr
        cases a with
        | register cb =>
          dsimp only at hs
          split at hs
          · cases hs
            rw [inv_reg (s := { s with regs := s.regs ++ [cb] }) cb hI.flag]
            exact ⟨h1, h2⟩
          · cases hs
        | reset =>
          dsimp only at hs
          split at hs
          · cases hs; rw [inv_unhook hI.flag]; exact ⟨h1, h2⟩
          · cases hs
        | close =>
          dsimp only at hs
          split at hs
          · cases hs; rw [inv_unhook hI.flag]; exact ⟨h1, h2⟩
          · cases hs
        | destroy =>
          dsimp only at hs
          split at hs
          · cases hs; exact ⟨h1, fun _ => rfl⟩
          · cases hs
        | data cb segs more =>
          dsimp only at hs
          split at hs
          · cases hs; exact ⟨h1, h2⟩
          · cases hs
        | seg =>
          dsimp only at hs
          split at hs
          · cases hs; exact ⟨h1, h2⟩
          · cases hs
        | finish =>
          dsimp only at hs
          split at hs
          · split at hs
            · cases hs; exact ⟨h1, h2⟩
            · split at hs
              · rename_i hal; cases hs; exact ⟨by simp, fun _ => hal⟩
              · rename_i cb _ _ _ _
                cases hs
                rw [inv_reg (s := { s with cur := none }) _ hI.flag]
                exact ⟨h1, h2⟩
          · cases hs
        | eof cb =>
          dsimp only at hs
          split at hs
          · cases hs; exact hfin cb 0 hc
          · cases hs
        | err cb errno =>
          dsimp only at hs
          split at hs
          · cases hs; exact hfin cb errno hc
          · cases hs
  exact this.2

/-- The moves of `C134_case`. -/
def caseActs : List Act :=
  [.register 5, .data 5 [[1, 2], [3]] false, .seg, .seg, .finish, .data 5 [[4]] true, .seg, .finish, .eof 5]

/-- A concrete history: two segments, the kernel stops the request, the hook is made again, more data,
then the end. -/
theorem C134_case : ∃ s, exec step S.new caseActs = some s ∧ Reachable init step s ∧
    s.log = [(5, .data [1, 2]), (5, .data [3]), (5, .data [4]), (5, .closed)] ∧
    received 5 s.rcvd = [1, 2, 3, 4] ∧ s.armed = [] ∧ s.regs.count 5 ≤ 1 := by
  refine ⟨_, rfl, Reachable.exec (.init rfl trivial) caseActs rfl, ?_, ?_, ?_, ?_⟩ <;> decide

/-- A state with a hook and a connection that is reset: the callback is given -104 for ECONNRESET. -/
theorem C134_case_error : ∃ s s', exec step S.new [.register 5] = some s ∧ Reachable init step s ∧ 5 ∈ s.armed ∧
    s.cur = none ∧ s.crash = none ∧ s.alive = true ∧ step s (.err 5 104) = some s' ∧ s'.log = [(5, .error (-104))] := by
  refine ⟨_, _, rfl, Reachable.exec (.init rfl trivial) [.register 5] rfl, ?_, ?_, ?_, ?_, rfl, ?_⟩ <;> decide

end Verif.RecvHook
