import Verif.SockBase.Spec
/-!
# Properties of opening and closing sockets (C122)
-/
namespace Verif.SockBase
open Verif.Common

theorem owned_emit (l : List Sys) (e : Sys) : owned (l ++ [e]) = match e with
    | .socket _ n => owned l ++ [(n : Int)] | .close d => (owned l).erase d | .detach d => (owned l).erase d | _ => owned l := by
  cases e <;> simp [owned]

theorem up_emit (l : List Sys) (e : Sys) : up (l ++ [e]) = match e with
    | .socket _ _ => true | .shutdown _ | .close _ | .detach _ => false | _ => up l := by
  cases e <;> simp [up]

theorem lastUds_emit (l : List Sys) (e : Sys) : lastUds (l ++ [e]) = match e with | .socket u _ => u | _ => lastUds l := by
  cases e <;> simp [lastUds]

theorem CallsOwn.emit {l : List Sys} {e : Sys} (h : CallsOwn l) (he : ∀ d, e.on = some d → d ∈ owned l ∨ ∃ ok, e = .listen (-1) ok) :
    CallsOwn (l ++ [e]) := by
  intro a x b hab d hd
  rcases List.eq_nil_or_concat b with rfl | ⟨b', y, rfl⟩
  · have := List.append_inj' hab rfl
    obtain ⟨rfl, hx⟩ := this
    cases hx
    exact he d hd
  · have hab' : l ++ [e] = (a ++ x :: b') ++ [y] := by rw [hab]; simp
    have := List.append_inj' hab' rfl
    exact h a x b' this.1 d hd

/-- What holds after proper histories. -/
structure Inv (s : S) : Prop where
  own : (s.fd = -1 ∧ owned s.log = []) ∨ (s.fd ≥ 0 ∧ owned s.log = [handle s])
  calls : CallsOwn s.log
  upOk : up s.log = isOpen s
  uds : s.fd ≥ 0 → lastUds s.log = isUDS s
  flags : s.fd ≥ 0 → s.fd % 16 < 4

theorem Inv.closed {s : S} (I : Inv s) (h : ¬ s.fd ≥ 0) : s.fd = -1 ∧ owned s.log = [] := by
  rcases I.own with h' | h'
  · exact h'
  · exact absurd h'.1 h

theorem Inv.opened {s : S} (I : Inv s) (h : s.fd ≥ 0) : owned s.log = [handle s] := by
  rcases I.own with h' | h'
  · omega
  · exact h'.2

/-- A call that leaves the socket as it is. -/
theorem Inv.keep {s : S} (I : Inv s) (e : Sys) (ho : owned (s.log ++ [e]) = owned s.log) (hu : up (s.log ++ [e]) = up s.log)
    (hl : lastUds (s.log ++ [e]) = lastUds s.log) (he : ∀ d, e.on = some d → d ∈ owned s.log ∨ ∃ ok, e = .listen (-1) ok) :
    Inv (s.emit e) := by
  refine ⟨?_, I.calls.emit he, ?_, ?_, I.flags⟩
  · show _ ∨ _; rw [show (s.emit e).log = s.log ++ [e] from rfl, ho]; exact I.own
  · rw [show (s.emit e).log = s.log ++ [e] from rfl, hu]; exact I.upOk
  · rw [show (s.emit e).log = s.log ++ [e] from rfl, hl]; exact I.uds

theorem closed_flags {s : S} (h : s.fd = -1) : isShutdown s = true ∧ isUDS s = true ∧ handle s = -1 := by
  simp [isShutdown, isUDS, handle, h]

theorem Inv.close {s : S} (I : Inv s) : Inv (close s) ∧ (close s).fd = -1 := by
  unfold SockBase.close
  split
  · rename_i h
    have ho := I.opened h
    refine ⟨⟨.inl ⟨rfl, ?_⟩, I.calls.emit ?_, ?_, ?_, ?_⟩, rfl⟩
    · show owned (s.log ++ [.close (handle s)]) = []
      rw [owned_emit, ho]; simp
    · intro d hd; simp only [Sys.on, Option.some.injEq] at hd; subst hd; left; rw [ho]; simp
    · show up (s.log ++ [.close (handle s)]) = _
      rw [up_emit]; rfl
    · intro h; simp at h
    · intro h; simp at h
  · rename_i h
    exact ⟨I, (I.closed h).1⟩

theorem Inv.create {s : S} (I : Inv s) (h : s.fd = -1) (uds : Bool) (a : Option Nat) : Inv (create uds a s).2 ∧
    ((create uds a s).1 = none → (create uds a s).2.fd ≥ 0) ∧ ((create uds a s).1 ≠ none → (create uds a s).2.fd = -1) := by
  have ho : owned s.log = [] := (I.closed (by omega)).2
  cases a with
  | none =>
    refine ⟨I.keep _ (by rw [owned_emit]) (by rw [up_emit]) (by rw [lastUds_emit]) (by simp [Sys.on]), by simp [SockBase.create], fun _ => h⟩
  | some n =>
    simp only [SockBase.create]
    refine ⟨⟨.inr ⟨?_, ?_⟩, I.calls.emit (by simp [Sys.on]), ?_, ?_, ?_⟩, ?_, by simp⟩
    · simp only; split <;> omega
    · show owned (s.log ++ [.socket uds n]) = _
      rw [owned_emit, ho]
      simp only [handle]
      cases uds <;> simp <;> omega
    · show up (s.log ++ [.socket uds n]) = _
      rw [up_emit]
      simp only [isOpen, isShutdown]
      cases uds <;> simp <;> omega
    · intro _
      show lastUds (s.log ++ [.socket uds n]) = _
      rw [lastUds_emit]
      simp only [isUDS]
      cases uds <;> simp <;> omega
    · intro _; simp only; cases uds <;> simp <;> omega
    · intro _; split <;> omega

theorem Inv.bind {s : S} (I : Inv s) (a : Option Nat) (ok : Bool) : Inv (bind a ok s).2 ∧
    ((bind a ok s).1 = none → (bind a ok s).2.fd ≥ 0) ∧ ((bind a ok s).1 ≠ none → (bind a ok s).2.fd = -1) := by
  unfold SockBase.bind
  have key : Inv (if s.fd = -1 then SockBase.create false a s else (none, s)).2 ∧
      ((if s.fd = -1 then SockBase.create false a s else (none, s)).1 = none → (if s.fd = -1 then SockBase.create false a s else (none, s)).2.fd ≥ 0) ∧
      ((if s.fd = -1 then SockBase.create false a s else (none, s)).1 ≠ none → (if s.fd = -1 then SockBase.create false a s else (none, s)).2.fd = -1) := by
    split
    · rename_i h; exact I.create h false a
    · rename_i h
      refine ⟨I, fun _ => ?_, by simp⟩
      rcases I.own with h' | h'
      · exact absurd h'.1 h
      · exact h'.1
  generalize (if s.fd = -1 then SockBase.create false a s else (none, s)) = r at key
  obtain ⟨k1, k2, k3⟩ := key
  obtain ⟨re, s1⟩ := r
  cases re with
  | some e => exact ⟨k1, by simp, fun _ => k3 (by simp)⟩
  | none =>
    have hfd := k2 rfl
    simp only at k1 hfd
    have I2 : Inv (s1.emit (.bind (handle s1) ok)) :=
      k1.keep _ (by rw [owned_emit]) (by rw [up_emit]) (by rw [lastUds_emit]) (by
        intro d hd; simp only [Sys.on, Option.some.injEq] at hd; subst hd; left; rw [k1.opened hfd]; simp)
    simp only
    split
    · exact ⟨I2, fun _ => hfd, by simp⟩
    · exact ⟨I2.close.1, by simp, fun _ => I2.close.2⟩

theorem Inv.onSet {s s' : S} (I : Inv s) (h : onSet s = some s') : Inv s' := by
  unfold SockBase.onSet at h
  split at h
  · split at h
    · simp at h
    · cases h; exact ⟨I.own, I.calls, I.upOk, I.uds, I.flags⟩
  · cases h; exact I

theorem Inv.listen {s s' : S} {e : Option Err} (I : Inv s) (ok : Bool) (h : listen ok s = some (e, s')) :
    Inv s' ∧ (e ≠ none → s'.fd = -1) := by
  have I2 : Inv (s.emit (.listen (handle s) ok)) :=
    I.keep _ (by rw [owned_emit]) (by rw [up_emit]) (by rw [lastUds_emit]) (by
      intro d hd
      simp only [Sys.on, Option.some.injEq] at hd
      subst hd
      by_cases hf : s.fd ≥ 0
      · left; rw [I.opened hf]; simp
      · right; exact ⟨ok, by rw [(closed_flags (I.closed hf).1).2.2]⟩)
  unfold SockBase.listen at h
  simp only at h
  split at h
  · simp only [Option.map_eq_some_iff, Prod.mk.injEq] at h
    obtain ⟨x, hx, rfl, rfl⟩ := h
    exact ⟨I2.onSet hx, by simp⟩
  · cases h; exact ⟨I2.close.1, fun _ => I2.close.2⟩

theorem inv_run {s s' : S} {o : Op} {e : Option Err} (I : Inv s) (hp : Proper s o) (h : run s o = some (e, s')) :
    Inv s' ∧ (o.opens = true → e ≠ none → e ≠ some .nameTooLong → s'.fd = -1) := by
  cases o with
  | create uds a =>
    simp only [run, Option.some.injEq] at h
    have := (I.create hp uds a).1
    rw [h] at this
    exact ⟨this, by simp [Op.opens]⟩
  | bind a ok => 
    simp only [run, Option.some.injEq] at h
    have := I.bind a ok
    rw [h] at this
    exact ⟨this.1, fun _ he _ => this.2.2 he⟩
  | listen ok => have := I.listen ok h; exact ⟨this.1, fun _ he _ => this.2 he⟩
  | listenPort a b l =>
    have hb := I.bind a b
    simp only [run, listenPort] at h
    split at h
    · rename_i e' s1 hs
      rw [hs] at hb
      cases h
      exact ⟨hb.1, fun _ _ _ => hb.2.2 (by simp)⟩
    · rename_i s1 hs
      rw [hs] at hb
      have := hb.1.listen l h
      exact ⟨this.1, fun _ he _ => this.2 he⟩
  | listenUDS n a b c l =>
    simp only [run, listenUDS] at h
    split at h
    · cases h; exact ⟨I, fun _ _ he => absurd rfl he⟩
    · have hb := I.bind a b
      split at h
      · rename_i e' s1 hs
        rw [hs] at hb
        cases h
        exact ⟨hb.1, fun _ _ _ => hb.2.2 (by simp)⟩
      · rename_i s1 hs
        rw [hs] at hb
        have I2 : Inv (s1.emit (.chmod c)) := hb.1.keep _ (by rw [owned_emit]) (by rw [up_emit]) (by rw [lastUds_emit]) (by simp [Sys.on])
        split at h
        · have := I2.listen l h
          exact ⟨this.1, fun _ he _ => this.2 he⟩
        · cases h; exact ⟨I2.close.1, fun _ _ _ => I2.close.2⟩
  | shutdown ok =>
    refine ⟨?_, by simp [Op.opens]⟩
    simp only [run, shutdown] at h
    split at h
    · cases h; exact I
    · rename_i hfd
      split at h
      · cases h; exact I
      · rename_i hsd
        cases h
        have hfd' : s.fd ≥ 0 := by omega
        have hfl := I.flags hfd'
        have he : s.fd % 2 = 0 := by simp only [isShutdown, decide_eq_true_eq] at hsd; omega
        have ho := I.opened hfd'
        refine ⟨.inr ⟨by simp only; omega, ?_⟩, I.calls.emit ?_, ?_, ?_, ?_⟩
        · show owned (s.log ++ [.shutdown (handle s)]) = _
          rw [owned_emit, ho]; simp only [handle]; congr 1; omega
        · intro d hd; simp only [Sys.on, Option.some.injEq] at hd; subst hd; left; rw [ho]; simp
        · show up (s.log ++ [.shutdown (handle s)]) = _
          rw [up_emit]
          have : (s.fd + 1) % 2 = 1 := by omega
          simp [isOpen, isShutdown, this]
        · intro _
          show lastUds (s.log ++ [.shutdown (handle s)]) = _
          rw [lastUds_emit]
          simp only
          rw [I.uds hfd']
          have : (s.fd + 1) / 2 = s.fd / 2 := by omega
          simp [isUDS, this]
        · intro _; simp only; omega
  | trySend ok =>
    refine ⟨?_, by simp [Op.opens]⟩
    simp only [run, trySend] at h
    split at h
    · cases h; exact I
    · rename_i hsd
      cases h
      refine I.keep _ (by rw [owned_emit]) (by rw [up_emit]) (by rw [lastUds_emit]) ?_
      intro d hd
      simp only [Sys.on, Option.some.injEq] at hd
      subst hd
      left
      rcases I.own with h' | h'
      · exact absurd (closed_flags h'.1).1 hsd
      · rw [h'.2]; simp
  | tryRecv ok =>
    refine ⟨?_, by simp [Op.opens]⟩
    simp only [run, tryRecv] at h
    split at h
    · cases h; exact I
    · rename_i hsd
      cases h
      refine I.keep _ (by rw [owned_emit]) (by rw [up_emit]) (by rw [lastUds_emit]) ?_
      intro d hd
      simp only [Sys.on, Option.some.injEq] at hd
      subst hd
      left
      rcases I.own with h' | h'
      · exact absurd (closed_flags h'.1).1 hsd
      · rw [h'.2]; simp
  | close => cases h; exact ⟨I.close.1, by simp [Op.opens]⟩
  | setProactor p =>
    refine ⟨?_, by simp [Op.opens]⟩
    simp only [run, setProactor, Option.map_eq_some_iff, Prod.mk.injEq] at h
    obtain ⟨x, hx, rfl, rfl⟩ := h
    have I1 : Inv (if s.pro then { s with armed := false } else s) := by
      split
      · exact ⟨I.own, I.calls, I.upOk, I.uds, I.flags⟩
      · exact I
    generalize (if s.pro then { s with armed := false } else s) = s1 at hx I1
    split at hx
    · refine Inv.onSet (s := { s1 with pro := true }) ?_ hx
      exact ⟨I1.own, I1.calls, I1.upOk, I1.uds, I1.flags⟩
    · cases hx; exact ⟨I1.own, I1.calls, I1.upOk, I1.uds, I1.flags⟩
  | detach =>
    cases h
    refine ⟨⟨.inl ⟨rfl, ?_⟩, I.calls.emit (by simp [Sys.on]), ?_, by simp, by simp⟩, by simp [Op.opens]⟩
    · show owned (s.log ++ [.detach (handle s)]) = []
      rw [owned_emit, I.opened hp]; simp
    · show up (s.log ++ [.detach (handle s)]) = _
      rw [up_emit]; rfl
  | destroy =>
    refine ⟨?_, by simp [Op.opens]⟩
    simp only [run, Option.some.injEq, Prod.mk.injEq] at h
    obtain ⟨-, h⟩ := h
    split at h
    · rename_i hh
      subst h
      have hfd : s.fd ≥ 0 := by simp only [handle] at hh; omega
      have ho := I.opened hfd
      refine ⟨.inl ⟨rfl, ?_⟩, I.calls.emit ?_, ?_, by simp, by simp⟩
      · show owned (s.log ++ [.close (handle s)]) = []
        rw [owned_emit, ho]; simp
      · intro d hd; simp only [Sys.on, Option.some.injEq] at hd; subst hd; left; rw [ho]; simp
      · show up (s.log ++ [.close (handle s)]) = _
        rw [up_emit]; rfl
    · subst h; exact I

theorem inv_hist {s : S} (h : Hist s) : Inv s := by
  induction h with
  | new p => exact ⟨.inl ⟨rfl, rfl⟩, by intro a e b hab; simp at hab, rfl, by simp, by simp⟩
  | op _ hp hr ih => exact (inv_run ih hp hr).1

/-- After any proper history, whatever fails: an open socket owns exactly one descriptor, its handle, and a closed one none: none leaks and none is
closed twice. -/
theorem C122_owns {s : S} (h : Hist s) :
    (s.fd = -1 ∧ handle s = -1 ∧ owned s.log = []) ∨ (s.fd ≥ 0 ∧ handle s ≥ 0 ∧ owned s.log = [handle s]) := by
  rcases (inv_hist h).own with h' | h'
  · exact .inl ⟨h'.1, (closed_flags h'.1).2.2, h'.2⟩
  · exact .inr ⟨h'.1, by simp only [handle]; omega, h'.2⟩

/-- Every system call is about the descriptor that the socket owns then (`listen` on a closed socket is about -1). -/
theorem C122_calls_own {s : S} (h : Hist s) : CallsOwn s.log := (inv_hist h).calls

/-- When binding or listening fails because of the system, the socket is closed. -/
theorem C122_failure_closes {s s' : S} {o : Op} {e : Err} (h : Hist s) (hp : Proper s o) (ho : o.opens = true) (hr : run s o = some (some e, s'))
    (he : e ≠ .nameTooLong) : s'.fd = -1 ∧ owned s'.log = [] := by
  have := inv_run (inv_hist h) hp hr
  have hfd := this.2 ho (by simp) (by simpa using he)
  exact ⟨hfd, (this.1.closed (by omega)).2⟩

/-- `IsOpen` says whether the socket was opened and not shut down, closed or given away since; if it says no, sending and receiving fail without a
system call. -/
theorem C122_open {s : S} (h : Hist s) (ok : Bool) : isOpen s = up s.log ∧
    (isOpen s = false → trySend ok s = (some .pipe, s) ∧ tryRecv ok s = (some .aborted, s)) := by
  refine ⟨(inv_hist h).upOk.symm, fun ho => ?_⟩
  have : isShutdown s = true := by simpa [isOpen] using ho
  simp [trySend, tryRecv, this]

/-- An open socket knows whether it is a unix socket. -/
theorem C122_uds_partial {s : S} (h : Hist s) (ho : s.fd ≥ 0) : isUDS s = lastUds s.log := ((inv_hist h).uds ho).symm

/-- A closed socket says that it is a unix socket, so the debug check of `ListenUDS` that it was created as one passes on a socket that was not created;
an internet socket is then bound to the path. -/
theorem C122_closed_is_uds : isUDS {} = true ∧ udsCheck {} = true ∧
    (∃ s, run {} (.listenUDS 10 (some 7) false true true) = some (some .sys, s) ∧ s.log = [.socket false 7, .bind 7 false, .close 7]) :=
  ⟨rfl, rfl, _, rfl, rfl⟩

/-- A path is refused exactly from 107 characters on, though 107 fit with their end mark. -/
theorem C122_path_length (n : Nat) (a : Option Nat) (b c l : Bool) (s : S) :
    (107 ≤ n → listenUDS n a b c l s = some (some .nameTooLong, s)) ∧
    (n < 107 → listenUDS n a b c l s ≠ some (some .nameTooLong, s)) := by
  constructor
  · intro h; unfold listenUDS; rw [if_pos (by omega)]
  · intro h
    unfold listenUDS
    rw [if_neg (by omega)]
    have hb : ∀ e s1, bind a b s = (some e, s1) → e = .sys := by
      intro e s1 h
      unfold bind at h
      split at h
      · rename_i e' s2 hs
        cases h
        split at hs
        · unfold create at hs; split at hs
          · cases hs; rfl
          · cases hs
        · cases hs
      · simp only at h; split at h <;> cases h; rfl
    split
    · rename_i e s1 hs
      rw [hb e s1 hs]
      simp
    · simp only
      split
      · unfold listen
        simp only
        split
        · intro hc
          simp only [Option.map_eq_some_iff, Prod.mk.injEq] at hc
          obtain ⟨x, hx, hy, _⟩ := hc
          cases hy
        · simp
      · simp

theorem onSet_armed {s : S} (h : onSet s = none) : s.armed = true := by
  unfold onSet at h
  split at h
  · split at h
    · assumption
    · cases h
  · cases h

theorem listen_armed {s : S} {ok : Bool} (h : listen ok s = none) : s.armed = true := by
  unfold listen at h
  simp only at h
  split at h
  · rw [Option.map_eq_none_iff] at h
    exact onSet_armed (s := s.emit (.listen (handle s) ok)) h
  · cases h

theorem bind_armed (a : Option Nat) (ok : Bool) (s : S) : (bind a ok s).2.armed = true → s.armed = true := by
  unfold bind
  have key : (if s.fd = -1 then create false a s else (none, s)).2.armed = s.armed := by
    split
    · cases a <;> rfl
    · rfl
  generalize (if s.fd = -1 then create false a s else (none, s)) = r at key
  obtain ⟨re, s1⟩ := r
  cases re with
  | some e => intro h; rw [← key]; exact h
  | none =>
    simp only at key ⊢
    split
    · intro h; rw [← key]; exact h
    · unfold close
      split
      · intro h; simp at h
      · intro h; rw [← key]; exact h

/-- The only crash is that of arming an open socket that is armed already. -/
theorem C122_crash {s : S} {o : Op} (h : run s o = none) : s.armed = true := by
  cases o with
  | listen ok => exact listen_armed h
  | setProactor p =>
    simp only [run, setProactor, Option.map_eq_none_iff] at h
    split at h
    · have ha := onSet_armed h
      cases hp : s.pro
      · simp [hp] at ha; exact ha
      · simp [hp] at ha
    · cases h
  | listenPort a b l =>
    simp only [run, listenPort] at h
    split at h
    · cases h
    · rename_i s1 hs
      have hb := bind_armed a b s
      rw [hs] at hb
      exact hb (listen_armed h)
  | listenUDS n a b c l =>
    simp only [run, listenUDS] at h
    split at h
    · cases h
    · split at h
      · cases h
      · rename_i s1 hs
        have hb := bind_armed a b s
        rw [hs] at hb
        split at h
        · exact hb (listen_armed (s := s1.emit (.chmod c)) h)
        · cases h
  | _ => simp [run] at h

/-- It happens: a socket that is given a proactor between `Create` and `Listen`. -/
theorem C122_crash_case : ∃ s1 s2, run { pro := false } (.create false (some 5)) = some (none, s1) ∧ run s1 (.setProactor true) = some (none, s2) ∧
    run s2 (.listen true) = none := ⟨_, _, rfl, rfl, rfl⟩

/-- Closing or destroying the socket closes what it owns. -/
theorem C122_released {s s' : S} {o : Op} {e : Option Err} (h : Hist s) (ho : o = .close ∨ o = .destroy) (hr : run s o = some (e, s')) :
    owned s'.log = [] := by
  have hp : Proper s o := by rcases ho with rfl | rfl <;> trivial
  rcases C122_owns (.op h hp hr) with h' | h'
  · exact h'.2.2
  · exfalso
    rcases ho with rfl | rfl
    · simp only [run, SockBase.close, Option.some.injEq, Prod.mk.injEq] at hr
      obtain ⟨-, rfl⟩ := hr
      revert h'
      split
      · simp
      · intro h'; rename_i h1; exact absurd h'.1 h1
    · simp only [run, Option.some.injEq, Prod.mk.injEq] at hr
      obtain ⟨-, rfl⟩ := hr
      revert h'
      split
      · simp
      · intro h'; rename_i h1; exact absurd h'.2.1 (by omega)

/-- In a release build a second `Create` leaks the first descriptor. -/
theorem C122_create_twice : ∃ s, (run {} (.create false (some 5))).bind (fun r => run r.2 (.create false (some 6))) = some (none, s) ∧
    owned s.log = [5, 6] ∧ handle s = 6 := ⟨_, rfl, rfl, rfl⟩

/-- A history: listen on a port, the `listen` call fails, listen again on a unix socket, shut down, send, destroy. -/
theorem C122_case : ∃ s, Hist s ∧ s.log = [.socket false 5, .bind 5 true, .listen 5 false, .close 5, .socket true 6, .bind 6 true, .chmod true,
    .listen 6 true, .shutdown 6, .close 6] := by
  refine ⟨_, .op (.op (.op (.op (.op (.op (.new true) (o := .listenPort (some 5) true false) trivial rfl) (o := .create true (some 6)) rfl rfl)
    (o := .listenUDS 20 none true true true) trivial rfl) (o := .shutdown true) trivial rfl) (o := .trySend true) trivial rfl) (o := .destroy) trivial rfl, rfl⟩

end Verif.SockBase
