import Verif.USock.Lemmas
/-!
C79: an io_uring socket owns one descriptor. C80: its calls move the bytes they say, on the connection they were made on.
-/
namespace Verif.USock
open Verif.Common

/-! ### C79 -/

/-- C79, an open socket's handle is the descriptor of the file it was opened with. -/
theorem C79_handle {s : S} (h : Reached s) (o : Nat) (ho : 0 ≤ s.word o) :
    ∃ fd f : Nat, shifted (s.word o) = fd ∧ s.tab fd = some f ∧ s.mine o = some f := by
  rcases (own h).each o with h' | ⟨fd, f, h'⟩
  · omega
  · exact ⟨fd, f, h'.2.1, h'.2.2.1, h'.2.2.2.1⟩

/-- C79, a socket that is not open has no file, and says that it is not open. -/
theorem C79_closed {s : S} (h : Reached s) (o : Nat) (ho : s.word o < 0) : s.mine o = none ∧ isShut (s.word o) = true := by
  rcases (own h).each o with h' | ⟨fd, f, h'⟩
  · exact ⟨h'.2, by rw [h'.1]; rfl⟩
  · have := h'.1
    omega

/-- C79, two open sockets never have the same descriptor. -/
theorem C79_distinct {s : S} (h : Reached s) (o o' : Nat) (ho : 0 ≤ s.word o) (ho' : 0 ≤ s.word o')
    (he : shifted (s.word o) = shifted (s.word o')) : o = o' := by
  obtain ⟨fd, f, a, b, c⟩ := C79_handle h o ho
  obtain ⟨fd', f', a', b', c'⟩ := C79_handle h o' ho'
  have e : fd = fd' := by omega
  subst e
  rw [b] at b'; cases b'
  exact (own h).one o o' f c c'

/-- C79, no descriptor is left behind: each one in the table is held by an open socket. -/
theorem C79_no_leak {s : S} (h : Reached s) (fd f : Nat) (ht : s.tab fd = some f) :
    ∃ o, 0 ≤ s.word o ∧ shifted (s.word o) = fd ∧ s.mine o = some f := by
  obtain ⟨_, o, h'⟩ := (own h).all fd f ht
  exact ⟨o, h'.1, h'.2.1, h'.2.2.2.1⟩

/-- C79, `Close` closes the file of the socket and no other. -/
theorem C79_close {s s' : S} (h : Reached s) (o : Nat) (hs : step s (.close o) = some s') :
    s'.mine o = none ∧ (∀ o', o' ≠ o → s'.mine o' = s.mine o') ∧
    ∀ fd f, s'.tab fd = some f ↔ s.tab fd = some f ∧ s.mine o ≠ some f := by
  simp only [step, Option.some.injEq] at hs
  subst hs
  have hown := own h
  unfold S.close
  split
  · rename_i hw
    have := (C79_closed h o hw).1
    exact ⟨this, fun _ _ => rfl, fun fd f => by rw [this]; simp⟩
  · rename_i hw
    obtain ⟨fd, f, a, b, c⟩ := C79_handle h o (by omega)
    have e : (shifted (s.word o)).toNat = fd := by omega
    rw [e]
    refine ⟨upd_self .., fun o' he => upd_ne _ _ he, fun fd' f' => ?_⟩
    show upd s.tab fd none fd' = some f' ↔ _
    by_cases e' : fd' = fd
    · subst e'
      rw [upd_self, b, c]
      simp
    · rw [upd_ne _ _ e', c]
      refine ⟨fun ht => ⟨ht, fun e2 => ?_⟩, fun ht => ht.1⟩
      cases e2
      exact e' (hown.inj fd' fd f ht b)

/-- C79, shutting down marks the socket and changes nothing else about it: handle and kind stay. -/
theorem C79_shutdown {s s' : S} (o : Nat) (ho : 0 ≤ s.word o) (hs : step s (.shutdown o) = some s') :
    isShut (s'.word o) = true ∧ 0 ≤ s'.word o ∧ shifted (s'.word o) = shifted (s.word o) ∧ isUds (s'.word o) = isUds (s.word o) ∧
    (∀ o', o' ≠ o → s'.word o' = s.word o') ∧ s'.tab = s.tab := by
  simp only [step, Option.some.injEq] at hs
  subst hs
  unfold S.shutdown
  rw [if_neg (by omega)]
  refine ⟨?_, ?_, ?_, ?_, fun o' he => upd_ne _ _ he, rfl⟩
  · show isShut (upd s.word o _ o) = true
    rw [upd_self]; exact shut_set _
  · show 0 ≤ upd s.word o _ o
    rw [upd_self]; exact set_nonneg ho
  · show shifted (upd s.word o _ o) = _
    rw [upd_self]; exact shifted_set _
  · show isUds (upd s.word o _ o) = _
    rw [upd_self]; exact uds_set _

/-- C79, a new socket is open, has the descriptor that the kernel gave, and is a unix socket if that was asked for. -/
theorem C79_create {s s' : S} (o fd : Nat) (u : Bool) (hw : s.word o = -1) (hs : step s (.create o fd u) = some s') :
    isShut (s'.word o) = false ∧ shifted (s'.word o) = fd ∧ isUds (s'.word o) = u := by
  simp only [step, hw, if_true] at hs
  split at hs
  · cases hs
    show isShut (upd s.word o _ o) = false ∧ shifted (upd s.word o _ o) = fd ∧ isUds (upd s.word o _ o) = u
    rw [upd_self]
    exact ⟨shut_mk fd u, shifted_mk fd u, uds_mk fd u⟩
  · cases hs

/-- C79, an accepted socket is open, has the descriptor that the kernel gave, and is a unix socket exactly if the listener is one. -/
theorem C79_accept {s s' : S} (l o fd : Nat) (hs : step s (.accept l o fd) = some s') :
    isShut (s'.word o) = false ∧ shifted (s'.word o) = fd ∧ isUds (s'.word o) = isUds (s.word l) := by
  simp only [step] at hs
  split at hs
  · cases hs
    show isShut (upd s.word o _ o) = false ∧ shifted (upd s.word o _ o) = fd ∧ isUds (upd s.word o _ o) = _
    rw [upd_self]
    exact ⟨shut_mk fd _, shifted_mk fd _, uds_mk fd _⟩
  · cases hs

example : ∃ s, Reached s ∧ shifted (s.word 1) = 8 ∧ isUds (s.word 1) = true ∧ isShut (s.word 1) = true ∧ s.word 0 = -1 :=
  ⟨_, Reachable.exec (.init rfl trivial) [.create 0 7 true, .accept 0 1 8, .shutdown 1, .close 0] rfl, by decide, by decide, by decide, rfl⟩

/-- C79, a socket whose `Connect` failed still has its descriptor, and trying again fails a `CHECK`. (After a failure the epoll socket
is closed: C55_failed_closed.) -/
theorem C79_connect_again : ∃ s, Reached s ∧ s.bad = true :=
  ⟨_, Reachable.exec (.init rfl trivial) [.connect 0 3, .connect 0 4] rfl, rfl⟩

/-! ### C80 -/

/-- C80, every call that was made is either in progress or has returned exactly once. -/
theorem C80_once {s : S} (h : Reached s) : (s.log.map Ret.id).Nodup ∧
    ∀ id, id < s.nextReq → (id ∈ s.log.map Ret.id ∧ s.reqs id = none) ∨ (id ∉ s.log.map Ret.id ∧ ∃ r, s.reqs id = some r) := by
  have hi := once h
  refine ⟨hi.nodup, fun id hl => ?_⟩
  rcases hi.all id hl with hm | ⟨r, hr⟩
  · exact Or.inl ⟨hm, (hi.dis id hm).1⟩
  · exact Or.inr ⟨fun hm => (by rw [(hi.dis id hm).1] at hr; cases hr), r, hr⟩

/-- C80, a blocking call never fails with EAGAIN, unless it was a receive with `MSG_DONTWAIT`. -/
theorem C80_no_eagain {s : S} (h : Reached s) (x : Ret) (hx : x ∈ s.log)
    (hb : x.api = .writeSome ∨ ((x.api = .recvMsg ∨ x.api = .recv) ∧ ∃ n, x.arg = .room n false)) : x.res ≠ .err EAGAIN := by
  refine (once h).again x hx ?_
  rcases hb with hb | ⟨hb | hb, n, ha⟩
  · rw [hb]; rfl
  · rw [hb, ha]; rfl
  · rw [hb, ha]; rfl

/-- C80, but an asynchronous one may. -/
theorem C80_async_eagain : ∃ s x, Reached s ∧ x ∈ s.log ∧ x.api = .asyncWrite ∧ x.res = .err EAGAIN :=
  ⟨_, _, Reachable.exec (.init rfl trivial) [.create 0 3 false, .call .asyncWrite (.send [1, 2]) 0, .submit 0, .complete 0 (.err 11)] rfl,
    List.mem_singleton.2 rfl, rfl, rfl⟩

/-- C80, a call that says it has sent `n` bytes had at least `n`, and `n` is 0 only if it had none; one that received bytes had room for
them. -/
theorem C80_fits {s : S} (h : Reached s) (x : Ret) (hx : x ∈ s.log) :
    (∀ n, x.res = .sent n → ∃ d, x.arg = .send d ∧ n ≤ d.length ∧ (n = 0 → d = [])) ∧
    ∀ bs, x.res = .got bs → ∃ c w, x.arg = .room c w ∧ bs.length ≤ c :=
  (once h).fits x hx

/-- C80, in a program that does not close a socket while a call on it is in progress: the bytes sent on a connection are those that the
calls made on its socket say they have sent, in this order. -/
theorem C80_sent_partial {s : S} (h : Disciplined s) (f : Nat) : s.wire f = ((s.callsOn f).map Ret.sentBytes).flatten :=
  (streams h).2.out f

/-- C80, and the bytes that arrived are those that the calls say they have received, followed by those that wait to be read. -/
theorem C80_received_partial {s : S} (h : Disciplined s) (f : Nat) : s.arrived f = ((s.callsOn f).map Ret.gotBytes).flatten ++ s.rx f :=
  (streams h).2.inn f

/-- C80 is false in general: bytes written to socket 0 go out on the connection of socket 1, because the kernel looks up the descriptor
only when the ring is submitted, and by then socket 0 was closed and its descriptor given to socket 1. -/
theorem C80_cross_talk : ∃ s x, Reached s ∧ x ∈ s.log ∧ x.sock = 0 ∧ x.file = some 0 ∧ x.res = .sent 2 ∧
    s.mine 1 = some 1 ∧ s.wire 1 = [5, 6] ∧ s.wire 0 = [] :=
  ⟨_, _, Reachable.exec (.init rfl trivial) [.connect 0 3, .call .writeSome (.send [5, 6]) 0, .close 0, .connect 1 3, .submit 0,
    .complete 0 (.ok 2)] rfl, List.mem_singleton.2 rfl, rfl, rfl, rfl, rfl, rfl, rfl⟩

/-- C80, and also because a call that goes round on EAGAIN uses the old number. -/
theorem C80_cross_talk_retry : ∃ s x, Reached s ∧ x ∈ s.log ∧ x.sock = 0 ∧ x.file = some 0 ∧ x.res = .got [8] ∧
    s.mine 1 = some 1 ∧ s.arrived 1 = [8] ∧ s.arrived 0 = [] :=
  ⟨_, _, Reachable.exec (.init rfl trivial) [.connect 0 3, .call .recv (.room 4 false) 0, .submit 0, .close 0, .connect 1 3,
    .complete 0 (.err 11), .arrive 1 [8], .submit 0, .complete 0 (.ok 1)] rfl, List.mem_singleton.2 rfl, rfl, rfl, rfl, rfl, rfl, rfl⟩

/-- C80, after `Shutdown` or `Close` a call fails at once with ECONNABORTED and sends nothing, except `Recv`. -/
theorem C80_shutdown_partial {s s' : S} {a : Api} {g : Arg} {o : Nat} (ha : a ≠ .recv) (hsh : isShut (s.word o) = true)
    (hs : step s (.call a g o) = some s') :
    s'.reqs = s.reqs ∧ s'.wire = s.wire ∧ ∃ x, s'.log = s.log ++ [x] ∧ x.sock = o ∧ x.api = a ∧ x.res = .err ECONNABORTED := by
  simp only [step] at hs
  split at hs
  · cases hs
    have hc : a.checks = true := by cases a <;> first | rfl | exact absurd rfl ha
    unfold S.call
    rw [hc, hsh]
    exact ⟨rfl, rfl, _, rfl, rfl, rfl, rfl⟩
  · cases hs

/-- C80, and the mark stays until the socket is closed. -/
theorem C80_shutdown_stays {s s' : S} {a : Act} {o : Nat} (hw : 0 ≤ s.word o) (hsh : isShut (s.word o) = true) (hs : step s a = some s') :
    isShut (s'.word o) = true := by
  have opn : ∀ o' fd' u, s.word o' = -1 → isShut ((s.opened o' fd' u).word o) = true := by
    intro o' fd' u hw'
    have e1 : o ≠ o' := fun e => by subst e; omega
    show isShut (upd s.word o' _ o) = true
    rwa [upd_ne _ _ e1]
  cases a with
  | create o' fd' u =>
    simp only [step] at hs
    split at hs
    · split at hs
      · cases hs; exact opn o' fd' u ‹_›
      · cases hs; exact hsh
    · cases hs
  | accept l o' fd' =>
    simp only [step] at hs
    split at hs
    · rename_i hg
      cases hs; exact opn o' fd' _ hg.2.2.1
    · cases hs
  | connect o' fd' =>
    simp only [step] at hs
    split at hs
    · split at hs
      · cases hs; exact opn o' fd' _ ‹_›
      · cases hs; exact hsh
    · cases hs
  | shutdown o' =>
    simp only [step, Option.some.injEq] at hs; subst hs
    unfold S.shutdown
    split
    · exact hsh
    · show isShut (upd s.word o' _ o) = true
      by_cases e : o = o'
      · subst e; rw [upd_self]; exact shut_set _
      · rwa [upd_ne _ _ e]
  | close o' =>
    simp only [step, Option.some.injEq] at hs; subst hs
    unfold S.close
    split
    · exact hsh
    · show isShut (upd s.word o' _ o) = true
      by_cases e : o = o'
      · subst e; rw [upd_self]; rfl
      · rwa [upd_ne _ _ e]
  | call a g o' =>
    simp only [step] at hs
    split at hs
    · cases hs; rw [(call_desc ..).2.2.1]; exact hsh
    · cases hs
  | submit id => rw [(submit_desc hs).2.2.1]; exact hsh
  | complete id k => rw [(complete_desc hs).2.2.1]; exact hsh
  | arrive f bs =>
    simp only [step] at hs
    split at hs
    · cases hs
    · cases hs; exact hsh
  | peerEof f => simp only [step, Option.some.injEq] at hs; subst hs; exact hsh

/-- C80, `Recv` does not look at the mark: after `Shutdown` it waits in the kernel while `RecvMsg` on the same socket fails at once. -/
theorem C80_recv_ignores_shutdown : ∃ s, Reached s ∧ isShut (s.word 0) = true ∧ (∃ r, s.reqs 0 = some r ∧ r.st = .kernel 0) ∧
    s.log.map Ret.res = [.err ECONNABORTED] :=
  ⟨_, Reachable.exec (.init rfl trivial) [.connect 0 3, .shutdown 0, .call .recv (.room 4 false) 0, .submit 0,
    .call .recvMsg (.room 4 false) 0] rfl, by decide, ⟨_, rfl, rfl⟩, rfl⟩

/-- A history in which closing is disciplined, with traffic on a descriptor that is used twice. -/
example : ∃ s, Disciplined s ∧ s.wire 0 = [1, 2, 3] ∧ s.wire 1 = [9] ∧ s.arrived 0 = [7] ∧
    s.log.map Ret.res = [.sent 2, .sent 1, .got [7], .sent 1] := by
  have hq : ∀ s : S, (∀ id, s.reqs id = none) → s.quiet 0 := fun s h id r hr => by rw [h id] at hr; cases hr
  let acts1 : List Act := [.connect 0 3, .call .writeSome (.send [1, 2, 3]) 0, .submit 0, .complete 0 (.ok 2), .call .asyncWrite (.send [3]) 0,
    .submit 1, .complete 1 (.ok 1), .call .recv (.room 4 false) 0, .submit 2, .arrive 0 [7], .complete 2 (.ok 1)]
  let acts2 : List Act := [.connect 0 3, .call .writeSome (.send [9]) 0, .submit 3, .complete 3 (.ok 1)]
  have tr : ∀ (acts : List Act) (s s' : S), (∀ o, .close o ∉ acts) → Disciplined s → exec step s acts = some s' → Disciplined s' := by
    intro acts
    induction acts with
    | nil => intro s s' _ h he; simp only [exec, Option.some.injEq] at he; exact he ▸ h
    | cons a acts ih =>
      intro s s' hn h he
      simp only [exec] at he
      cases hs : step s a with
      | none => rw [hs] at he; cases he
      | some s1 =>
        rw [hs] at he
        refine ih s1 s' (fun o hm => hn o (List.mem_cons_of_mem _ hm)) (.step h (a := a) ?_ trivial) he
        cases a <;> first | exact hs | exact absurd (List.mem_cons_self ..) (hn _)
  have d1 := tr acts1 S.init _ (by intro o; simp [acts1]) (.init rfl trivial) rfl
  have d2 := Reach.step (a := Act.close 0) d1 (show dstep _ _ = some _ by
    unfold dstep
    simp only
    rw [if_pos (hq _ (fun id => by
      rcases Nat.lt_or_ge id 3 with hl | hl
      · rcases (by omega : id = 0 ∨ id = 1 ∨ id = 2) with rfl | rfl | rfl <;> rfl
      · refine Option.eq_none_iff_forall_not_mem.2 (fun r hr => ?_)
        exact absurd ((once (disciplined_reached d1)).lt id r hr).1 (Nat.not_lt.2 hl)))]
    rfl) trivial
  exact ⟨_, tr acts2 _ _ (by intro o; simp [acts2]) d2 rfl, rfl, rfl, rfl, rfl⟩

end Verif.USock
