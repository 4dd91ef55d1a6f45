import Verif.Dns.Spec
import Mathlib.Data.List.Induction
/-! C77: name resolution returns what the resolver found. -/
namespace Verif.Dns
open Verif.Common

/-! ### The choice of the address -/

/-- C77, the address is one that was found. -/
theorem C77_found (ok : Bool) (nodes : List Node) (n : Node) (h : result ok nodes = .inr n) : ok = true ∧ n ∈ nodes ∧ n.fam ≠ .other := by
  unfold result at h
  split at h
  · rename_i m hm
    have hmem : m ∈ nodes := by
      unfold pick at hm
      split at hm
      · cases hm
      · split at hm
        · split at hm <;> cases hm <;> simp
        · cases hm; simp
    split at h
    · cases h
    · rename_i hf
      cases h
      exact ⟨rfl, hmem, hf⟩
  · cases h

/-- C77, a failure or an empty list is an error. -/
theorem C77_failure (ok : Bool) (nodes : List Node) (h : ok = false ∨ nodes = []) : result ok nodes = .inl .notAvailable := by
  rcases h with rfl | rfl
  · unfold result; rfl
  · cases ok <;> rfl

/-- C77, an IPv4 address is taken if one is among the first two. -/
theorem C77_prefers_v4_partial (n m : Node) (ns : List Node) (hn : n.fam ≠ .other) (h : n.fam = .v4 ∨ m.fam = .v4) :
    ∃ k, result true (n :: m :: ns) = .inr k ∧ k.fam = .v4 := by
  unfold result pick
  by_cases hc : n.fam = .v6 ∧ m.fam = .v4
  · simp [hc]
  · have : n.fam = .v4 := by
      rcases h with h | h
      · exact h
      · cases hf : n.fam with
        | v4 => rfl
        | v6 => exact absurd ⟨hf, h⟩ hc
        | other => exact absurd hf hn
    simp [this]

/-- C77, but not if it comes third. -/
theorem C77_v4_missed : result true [⟨.v6, 1⟩, ⟨.v6, 2⟩, ⟨.v4, 3⟩] = .inr ⟨.v6, 1⟩ := by decide

/-! ### Handing over -/

theorem linv {s : H} (h : Reachable HInit lstep s) :
    (s.done = false → s.ec = none ∧ s.ip = none) ∧ (s.done = true → (s.ec, s.ip) = asReturned s.res) ∧
    (∀ v, s.ret = some v → v = asReturned s.res) ∧ s.bad = false := by
  refine Reachable.invariant (fun s => (s.done = false → s.ec = none ∧ s.ip = none) ∧ (s.done = true → (s.ec, s.ip) = asReturned s.res) ∧
    (∀ v, s.ret = some v → v = asReturned s.res) ∧ s.bad = false) ?_ ?_ h
  · intro s hs
    rw [hs]
    simp
  · rintro s a s' ⟨h1, h2, h3, h4⟩ hs
    cases a with
    | cb1 =>
      simp only [lstep] at hs
      split at hs
      · rename_i hd
        obtain ⟨e1, e2⟩ := h1 hd
        cases hs
        unfold H.write
        cases hr : s.res with
        | inl e => exact ⟨fun h => (by cases h), fun _ => by simp [asReturned, hr, e2], fun v hv => by simpa [hr] using h3 v hv, h4⟩
        | inr n => exact ⟨fun h => (by cases h), fun _ => by simp [asReturned, hr, e1], fun v hv => by simpa [hr] using h3 v hv, h4⟩
      · cases hs
    | cb2 => cases hs
    | resume =>
      simp only [lstep] at hs
      split at hs
      · rename_i hd
        cases hs
        exact ⟨h1, h2, fun v hv => by cases hv; exact h2 hd.1, h4⟩
      · cases hs

/-- C77, resolving with a channel of its own returns what c-ares reported. -/
theorem C77_own_channel {s : H} (h : Reachable HInit lstep s) {v : Option Err × Option Node} (hv : s.ret = some v) :
    v = asReturned s.res := (linv h).2.2.1 v hv

/-- What holds with the channel of the process. -/
def GOk (s : H) : Prop :=
  (s.wrote = false → s.ec = none ∧ s.ip = none) ∧ (s.wrote = true → s.ret = none → (s.ec, s.ip) = asReturned s.res) ∧
  (s.early = false → ∀ v, s.ret = some v → v = asReturned s.res ∧ s.wrote = true) ∧ (s.early = false → s.bad = false) ∧
  (s.ret = none → s.early = false)

theorem ginv {s : H} (h : Reachable HInit gstep s) : GOk s := by
  refine Reachable.invariant GOk ?_ ?_ h
  · intro s hs
    rw [hs]
    simp [GOk]
  · rintro ⟨res, ec, ip, done, active, wrote, ret, early, bad⟩ a s' ⟨h1, h2, h3, h4, h5⟩ hs
    simp only at h1 h2 h3 h4 h5
    cases a with
    | cb1 =>
      simp only [gstep] at hs
      split at hs
      · cases hs
        exact ⟨h1, h2, h3, h4, h5⟩
      · cases hs
    | cb2 =>
      simp only [gstep] at hs
      split at hs
      · rename_i hd
        obtain ⟨e1, e2⟩ := h1 hd.2
        obtain ⟨hdone, hw⟩ := hd
        subst hdone hw e1 e2
        cases hs
        cases ret with
        | none => cases res <;> simp_all [GOk, H.write, asReturned]
        | some v0 =>
          have : early = true := by
            cases early with
            | true => rfl
            | false => have := (h3 rfl v0 rfl).2; cases this
          subst this
          simp [GOk]
      · cases hs
    | resume =>
      simp only [gstep] at hs
      split at hs
      · rename_i hd
        obtain ⟨_, hr⟩ := hd
        subst hr
        cases hs
        have he := h5 rfl
        subst he
        cases wrote with
        | true => exact ⟨h1, fun _ hn => (by cases hn), fun _ v hv => (by cases hv; exact ⟨h2 rfl rfl, rfl⟩), fun _ => h4 rfl, fun hn => (by cases hn)⟩
        | false => exact ⟨h1, fun _ hn => (by cases hn), fun h => (by cases h), fun h => (by cases h), fun hn => (by cases hn)⟩
      · cases hs

/-- C77, resolving with the channel of the process returns what c-ares reported, if the fiber does not go on before the callback is
done with writing. -/
theorem C77_shared_channel_partial {s : H} (h : Reachable HInit gstep s) (he : s.early = false) :
    (∀ v, s.ret = some v → v = asReturned s.res) ∧ s.bad = false :=
  ⟨fun v hv => ((ginv h).2.2.1 he v hv).1, (ginv h).2.2.2.1 he⟩

/-- C77 is false if it does: the callback wakes the fiber first and writes then. A failure is reported as a success without an
address, and the callback writes to the stack of a call that has returned. -/
theorem C77_shared_race : ∃ s, Reachable HInit gstep s ∧ s.res = .inl .notAvailable ∧ s.ret = some (none, none) ∧ s.bad = true :=
  ⟨_, Reachable.exec (.init (show HInit ⟨.inl .notAvailable, none, none, false, false, false, none, false, false⟩ from rfl) trivial)
    [.cb1, .resume, .cb2] rfl, rfl, rfl, rfl⟩

example : ∃ s, Reachable HInit gstep s ∧ s.ret = some (none, some ⟨.v4, 7⟩) ∧ s.early = false :=
  ⟨_, Reachable.exec (.init (show HInit ⟨.inr ⟨.v4, 7⟩, none, none, false, false, false, none, false, false⟩ from rfl) trivial)
    [.cb1, .cb2, .resume] rfl, rfl, rfl⟩

example : ∃ s, Reachable HInit lstep s ∧ s.ret = some (none, some ⟨.v4, 7⟩) :=
  ⟨_, Reachable.exec (.init (show HInit ⟨.inr ⟨.v4, 7⟩, none, none, false, false, false, none, false, false⟩ from rfl) trivial)
    [.cb1, .resume] rfl, rfl⟩

/-! ### The sockets -/

theorem lastCall_snoc (cs : List (Nat × Mask)) (c : Nat × Mask) (fd : Nat) :
    lastCall (cs ++ [c]) fd = if c.1 = fd then some c.2 else lastCall cs fd := by
  unfold lastCall
  rw [List.reverse_append, List.reverse_singleton, List.singleton_append, List.find?_cons]
  by_cases h : c.1 = fd
  · simp [h]
  · rw [beq_eq_false_iff_ne.2 h, if_neg h]

theorem updates_snoc : ∀ (cs : List (Nat × Mask)) (m : Socks) (c : Nat × Mask),
    updates m (cs ++ [c]) = (updates m cs).bind fun m' => update m' c.1 c.2
  | [], m, c => by
    simp only [List.nil_append, updates, Option.bind_some]
    cases update m c.1 c.2 <;> rfl
  | d :: cs, m, c => by
    simp only [List.cons_append, updates]
    cases update m d.1 d.2 with
    | none => rfl
    | some m' => exact updates_snoc cs m' c

theorem known_snoc {cs : List (Nat × Mask)} {c : Nat × Mask} (h : Known (cs ++ [c])) : Known cs :=
  fun pre d post e => h pre d (post ++ [c]) (by rw [e, List.append_assoc]; rfl)

theorem steady_snoc {cs : List (Nat × Mask)} {c : Nat × Mask} (h : Steady (cs ++ [c])) : Steady cs :=
  fun pre d post e => h pre d (post ++ [c]) (by rw [e, List.append_assoc]; rfl)

theorem updates_spec (cs : List (Nat × Mask)) : Known cs → Steady cs → ∃ m, updates (fun _ => none) cs = some m ∧
    ∀ fd, polled m fd = wanted cs fd ∧ ((m fd).isNone = true ↔ lastCall cs fd = none) ∧
      ∀ k, m fd = some k → (k.removed = true ↔ k.armed = none) := by
  induction cs using List.reverseRecOn with
  | nil =>
    intro _ _
    exact ⟨_, rfl, fun fd => ⟨rfl, by simp [lastCall], fun k hk => (by cases hk)⟩⟩
  | append_singleton cs c ih =>
    intro hk hs
    obtain ⟨m, h1, h2⟩ := ih (known_snoc hk) (steady_snoc hs)
    rw [updates_snoc, h1, Option.bind_some]
    have key : ∀ (k' : Sk), (c.2.empty = true ∧ k'.armed = none ∨ c.2.empty = false ∧ k'.armed = some c.2) →
        (k'.removed = true ↔ k'.armed = none) → ∀ fd, polled (upd m c.1 (some k')) fd = wanted (cs ++ [c]) fd ∧
          (((upd m c.1 (some k')) fd).isNone = true ↔ lastCall (cs ++ [c]) fd = none) ∧
          ∀ k, (upd m c.1 (some k')) fd = some k → (k.removed = true ↔ k.armed = none) := by
      intro k' ha hr fd
      unfold polled wanted upd
      rw [lastCall_snoc]
      by_cases hf : fd = c.1
      · rw [if_pos hf, if_pos hf.symm]
        refine ⟨?_, by simp, fun k e => by cases e; exact hr⟩
        rcases ha with ⟨ha, hb⟩ | ⟨ha, hb⟩ <;> simp [ha, hb, Option.filter]
      · rw [if_neg hf, if_neg (fun e => hf e.symm)]
        exact h2 fd
    cases he : c.2.empty with
    | true =>
      have hmt : c.2.rd = false ∧ c.2.wr = false := by simpa [Mask.empty] using he
      have hl := hk cs c [] rfl he
      unfold update
      rw [if_pos hmt]
      cases hm : m c.1 with
      | none =>
        exact absurd ((h2 c.1).2.1.1 (by rw [hm]; rfl)) hl
      | some k => exact ⟨_, rfl, key { k with armed := none, removed := true } (Or.inl ⟨he, rfl⟩) (by simp)⟩
    | false =>
      have hmt : ¬ (c.2.rd = false ∧ c.2.wr = false) := by
        intro h
        rw [Mask.empty, h.1, h.2] at he
        cases he
      unfold update
      rw [if_neg hmt]
      cases hm : m c.1 with
      | none => exact ⟨_, rfl, key _ (Or.inr ⟨he, rfl⟩) (by simp)⟩
      | some k =>
        by_cases hrm : k.removed = true
        · simp only [if_pos hrm]
          exact ⟨_, rfl, key _ (Or.inr ⟨he, rfl⟩) (by simp)⟩
        · simp only [if_neg hrm]
          refine ⟨_, rfl, ?_⟩
          -- the socket is in use: c-ares says what it said before
          have harm : k.armed ≠ none := fun h => hrm (((h2 c.1).2.2 k hm).2 h)
          have hw : wanted cs c.1 = some c.2 := by
            cases ha : k.armed with
            | none => exact absurd ha harm
            | some a =>
              have : wanted cs c.1 = some a := by
                rw [← (h2 c.1).1, polled, hm]
                exact ha
              rw [this, hs cs c [] rfl he a this]
          intro fd
          by_cases hf : c.1 = fd
          · subst hf
            refine ⟨?_, ?_, (h2 c.1).2.2⟩
            · rw [(h2 c.1).1, hw]
              unfold wanted
              rw [lastCall_snoc, if_pos rfl]
              simp [Option.filter, he]
            · rw [hm, lastCall_snoc, if_pos rfl]
              simp
          · have : wanted (cs ++ [c]) fd = wanted cs fd := by
              unfold wanted
              rw [lastCall_snoc, if_neg hf]
            rw [this, lastCall_snoc, if_neg hf]
            exact h2 fd

/-- C77, the sockets: if c-ares does not change its mind about a socket in use, then what is polled for each socket is what c-ares
asked for last, and no check fails. -/
theorem C77_polled_partial (cs : List (Nat × Mask)) (hk : Known cs) (hs : Steady cs) :
    ∃ m, updates (fun _ => none) cs = some m ∧ ∀ fd, polled m fd = wanted cs fd := by
  obtain ⟨m, h1, h2⟩ := updates_spec cs hk hs
  exact ⟨m, h1, fun fd => (h2 fd).1⟩

/-- C77, if it does, the change is ignored: a socket to be written from now on is polled for reading only. -/
theorem C77_change_ignored : ∃ m, updates (fun _ => none) [(5, ⟨true, false⟩), (5, ⟨true, true⟩)] = some m ∧
    polled m 5 = some ⟨true, false⟩ ∧ wanted [(5, ⟨true, false⟩), (5, ⟨true, true⟩)] 5 = some ⟨true, true⟩ := ⟨_, rfl, rfl, rfl⟩

/-- C77, the loop over the sockets goes on over a table that may have moved, if c-ares opens a socket from within: here after a
truncated answer, when it changes to TCP. -/
theorem C77_table_moves : ∃ m r, updates (fun _ => none) [(5, ⟨true, false⟩)] = some m ∧
    loop (fun _ => [(5, ⟨false, false⟩), (6, ⟨true, true⟩)]) [5] m = some r ∧ r.2 = true := ⟨_, _, rfl, rfl, rfl⟩

theorem update_isSome {m m' : Socks} {fd : Nat} {w : Mask} (h : update m fd w = some m') (x : Nat) (hx : (m x).isSome = true) :
    (m' x).isSome = true := by
  unfold update at h
  split at h
  · split at h
    · cases h
    · cases h
      unfold upd
      split
      · rfl
      · exact hx
  · split at h
    · cases h
      unfold upd
      split
      · rfl
      · exact hx
    · split at h
      · cases h
        unfold upd
        split
        · rfl
        · exact hx
      · cases h; exact hx

theorem updates_isSome : ∀ (cs : List (Nat × Mask)) {m m' : Socks}, updates m cs = some m' → ∀ x, (m x).isSome = true → (m' x).isSome = true
  | [], _, _, h, x, hx => by cases h; exact hx
  | c :: cs, m, m', h, x, hx => by
    unfold updates at h
    cases hu : update m c.1 c.2 with
    | none => rw [hu] at h; cases h
    | some m1 =>
      rw [hu] at h
      exact updates_isSome cs h x (update_isSome hu x hx)

/-- C77, the loop is safe as long as c-ares opens no socket from within. -/
theorem C77_loop_partial (calls : Nat → List (Nat × Mask)) : ∀ (fds : List Nat) (m : Socks) (r : Socks × Bool),
    (∀ fd ∈ fds, ∀ c ∈ calls fd, (m c.1).isSome = true) → loop calls fds m = some r → r.2 = false
  | [], m, r, _, h => by cases h; rfl
  | fd :: fds, m, r, hc, h => by
    unfold loop at h
    cases hu : updates m (calls fd) with
    | none => rw [hu] at h; cases h
    | some m' =>
      rw [hu] at h
      simp only [Option.map_eq_some_iff] at h
      obtain ⟨r', h1, rfl⟩ := h
      have := C77_loop_partial calls fds m' r' (fun f hf c hcc => updates_isSome _ hu _ (hc f (List.mem_cons_of_mem _ hf) c hcc)) h1
      simp only [this, Bool.false_or, List.any_eq_false, Bool.and_eq_true, not_and]
      intro c hcc hn
      have := hc fd (List.mem_cons_self ..) c hcc
      rw [Option.isNone_iff_eq_none] at hn
      rw [hn] at this
      cases this

/-- The hypotheses of `C77_polled_partial` hold of a socket that is opened, told of again and closed. -/
example : Known [(5, ⟨true, false⟩), (5, ⟨true, false⟩), (5, ⟨false, false⟩)] ∧
    Steady [(5, ⟨true, false⟩), (5, ⟨true, false⟩), (5, ⟨false, false⟩)] := by
  constructor
  · intro pre c post e hc
    rcases pre with _ | ⟨a, _ | ⟨b, _ | ⟨d, pre⟩⟩⟩ <;> simp at e
    · rw [← e.1] at hc; cases hc
    · rw [← e.2.1] at hc; cases hc
    · obtain ⟨rfl, rfl, rfl, _⟩ := e
      decide
  · intro pre c post e hc m hm
    rcases pre with _ | ⟨a, _ | ⟨b, _ | ⟨d, pre⟩⟩⟩ <;> simp at e
    · cases hm
    · obtain ⟨rfl, rfl, _⟩ := e
      cases hm; rfl
    · obtain ⟨rfl, rfl, rfl, _⟩ := e
      cases hc

/-- Two sockets, one of which is closed and used again for writing. -/
example : ∃ m, updates (fun _ => none) [(5, ⟨true, false⟩), (6, ⟨true, true⟩), (5, ⟨true, false⟩), (5, ⟨false, false⟩), (5, ⟨false, true⟩)] =
    some m ∧ polled m 5 = some ⟨false, true⟩ ∧ polled m 6 = some ⟨true, true⟩ := ⟨_, rfl, rfl, rfl⟩

end Verif.Dns
