import Verif.Accept.Spec
/-! C78: the accept server listens where it says and waits for its accept loops. -/
namespace Verif.Accept
open Verif.Common

/-- What one round over a family gives, told by the first address of the family for which a socket can be made. -/
theorem inner_spec (f : Fam) : ∀ (as : List Addr) (ec : Option Err),
    (inner f as ec = (none, ec) ∧ ∀ a ∈ as, a.fam = f → a.create ≠ none) ∨
    ∃ pre a post, as = pre ++ a :: post ∧ (∀ b ∈ pre, b.fam = f → b.create ≠ none) ∧ a.fam = f ∧ a.create = none ∧
      ((inner f as ec = (some a, none) ∧ a.cfg = none ∧ a.bind = none ∧ a.listen = none) ∨
       (∃ e, inner f as ec = (none, some e) ∧ (a.cfg = some e ∨ a.bind = some e ∨ a.listen = some e)) ∧ ¬ (a.cfg = none ∧ a.bind = none ∧ a.listen = none))
  | [], ec => Or.inl ⟨rfl, by simp⟩
  | a :: as, ec => by
    unfold inner
    by_cases h1 : a.fam ≠ f
    · rw [if_pos h1]
      rcases inner_spec f as ec with ⟨h2, h3⟩ | ⟨pre, b, post, h2, h3, h4⟩
      · refine Or.inl ⟨h2, fun b hb hf => ?_⟩
        rcases List.mem_cons.1 hb with rfl | hb
        · exact absurd hf h1
        · exact h3 b hb hf
      · refine Or.inr ⟨a :: pre, b, post, by rw [h2]; rfl, fun c hc hf => ?_, h4⟩
        rcases List.mem_cons.1 hc with rfl | hc
        · exact absurd hf h1
        · exact h3 c hc hf
    · rw [if_neg h1]
      by_cases h5 : a.create ≠ none
      · rw [if_pos h5]
        rcases inner_spec f as ec with ⟨h2, h3⟩ | ⟨pre, b, post, h2, h3, h4⟩
        · refine Or.inl ⟨h2, fun b hb hf => ?_⟩
          rcases List.mem_cons.1 hb with rfl | hb
          · exact h5
          · exact h3 b hb hf
        · refine Or.inr ⟨a :: pre, b, post, by rw [h2]; rfl, fun c hc hf => ?_, h4⟩
          rcases List.mem_cons.1 hc with rfl | hc
          · exact h5
          · exact h3 c hc hf
      · rw [if_neg h5]
        refine Or.inr ⟨[], a, as, rfl, by simp, Classical.not_not.1 h1, Classical.not_not.1 h5, ?_⟩
        cases h6 : a.cfg with
        | some e => exact Or.inr ⟨⟨e, by simp⟩, by simp⟩
        | none =>
          cases h7 : a.bind with
          | some e => exact Or.inr ⟨⟨e, by simp⟩, by simp⟩
          | none =>
            cases h8 : a.listen with
            | some e => exact Or.inr ⟨⟨e, by simp⟩, by simp⟩
            | none => exact Or.inl (by simp)

/-- C78, a listener that was added listens: at an address of the list for which everything went well, and no error is returned. -/
theorem C78_listens (addrs : List Addr) (r : Option Err) (a : Addr) (h : addListener true addrs = (r, some a)) :
    r = none ∧ a ∈ addrs ∧ a.good := by
  unfold addListener createServerSocket at h
  simp only [if_true] at h
  rcases inner_spec .v4 addrs none with ⟨h1, h2⟩ | ⟨pre, b, post, h1, h2, h3, h4, ⟨h5, h6⟩ | ⟨⟨e, h5, he⟩, h6⟩⟩
  · rw [h1] at h
    simp only at h
    rcases inner_spec .v6 addrs none with ⟨k1, k2⟩ | ⟨pre, b, post, k1, k2, k3, k4, ⟨k5, k6⟩ | ⟨⟨e', k5, ke⟩, k6⟩⟩
    · rw [k1] at h; cases h
    · rw [k5] at h; cases h
      exact ⟨rfl, by rw [k1]; simp, ⟨Or.inr k3, k4⟩, k6⟩
    · rw [k5] at h; cases h
  · rw [h5] at h; cases h
    exact ⟨rfl, by rw [h1]; simp, ⟨Or.inl h3, h4⟩, h6⟩
  · rw [h5] at h
    simp only at h
    rcases inner_spec .v6 addrs (some e) with ⟨k1, k2⟩ | ⟨pre, b, post, k1, k2, k3, k4, ⟨k5, k6⟩ | ⟨⟨e', k5, ke⟩, k6⟩⟩
    · rw [k1] at h; cases h
    · rw [k5] at h; cases h
      exact ⟨rfl, by rw [k1]; simp, ⟨Or.inr k3, k4⟩, k6⟩
    · rw [k5] at h; cases h

/-- C78, no error means that the listener was added, if a socket can be made for at least one address. -/
theorem C78_no_error_partial (addrs : List Addr) (hu : ∃ a ∈ addrs, a.usable) (h : (addListener true addrs).1 = none) :
    ∃ a, addListener true addrs = (none, some a) := by
  unfold addListener createServerSocket at h ⊢
  simp only [if_true] at h ⊢
  rcases inner_spec .v4 addrs none with ⟨h1, h2⟩ | ⟨pre, b, post, h1, h2, h3, h4, ⟨h5, h6⟩ | ⟨⟨e, h5, he⟩, h6⟩⟩
  · rw [h1] at h ⊢
    simp only at h ⊢
    rcases inner_spec .v6 addrs none with ⟨k1, k2⟩ | ⟨pre, b, post, k1, k2, k3, k4, ⟨k5, k6⟩ | ⟨⟨e', k5, ke⟩, k6⟩⟩
    · obtain ⟨a, ha, hf | hf, hc⟩ := hu
      · exact absurd hc (h2 a ha hf)
      · exact absurd hc (k2 a ha hf)
    · rw [k5]; exact ⟨b, rfl⟩
    · rw [k5] at h; cases h
  · rw [h5]; exact ⟨b, rfl⟩
  · rw [h5] at h ⊢
    simp only at h ⊢
    rcases inner_spec .v6 addrs (some e) with ⟨k1, k2⟩ | ⟨pre, b, post, k1, k2, k3, k4, ⟨k5, k6⟩ | ⟨⟨e', k5, ke⟩, k6⟩⟩
    · rw [k1] at h; cases h
    · rw [k5]; exact ⟨b, rfl⟩
    · rw [k5] at h; cases h

/-- C78, an error is the error of a call for one of the addresses. -/
theorem C78_error (addrs : List Addr) (e : Err) (h : (addListener true addrs).1 = some e) :
    ∃ a ∈ addrs, a.usable ∧ (a.cfg = some e ∨ a.bind = some e ∨ a.listen = some e) := by
  unfold addListener createServerSocket at h
  simp only [if_true] at h
  rcases inner_spec .v4 addrs none with ⟨h1, h2⟩ | ⟨pre, b, post, h1, h2, h3, h4, ⟨h5, h6⟩ | ⟨⟨e', h5, he⟩, h6⟩⟩
  · rw [h1] at h
    simp only at h
    rcases inner_spec .v6 addrs none with ⟨k1, k2⟩ | ⟨pre, c, post, k1, k2, k3, k4, ⟨k5, k6⟩ | ⟨⟨e', k5, ke⟩, k6⟩⟩
    · rw [k1] at h; cases h
    · rw [k5] at h; cases h
    · rw [k5] at h; cases h
      exact ⟨c, by rw [k1]; simp, ⟨Or.inr k3, k4⟩, ke⟩
  · rw [h5] at h; cases h
  · rw [h5] at h
    simp only at h
    rcases inner_spec .v6 addrs (some e') with ⟨k1, k2⟩ | ⟨pre, c, post, k1, k2, k3, k4, ⟨k5, k6⟩ | ⟨⟨e2, k5, ke⟩, k6⟩⟩
    · rw [k1] at h; cases h
      exact ⟨b, by rw [h1]; simp, ⟨Or.inl h3, h4⟩, he⟩
    · rw [k5] at h; cases h
    · rw [k5] at h; cases h
      exact ⟨c, by rw [k1]; simp, ⟨Or.inr k3, k4⟩, ke⟩

/-- C78, IPv6 is tried when there is no usable IPv4 address or the first one failed. -/
theorem C78_v6_next (addrs pre post : List Addr) (a : Addr) (he : addrs = pre ++ a :: post) (hg : a.good) (hf : a.fam = .v6)
    (hp : ∀ b ∈ pre, b.fam = .v6 → b.create ≠ none) : ∃ b, addListener true addrs = (none, some b) ∧ (b.fam = .v4 ∨ b = a) := by
  unfold addListener createServerSocket
  simp only [if_true]
  have key : ∀ ec, inner .v6 addrs ec = (some a, none) := by
    intro ec
    rw [he]
    clear he
    induction pre with
    | nil => simp [inner, hf, hg.1.2, hg.2.1, hg.2.2.1, hg.2.2.2]
    | cons b pre ih =>
      have := ih (fun c hc => hp c (List.mem_cons_of_mem _ hc))
      rw [List.cons_append, inner]
      by_cases h1 : b.fam ≠ .v6
      · rw [if_pos h1, this]
      · rw [if_neg h1, if_pos (hp b (List.mem_cons_self ..) (Classical.not_not.1 h1)), this]
  rcases inner_spec .v4 addrs none with ⟨h1, h2⟩ | ⟨pre, b, post, h1, h2, h3, h4, ⟨h5, h6⟩ | ⟨⟨e', h5, _⟩, h6⟩⟩
  · rw [h1]
    simp only [key]
    exact ⟨a, rfl, Or.inr rfl⟩
  · rw [h5]
    exact ⟨b, rfl, Or.inl h3⟩
  · rw [h5]
    simp only [key]
    exact ⟨a, rfl, Or.inr rfl⟩

example : addListener true [⟨.v6, none, none, none, none⟩, ⟨.v4, none, none, some 98, none⟩] =
    (none, some ⟨.v6, none, none, none, none⟩) := by decide

theorem inner_none (f : Fam) (as : List Addr) (ec : Option Err) (h : ∀ a ∈ as, a.fam = f → a.create ≠ none) : inner f as ec = (none, ec) := by
  rcases inner_spec f as ec with ⟨h1, _⟩ | ⟨pre, b, post, h1, _, h3, h4, _⟩
  · exact h1
  · exact absurd h4 (h b (by rw [h1]; simp) h3)

/-- C78 is false if no socket can be made, for example because the process has no descriptors left: no error is returned, and
nothing listens. -/
theorem C78_silent_failure (addrs : List Addr) (h : ∀ a ∈ addrs, ¬ a.usable) : addListener true addrs = (none, none) := by
  unfold addListener createServerSocket
  rw [inner_none .v4 addrs none (fun a ha hf hc => h a ha ⟨Or.inl hf, hc⟩)]
  simp only [if_true]
  rw [inner_none .v6 addrs none (fun a ha hf hc => h a ha ⟨Or.inr hf, hc⟩)]

/-- C78, IPv4 comes first: a good address that is the first usable one for IPv4 is taken. -/
theorem C78_v4_first (pre post : List Addr) (a : Addr) (hg : a.good) (hf : a.fam = .v4) (hp : ∀ b ∈ pre, b.fam = .v4 → b.create ≠ none) :
    addListener true (pre ++ a :: post) = (none, some a) := by
  have key : ∀ pre : List Addr, (∀ b ∈ pre, b.fam = .v4 → b.create ≠ none) → inner .v4 (pre ++ a :: post) none = (some a, none) := by
    intro pre
    induction pre with
    | nil =>
      intro _
      simp [inner, hf, hg.1.2, hg.2.1, hg.2.2.1, hg.2.2.2]
    | cons b pre ih =>
      intro hp
      have := ih (fun c hc => hp c (List.mem_cons_of_mem _ hc))
      rw [List.cons_append, inner]
      by_cases h1 : b.fam ≠ .v4
      · rw [if_pos h1, this]
      · rw [if_neg h1, if_pos (hp b (List.mem_cons_self ..) (Classical.not_not.1 h1)), this]
  unfold addListener createServerSocket
  rw [key pre hp]
  rfl

/-- C78, of each family only the first usable address is tried: here the second one could be bound. -/
theorem C78_second_not_tried : ∃ a b : Addr, b.good ∧ addListener true [a, b] = (some 98, none) :=
  ⟨⟨.v4, none, none, some 98, none⟩, ⟨.v4, none, none, none, none⟩, ⟨⟨Or.inl rfl, rfl⟩, rfl, rfl, rfl⟩, by decide⟩

/-- C78, unix sockets: no error means that the listener was added. -/
theorem C78_uds (create cfg bind chmod listen : Option Err) (len : Nat) :
    (addUds create cfg len bind chmod listen).1 = none ↔ (addUds create cfg len bind chmod listen).2.1 = true := by
  unfold addUds
  cases create with
  | some e => simp
  | none =>
    cases cfg with
    | some e => simp
    | none =>
      simp only
      split
      · simp
      · cases bind with
        | some e => simp
        | none => cases chmod with
          | some e => simp
          | none => cases listen <;> simp

/-- C78, a path of 107 bytes fits into the address with its end mark but is refused, and the socket is destroyed while it is open. -/
theorem C78_uds_path : addUds none none 107 none none none = (some 36, false, true) ∧ 107 + 1 ≤ 108 := by decide

/-! ### `Run` and `Wait` -/

theorem winv {s : W} (h : Reachable (· = W.init) wstep s) : s.cnt = s.running.length := by
  refine Reachable.invariant (fun s => s.cnt = s.running.length) (fun s hs => by subst hs; rfl) ?_ h
  rintro s a s' hi hs
  cases a with
  | add =>
    simp only [wstep, Option.some.injEq] at hs
    subst hs
    split <;> exact hi
  | run =>
    simp only [wstep, Option.some.injEq] at hs
    subst hs
    show s.cnt + s.n = (s.running ++ List.range s.n).length
    rw [List.length_append, List.length_range, hi]
  | loopEnds i =>
    simp only [wstep] at hs
    split at hs
    · rename_i hm
      cases hs
      show s.cnt - 1 = (s.running.erase i).length
      rw [List.length_erase_of_mem hm, hi]
    · cases hs
  | wait =>
    simp only [wstep] at hs
    split at hs
    · split at hs
      · cases hs; exact hi
      · cases hs
    · cases hs
      split <;> exact hi

/-- C78, `Wait` returns only when all accept loops that were started have ended. -/
theorem C78_wait {s s' : W} (h : Reachable (· = W.init) wstep s) (hr : s.wasRun = true) (hs : wstep s .wait = some s') :
    s.running = [] := by
  have hi := winv h
  simp only [wstep, hr, if_true] at hs
  split at hs
  · rename_i hc
    exact List.length_eq_zero_iff.1 (by omega)
  · cases hs

/-- C78, and it can return as soon as they have. -/
theorem C78_wait_returns {s : W} (h : Reachable (· = W.init) wstep s) (hr : s.wasRun = true) (hn : s.running = []) :
    ∃ s', wstep s .wait = some s' ∧ s'.bad = s.bad := by
  have hi := winv h
  rw [hn] at hi
  exact ⟨{ s with wasRun := false }, by simp [wstep, hr, hi], rfl⟩

/-- C78, nothing ends an accept loop but itself: a loop that was started and has not ended is waited for. -/
theorem C78_wait_blocks {s : W} (h : Reachable (· = W.init) wstep s) (hr : s.wasRun = true) (hn : s.running ≠ []) :
    wstep s .wait = none := by
  have hi := winv h
  have : s.cnt ≠ 0 := by
    rw [hi]
    exact fun h => hn (List.length_eq_zero_iff.1 h)
  simp [wstep, hr, this]

example : ∃ s, Reachable (· = W.init) wstep s ∧ s = ⟨2, [], 0, false, false⟩ :=
  ⟨_, Reachable.exec (.init rfl trivial) [.add, .add, .run, .loopEnds 1, .loopEnds 0, .wait] rfl, rfl⟩

end Verif.Accept
