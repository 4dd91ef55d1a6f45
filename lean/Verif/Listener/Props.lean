import Verif.Listener.Steps
/-! # Theorems about the listener -/
namespace Verif.Listener
open Verif.Common

/-- States for examples. -/
theorem reach_of {n max : Nat} {acts : List Act} {P : S → Bool} (h : ((exec step (S.init n max) acts).map P) = some true)
    (hn : 0 < n := by decide) (hm : max < 2 ^ 32 := by decide) : ∃ s, Reachable Init step s ∧ P s = true := by
  cases he : exec step (S.init n max) acts with
  | none => rw [he] at h; cases h
  | some s =>
    rw [he] at h
    simp only [Option.map_some, Option.some.injEq] at h
    exact ⟨s, Reachable.exec (.init ⟨n, max, hn, hm, rfl⟩ trivial) acts he, h⟩

theorem calm_of {n max : Nat} {acts : List Act} {P : S → Bool} (h : ((exec calmStep (S.init n max) acts).map P) = some true)
    (hn : 0 < n := by decide) (hm : max < 2 ^ 32 := by decide) : ∃ s, Reachable Init calmStep s ∧ P s = true := by
  cases he : exec calmStep (S.init n max) acts with
  | none => rw [he] at h; cases h
  | some s =>
    rw [he] at h
    simp only [Option.map_some, Option.some.injEq] at h
    exact ⟨s, Reachable.exec (.init ⟨n, max, hn, hm, rfl⟩ trivial) acts he, h⟩

/-! ## C64: the limit of connections and the life of a connection -/

/-- **C64** The counter of the listener is the number of open connections. -/
theorem C64_counter {s : S} (h : Reachable Init step s) (hb : s.bad = none) : s.opn = s.open := (gate_of h hb).opn

/-- **C64** Below the limit a new connection is taken. -/
theorem C64_accepts {s : S} (h : Reachable Init step s) (hb : s.bad = none) (hp : s.phase = .accepting) (hz : s.pause = false)
    (hl : s.open < s.max) {t : Nat} (ht : t < s.n) :
    ∃ s1, step s (.accept t) = some s1 ∧ s1.open = s.open + 1 ∧ s1.opn = s.opn + 1 ∧ s1.log = s.log ∧
      s1.conns = s.conns ++ [⟨t, .queued, none, false⟩] := by
  have g := gate_of h hb
  have ho := C64_counter h hb
  refine ⟨{ s with
    opn := inc32 s.opn
    conns := s.conns ++ [⟨t, .queued, none, false⟩]
    queue := upd s.queue t (s.queue t ++ [.conn s.conns.length]) }, ?_, ?_, ?_, rfl, rfl⟩
  · unfold step
    rw [if_neg (by simp [hb])]
    simp only [stepA, accept]
    rw [if_neg (by simp [hp]), if_neg (by simp [hz]), if_neg (by omega), if_neg (by omega)]
  · simp [S.open]
  · have := g.max
    simp only [inc32]
    omega

/-- **C64** At the limit a new connection is refused and nothing else changes. -/
theorem C64_rejects {s : S} (h : Reachable Init step s) (hb : s.bad = none) (hp : s.phase = .accepting) (hz : s.pause = false)
    (hl : s.max ≤ s.open) (t : Nat) :
    step s (.accept t) = some { s with log := s.log ++ [.reject] } := by
  have g := gate_of h hb
  have ho := C64_counter h hb
  unfold step
  rw [if_neg (by simp [hb])]
  simp only [stepA, accept]
  rw [if_neg (by simp [hp]), if_neg (by simp [hz]), if_pos (by omega), dec_inc g.lt]

/-- **C64** While accepting is paused, a new connection is closed and nothing else changes. -/
theorem C64_paused {s : S} (hb : s.bad = none) (hp : s.phase = .accepting) (hz : s.pause = true) (t : Nat) :
    step s (.accept t) = some { s with log := s.log ++ [.paused] } := by
  unfold step
  rw [if_neg (by simp [hb])]
  simp [stepA, accept, hp, hz]

/-- **C64** No step opens a connection when the limit is reached, also when the limit was lowered. -/
theorem C64_limit_step {s s1 : S} (h : Reachable Init step s) {a : Act} (hst : step s a = some s1) (hl : s.max ≤ s.open) :
    s1.open ≤ s.open := by
  obtain ⟨hb, hst⟩ := step_eq hst
  rcases open_step (inv_of h).t (gate_of h hb) hst with h1 | ⟨_, h1⟩
  · exact h1
  · omega

/-- **C64** If the limit never was above `M`, there are never more than `M` open connections. -/
theorem C64_limit {s : S} {M : Nat} (h : Reach Init step (fun s => s.max ≤ M) s) : s.open ≤ M := by
  refine (Reach.invariant (fun s => Reachable Init step s ∧ s.open ≤ M) ?_ ?_ h).2
  · rintro s hi _
    refine ⟨.init hi trivial, ?_⟩
    obtain ⟨n, max, _, _, rfl⟩ := hi
    simp [S.open, S.init]
  · rintro s a s' ⟨hr, ho⟩ hq hst _
    refine ⟨.step hr hst trivial, ?_⟩
    obtain ⟨hb, hst⟩ := step_eq hst
    rcases open_step (inv_of hr).t (gate_of hr hb) hst with h1 | ⟨h1, h2⟩ <;> omega

/-- **C64** `OnConnectionStart` is called at most once for a connection, and was called once it has left the queue of its
thread. -/
theorem C64_start_once {s : S} (h : Reachable Init step s) (c : Nat) :
    s.log.countP (Ev.isStart c) ≤ 1 ∧
    ∀ x, s.conns[c]? = some x → x.pc ≠ .queued → ∃ t, Ev.start c t ∈ s.log := by
  have i := linv_of h
  constructor
  · rw [i.st]; split <;> omega
  · intro x hx hp
    have hc : cl s c = some 1 ∨ cl s c = some 2 := by
      simp only [cl, hx, Option.map_some, cls]
      cases hpc : x.pc <;> simp_all
    have := i.st c
    rw [if_pos hc] at this
    have : 0 < s.log.countP (Ev.isStart c) := by omega
    obtain ⟨e, he, h1⟩ := List.countP_pos_iff.1 this
    cases e <;> simp [Ev.isStart] at h1
    subst h1
    exact ⟨_, he⟩

/-- **C64** `OnConnectionClose` is called at most once for a connection, only after `OnConnectionStart`, and was called when
the connection has ended. -/
theorem C64_close_once {s : S} (h : Reachable Init step s) (c : Nat) :
    s.log.countP (Ev.isClose c) ≤ 1 ∧
    (Ev.close c ∈ s.log → ∃ t, Before s.log (.start c t) (.close c)) ∧
    ∀ x, s.conns[c]? = some x → x.pc = .gone → Ev.close c ∈ s.log := by
  have i := linv_of h
  refine ⟨?_, ?_, ?_⟩
  · rw [i.cz]; split <;> omega
  · intro hc
    obtain ⟨pre, post, e⟩ := List.append_of_mem hc
    have h1 := i.ord pre post c e
    have : 0 < pre.countP (Ev.isStart c) := by omega
    obtain ⟨ev, he, h2⟩ := List.countP_pos_iff.1 this
    cases ev <;> simp [Ev.isStart] at h2
    subst h2
    rename_i t
    obtain ⟨p1, p2, rfl⟩ := List.append_of_mem he
    exact ⟨t, p1, p2, post, by rw [e]⟩
  · intro x hx hp
    have hc : cl s c = some 2 := by simp [cl, hx, cls, hp]
    have := i.cz c
    rw [if_pos hc] at this
    have : 0 < s.log.countP (Ev.isClose c) := by omega
    obtain ⟨e, he, h1⟩ := List.countP_pos_iff.1 this
    cases e <;> simp [Ev.isClose] at h1
    subst h1
    exact he

/-- Two connections of limit two, a third one refused, then one ends and a third one is taken. -/
example : ∃ s, Reachable Init step s ∧
    (decide (s.open = 2) && decide (s.max = 2) && decide (s.log = [.reject, .start 0 0, .close 0]) && decide (s.conns.length = 3)) = true :=
  reach_of (n := 2) (max := 2)
    (acts := [.accept 0, .accept 1, .accept 0, .pop 0, .finish 0, .close 0, .accept 1]) (by decide)
example : ∃ s : S, Reach Init step (fun s => s.max ≤ 2) s ∧ s.open = 1 :=
  ⟨_, .step (a := .accept 0) (.init ⟨1, 2, by decide, by decide, rfl⟩ (by decide)) rfl (by decide), by decide⟩

/-! ## C65: migrations and traversals exclude each other -/

theorem visits_pos {s : S} {k : Nat} (hv : s.visiting k) : 0 < s.trs.countP Tr.visits := by
  obtain ⟨r, cur, hr, hp⟩ := hv
  exact countP_pos_of hr (by simp [Tr.visits, hp])

theorem counted_pos {s : S} {k : Nat} (hv : s.traversing k) : 0 < s.trs.countP Tr.counted := by
  obtain ⟨r, hr, hp | ⟨cur, hp⟩⟩ := hv
  · exact countP_pos_of hr (by simp [Tr.counted, hp])
  · exact countP_pos_of hr (by simp [Tr.counted, hp])

/-- **C65** While callbacks of any traversal run on any thread, no connection is on its way between two lists. -/
theorem C65_no_move {s : S} (h : Reachable Init step s) (hb : s.bad = none) {k : Nat} (hv : s.visiting k) {c : Nat} {x : Conn}
    (hx : s.conns[c]? = some x) : ¬ x.moving := by
  intro hm
  have h0 := (gate_of h hb).excl (visits_pos hv)
  have := countP_pos_of hx (moving_iff.1 hm)
  omega

/-- **C65** Once a traversal has begun, no connection starts to move until the traversal has ended. -/
theorem C65_gate_closed {s s1 : S} (h : Reachable Init step s) {k : Nat} (hv : s.traversing k) {a : Act} (hst : step s a = some s1)
    {c : Nat} {y : Conn} (hy : s1.conns[c]? = some y) (hm : y.moving) : ∃ x, s.conns[c]? = some x ∧ x.moving := by
  obtain ⟨hb, hst⟩ := step_eq hst
  rcases moving_step (inv_of h).t hst hy (moving_iff.1 hm) with ⟨x, hx, h1⟩ | h1
  · exact ⟨x, hx, moving_iff.2 h1⟩
  · have := (gate_low (gate_of h hb)).1 h1
    have := counted_pos hv
    omega

/-- **C65** When no traversal is under way, a migration passes at its next attempt. -/
theorem C65_gate_open {s : S} (h : Reachable Init step s) (hb : s.bad = none) (hd : s.phase ≠ .dead) (hv : ∀ k, ¬ s.traversing k)
    {c d : Nat} {x : Conn} (hx : s.conns[c]? = some x) (hp : x.pc = .mgTry d) :
    ∃ s1, step s (.migAdd c) = some s1 ∧ s1.conns[c]? = some { x with pc := .mgHeld d } := by
  have hz : s.trs.countP Tr.counted = 0 := by
    rw [List.countP_eq_zero]
    intro r hr hc
    obtain ⟨k, hk⟩ := List.getElem?_of_mem hr
    refine hv k ⟨r, hk, ?_⟩
    unfold Tr.counted at hc
    cases hpc : r.pc <;> simp_all
  have hbusy : s.busy x.th = false := by
    unfold S.busy
    rw [List.any_eq_false]
    intro r hr hc
    have h1 := (List.countP_eq_zero.1 hz) r hr
    simp only [Bool.and_eq_true] at hc
    obtain ⟨cur, h2⟩ := visits_iff.1 hc.2
    simp [Tr.counted, h2] at h1
  have hw := (gate_low (gate_of h hb)).2 hz
  refine ⟨_, by
    unfold step
    rw [if_neg (by simp [hb])]
    simp only [stepA, migAdd, hx, hp, hbusy]
    rw [if_neg (by simp), if_neg hd], ?_⟩
  rw [if_pos hw]
  simp [S.setC, lt_of_get hx]

/-- **C65** The connections of a thread stand still while callbacks run there. -/
theorem C65_list_stable {s s1 : S} {k : Nat} {r : Tr} {cur : Option Nat} (hr : s.trs[k]? = some r) (hp : r.pc = .visiting cur)
    {a : Act} (hst : step s a = some s1) : s1.lists r.th = s.lists r.th :=
  lists_stable (step_eq hst).2 (busy_of hr hp)

/-- **C65** A traversal that enters its callbacks when the list of its thread is `l` calls them on one page of `l` in order
and returns the connection after the page, whatever other fibers and threads do meanwhile. Until it ends, the list stays. -/
theorem C65_page {s s1 : S} (h : Reachable Init step s) {k : Nat} {r : Tr} {cur : Option Nat} {l : List Nat}
    (hr : s.trs[k]? = some r) (hp : r.pc = .visiting cur) (hl : s.lists r.th = some l)
    (acts : List Act) (he : exec step s acts = some s1) :
    ∃ q, s1.trs[k]? = some q ∧
      (((∃ cur', q.pc = .visiting cur') ∧ s1.lists r.th = some l) ∨ ∃ ret, q.pc = .done ret ∧ (q.seen, ret) = page l r.frm r.limit) := by
  have sp : Span k l r.th r.frm r.limit s := ⟨r, hr, rfl, rfl, rfl, Or.inl ⟨visits_iff.2 ⟨cur, hp⟩, hl⟩⟩
  obtain ⟨q, hq, _, _, _, h1⟩ := span_run h sp acts he
  refine ⟨q, hq, ?_⟩
  rcases h1 with ⟨h1, h2⟩ | h1
  · exact Or.inl ⟨visits_iff.1 h1, h2⟩
  · exact Or.inr h1

/-- **C65** No list holds a connection twice, and no connection is in two lists. -/
theorem C65_lists {s : S} (h : Reachable Init step s) :
    (∀ t l, s.lists t = some l → l.Nodup) ∧ ∀ c t u, s.linked c t → s.linked c u → t = u := by
  have st := (inv_of h).t
  refine ⟨st.l.nd, fun c t u h1 h2 => ?_⟩
  obtain ⟨l, hl, hc⟩ := h1
  exact (linked_only st h2 hl).1 hc

/-- **C65** Until the lists are given up, a connection that was started, has not ended and is not between two lists is in the
list of its thread. -/
theorem C65_in_list {s : S} (h : Reachable Init step s) (hp : s.phase = .accepting ∨ s.phase = .stop1) {c : Nat} {x : Conn}
    (hx : s.conns[c]? = some x) (h1 : x.pc ≠ .queued) (h2 : x.pc ≠ .gone) (h3 : ∀ d, x.pc ≠ .transit d) : s.linked c x.th := by
  have st := (inv_of h).t
  rcases placed_of h hp c x hx with h4 | h4 | ⟨d, h4⟩ | h4
  · exact absurd h4 h1
  · exact absurd h4 h2
  · exact absurd h4 (h3 d)
  · have h5 := st.l.hk c x _ hx h4
    obtain ⟨l, hl⟩ := Option.isSome_iff_exists.1 h5
    exact ⟨l, hl, (st.l.mem _ l c hl).2 ⟨x, hx, h4⟩⟩

/-- **C65** Pages: the page that begins where the last one ended continues it. -/
theorem C65_pages {l : List Nat} (nd : l.Nodup) {frm : Option Nat} {a b c : Nat} (h : (page l frm a).2 = some c) :
    (page l frm (a + b)).1 = (page l frm a).1 ++ (page l (some c) b).1 ∧ (page l frm (a + b)).2 = (page l (some c) b).2 := by
  unfold page at h ⊢
  simp only at h ⊢
  have key : ∀ rest : List Nat, rest.Sublist l → (∃ pre, l = pre ++ rest) → rest[a]? = some c →
      rest.take (a + b) = rest.take a ++ (l.dropWhile fun x => decide (x ≠ c)).take b ∧
      rest[a + b]? = (l.dropWhile fun x => decide (x ≠ c))[b]? := by
    rintro rest _ ⟨pre, rfl⟩ hc
    have hsp : rest = rest.take a ++ c :: rest.drop (a + 1) := by
      have hlt := lt_of_get hc
      have e : rest[a] = c := by rw [List.getElem?_eq_getElem hlt] at hc; exact Option.some.inj hc
      rw [← e, ← List.drop_eq_getElem_cons hlt, List.take_append_drop]
    have hdw : (pre ++ rest).dropWhile (fun x => decide (x ≠ c)) = c :: rest.drop (a + 1) := by
      have e : pre ++ rest = (pre ++ rest.take a) ++ c :: rest.drop (a + 1) := by rw [List.append_assoc, ← hsp]
      rw [e] at nd ⊢
      rw [List.dropWhile_append_of_pos]
      · simp
      · intro x hx
        rw [decide_eq_true_eq]
        rintro rfl
        rw [List.nodup_append] at nd
        exact nd.2.2 _ hx _ (List.mem_cons_self ..) rfl
    have hd : c :: rest.drop (a + 1) = rest.drop a := by
      conv => rhs; rw [hsp]
      have hlt := lt_of_get hc
      rw [List.drop_append, List.length_take, Nat.min_eq_left (by omega)]
      simp
    rw [hdw, hd, List.getElem?_drop]
    exact ⟨List.take_add .., rfl⟩
  cases frm with
  | none => exact key l (List.Sublist.refl _) ⟨[], rfl⟩ h
  | some d =>
    exact key _ (List.dropWhile_sublist _) ⟨l.takeWhile fun x => decide (x ≠ d), (List.takeWhile_append_dropWhile ..).symm⟩ h

/-- **C65** Callbacks that run can always go on. -/
theorem C65_visit_goes_on {s : S} (hb : s.bad = none) {k : Nat} (hv : s.visiting k) : (step s (.trVisit k)).isSome = true := by
  obtain ⟨r, cur, hr, hp⟩ := hv
  unfold step
  rw [if_neg (by simp [hb])]
  simp only [stepA, trVisit, hr, hp]
  repeat' split
  all_goals rfl

/-- **C65** A traversal enters its callbacks as soon as no connection is at the gate. -/
theorem C65_enters {s : S} (h : Reachable Init step s) (hb : s.bad = none) (hd : s.phase ≠ .dead) {k : Nat} {r : Tr} {l : List Nat}
    (hr : s.trs[k]? = some r) (hp : r.pc = .waiting) (hl : s.lists r.th = some l) (hf : ∀ c, r.frm = some c → c ∈ l)
    (hy : s.busy r.th = false) (hg : ∀ (c : Nat) (x : Conn), s.conns[c]? = some x → ¬ x.atGate) :
    ∃ s1, step s (.trCheck k) = some s1 ∧ s1.visiting k ∧ s1.lists = s.lists := by
  have hz : s.conns.countP Conn.counted = 0 := by
    rw [List.countP_eq_zero]
    intro x hx hc
    obtain ⟨c, hk⟩ := List.getElem?_of_mem hx
    exact hg c x hk (gate_iff.2 hc)
  have hw := (gate_high (gate_of h hb)).2 hz
  have e : step s (.trCheck k) = enter s k r := by
    unfold step
    rw [if_neg (by simp [hb])]
    simp only [stepA, trCheck, hr, hp, hy]
    rw [if_neg (by simp), if_neg hd, if_pos hw]
  rw [e]
  unfold enter
  rw [hl]
  cases hfr : r.frm with
  | none => exact ⟨_, rfl, ⟨_, _, by simp [S.setT, lt_of_get hr]; rfl, rfl⟩, rfl⟩
  | some c =>
    simp only [hf c hfr, if_true]
    exact ⟨_, rfl, ⟨_, _, by simp [S.setT, lt_of_get hr]; rfl, rfl⟩, rfl⟩

/-- **C65** A connection at the gate goes on as soon as no callbacks run on its thread and on the one it goes to. -/
theorem C65_gate_goes_on {s : S} (hb : s.bad = none) {c : Nat} {x : Conn} (hx : s.conns[c]? = some x) (hg : x.atGate)
    (h1 : s.busy x.th = false) (h2 : ∀ d, x.pc = .transit d → s.busy d = false) :
    ∃ a ∈ [Act.migBack c, .migUnlink c, .migArrive c, .migRelease c], (step s a).isSome = true := by
  have e : ∀ a, step s a = stepA s a := fun a => by unfold step; rw [if_neg (by simp [hb])]
  rcases hg with (⟨d, hp⟩ | ⟨d, hp⟩ | hp) | ⟨d, hp⟩
  · refine ⟨.migUnlink c, by simp, ?_⟩
    rw [e]
    simp only [stepA, migUnlink, hx, hp, h1]
    rw [if_neg (by simp)]
    split <;> rfl
  · refine ⟨.migArrive c, by simp, ?_⟩
    rw [e]
    simp only [stepA, migArrive, hx, hp, h2 d hp]
    rw [if_neg (by simp)]
    split <;> rfl
  · refine ⟨.migRelease c, by simp, ?_⟩
    rw [e]
    simp only [stepA, migRelease, hx, hp, h1]
    rw [if_neg (by simp)]
    split <;> rfl
  · refine ⟨.migBack c, by simp, ?_⟩
    rw [e]
    simp only [stepA, migBack, hx, hp, h1]
    rw [if_neg (by simp)]
    split <;> rfl

/-- A connection on thread 0 that migrates to thread 1 with a traversal waiting for it. -/
def waitActs : List Act := [.accept 0, .pop 0, .accept 0, .pop 0, .migBegin 0 1, .migAdd 0, .callOne 0 5 none, .trAdd 0]
example : ∃ s, Reachable Init step s ∧ (s.bad.isNone && decide (s.trs = [Tr.mk 0 5 none .waiting []]) &&
    decide (s.conns[0]? = some (Conn.mk 0 (.mgHeld 1) (some 0) false))) = true :=
  reach_of (n := 2) (max := 9) (acts := waitActs) (by decide)
/-- The traversal afterwards: the page of the connection that stayed. -/
example : ∃ s, Reachable Init step s ∧ (s.bad.isNone && decide (s.trs = [Tr.mk 0 5 none (.done none) [1]])) = true :=
  reach_of (n := 2) (max := 9) (acts := waitActs ++ [.migUnlink 0, .migArrive 0, .migRelease 0, .trCheck 0, .trVisit 0, .trVisit 0])
    (by decide)
example : ∃ s, Reachable Init step s ∧ (s.bad.isNone && decide (s.trs = [Tr.mk 0 1 none (.visiting (some 1)) [0]])) = true :=
  reach_of (n := 2) (max := 9) (acts := [.accept 0, .pop 0, .accept 0, .pop 0, .callOne 0 1 none, .trAdd 0, .trVisit 0]) (by decide)
example : page [4, 7, 9] none 2 = ([4, 7], some 9) ∧ page [4, 7, 9] (some 9) 2 = ([9], none) := by decide

/-- **C65** is not a promise of progress: a traversal and a migration can hold each other up for any number of rounds, the
traversal seeing the attempt of the migration and the migration seeing the traversal. -/
theorem C65_livelock (n : Nat) : ∃ acts s, exec step (S.init 2 9) acts = some s ∧ s.trs.map Tr.pc = [.waiting] ∧
    (acts.countP fun a => decide (a = .trCheck 0)) = n ∧ (acts.countP fun a => decide (a = .migAdd 1)) = n + 1 := by
  let pre : List Act := waitActs ++ [.migBegin 1 1, .migAdd 1, .migUnlink 0, .migArrive 0, .migRelease 0]
  let P : S → Bool := fun s => s.bad.isNone && decide (s.trs = [Tr.mk 0 5 none .waiting []]) &&
    decide (s.conns[1]? = some (Conn.mk 0 (.mgBack 1) (some 0) false)) && decide (s.word = 2 ^ 32 + 1) && decide (s.phase = .accepting)
  have h0 : (exec step (S.init 2 9) pre).map P = some true := by decide
  obtain ⟨s0, he, hP⟩ : ∃ s0, exec step (S.init 2 9) pre = some s0 ∧ P s0 = true := by
    cases he : exec step (S.init 2 9) pre with
    | none => rw [he] at h0; cases h0
    | some s => rw [he] at h0; simp only [Option.map_some, Option.some.injEq] at h0; exact ⟨s, rfl, h0⟩
  have round : ∀ s, P s = true → ∃ s', exec step s [.trCheck 0, .migBack 1, .migAdd 1] = some s' ∧ P s' = true := by
    intro s hs
    simp only [P, Bool.and_eq_true, decide_eq_true_eq] at hs
    obtain ⟨⟨⟨⟨h1, h2⟩, h3⟩, h4⟩, h5⟩ := hs
    have hb : s.bad = none := by simpa using h1
    have hlt := lt_of_get h3
    have busy : ∀ t, s.busy t = false := fun t => by simp [S.busy, h2, Tr.visits]
    have e1 : step s (.trCheck 0) = some s := by
      simp [step, hb, stepA, trCheck, h2, h5, h4, busy]
    have e2 : step s (.migBack 1) = some { s.setC 1 ⟨0, .mgTry 1, some 0, false⟩ with word := 1 } := by
      simp [step, hb, stepA, migBack, h3, h5, h4, busy, sub64, kMigrateVal]
    have e3 : step { s.setC 1 ⟨0, .mgTry 1, some 0, false⟩ with word := 1 } (.migAdd 1) =
        some { s.setC 1 ⟨0, .mgBack 1, some 0, false⟩ with word := 2 ^ 32 + 1 } := by
      have busy' : ∀ t, S.busy { s.setC 1 ⟨0, .mgTry 1, some 0, false⟩ with word := 1 } t = false := fun t => by
        simp [S.busy, S.setC, h2, Tr.visits]
      simp [step, S.setC, hb, stepA, migAdd, h5, add64, kMigrateVal, hlt, S.busy, h2, Tr.visits]
    refine ⟨{ s.setC 1 ⟨0, .mgBack 1, some 0, false⟩ with word := 2 ^ 32 + 1 }, ?_, ?_⟩
    · simp only [exec, e1, e2, e3]
    · simp [P, S.setC, hb, h2, h5, hlt]
  have many : ∀ n, ∃ acts s, exec step s0 acts = some s ∧ P s = true ∧
      (acts.countP fun a => decide (a = .trCheck 0)) = n ∧ (acts.countP fun a => decide (a = .migAdd 1)) = n := by
    intro n
    induction n with
    | zero => exact ⟨[], s0, rfl, hP, rfl, rfl⟩
    | succ n ih =>
      obtain ⟨acts, s, h1, h2, h3, h4⟩ := ih
      obtain ⟨s', h5, h6⟩ := round s h2
      refine ⟨acts ++ [.trCheck 0, .migBack 1, .migAdd 1], s', by rw [exec_append, h1]; exact h5, h6, ?_, ?_⟩
      · rw [List.countP_append, h3]; rfl
      · rw [List.countP_append, h4]; rfl
  obtain ⟨acts, s, h1, h2, h3, h4⟩ := many n
  refine ⟨pre ++ acts, s, by rw [exec_append, he]; exact h1, ?_, ?_, ?_⟩
  · simp only [P, Bool.and_eq_true, decide_eq_true_eq] at h2
    rw [h2.1.1.1.2]; rfl
  · rw [List.countP_append, h3]
    have : (pre.countP fun a => decide (a = .trCheck 0)) = 0 := by decide
    omega
  · rw [List.countP_append, h4]
    have : (pre.countP fun a => decide (a = .migAdd 1)) = 1 := by decide
    omega

/-! ## C66: a traversal of all connections -/

/-- **C66** (for connections that stay on their thread during the call) After `TraverseConnections` the callback was called
on such a connection exactly once: once by the traversal of its thread and never by the others. Missing: connections that
migrate during the call, for which it is false (see below). -/
theorem C66_once_partial {s0 s1 s2 : S} (h0 : Reachable Init step s0) (hc : step s0 .callAll = some s1) {c t : Nat}
    (hr : Reach (fun s => s = s1) step (fun s => s.linked c t) s2) {u : Nat} (hu : u < s0.n) {r : Tr} {ret : Option Nat}
    (hk : s2.trs[s0.trs.length + u]? = some r) (hd : r.pc = .done ret) : r.seen.count c = if u = t then 1 else 0 := by
  obtain ⟨r', hr', _, _, _, h1⟩ := once_run h0 hc hr hu
  rw [hk] at hr'
  cases hr'
  exact h1 ret hd

/-- **C66** The call has one traversal for every thread. -/
theorem C66_all_threads {s0 s1 : S} (hc : step s0 .callAll = some s1) {u : Nat} (hu : u < s0.n) :
    s1.trs[s0.trs.length + u]? = some ⟨u, 2 ^ 32 - 1, none, .idle, []⟩ := by
  obtain ⟨_, hc⟩ := step_eq hc
  simp only [stepA, callAll] at hc
  split at hc
  · cases hc
  · cases hc
    simp only
    rw [List.getElem?_append_right (by omega)]
    simp [hu]

/-- Both traversals of a call ended, one of them on connection 0. -/
example : ∃ s, Reachable Init step s ∧
    (decide (s.trs = [Tr.mk 0 (2 ^ 32 - 1) none (.done none) [0], Tr.mk 1 (2 ^ 32 - 1) none (.done none) []])) = true :=
  reach_of (n := 2) (max := 9) (acts := [.accept 0, .pop 0, .callAll, .trAdd 0, .trVisit 0, .trAdd 1, .trVisit 0, .trVisit 1]) (by decide)

/-- **C66** fails for a connection that migrates during the call: it was open all the time, all traversals have ended, and
no callback was called on it. -/
theorem C66_missed : ∃ s, Reachable Init step s ∧ (s.bad.isNone &&
    decide (s.conns = [Conn.mk 0 .running (some 0) false]) &&
    decide (s.trs = [Tr.mk 0 (2 ^ 32 - 1) none (.done none) [], Tr.mk 1 (2 ^ 32 - 1) none (.done none) []])) = true :=
  reach_of (n := 2) (max := 9)
    (acts := [.accept 1, .pop 1, .callAll, .trAdd 0, .trVisit 0, .migBegin 0 0, .migAdd 0, .migUnlink 0, .migArrive 0, .migRelease 0,
      .trAdd 1, .trVisit 1]) (by decide)

/-- **C66** fails in the other direction too: the callback is called twice on a connection that migrates. -/
theorem C66_twice : ∃ s, Reachable Init step s ∧ (s.bad.isNone &&
    decide (s.trs = [Tr.mk 0 (2 ^ 32 - 1) none (.done none) [0], Tr.mk 1 (2 ^ 32 - 1) none (.done none) [0]])) = true :=
  reach_of (n := 2) (max := 9)
    (acts := [.accept 1, .pop 1, .callAll, .trAdd 1, .trVisit 1, .trVisit 1, .migBegin 0 0, .migAdd 0, .migUnlink 0, .migArrive 0,
      .migRelease 0, .trAdd 0, .trVisit 0, .trVisit 0]) (by decide)

/-! ## C67: shutdown

`calmStep` are the runs in which no migration is under way when the shutdown begins and none begins later, no traversal
waits at that moment, traversals start from connections of the list and have ended when the listener is destroyed. -/

/-- **C67** In these runs nothing bad happens. -/
theorem C67_safe_partial {s : S} (h : Reachable Init calmStep s) : s.bad = none := (k_of h).bad

/-- In which list a connection is during the shutdown. -/
theorem K.linked {s : S} (k : K s) (st : Str s) {c : Nat} {x : Conn} (hx : s.conns[c]? = some x) (hn : s.phase ≠ .accepting)
    (hq : x.pc ≠ .queued) (hg : x.pc ≠ .gone) : ∃ l, s.lists x.th = some l ∧ c ∈ l := by
  have hm := k.mig hn c x hx
  have hk := k.link c x hx hq hg (fun d hd => by simp [Conn.migrating, hd] at hm)
  obtain ⟨l, hl⟩ := Option.isSome_iff_exists.1 (st.l.hk c x _ hx hk)
  exact ⟨l, hl, (st.l.mem _ l c hl).2 ⟨x, hx, hk⟩⟩

theorem no_queued {s : S} (st : Str s) {c : Nat} {x : Conn} (hx : s.conns[c]? = some x) (hp : s.phase ≠ .accepting) (hp1 : s.phase ≠ .stop1) :
    x.pc ≠ .queued := by
  intro hq
  have h1 := st.q2 c x hx hq
  have sh := st.sh x.th (st.c c x hx).th
  unfold Shape at sh
  cases hph : s.phase <;> rw [hph] at sh
  · exact hp hph
  · exact hp1 hph
  · rcases sh with ⟨_, ⟨_, h2⟩ | ⟨_, h2⟩⟩ | ⟨_, _, h2⟩ <;> rw [h2] at h1 <;> simp [qc, Item.c?] at h1
  · rw [sh.2.2] at h1; simp [qc] at h1
  · rw [sh.2.2] at h1; simp [qc] at h1

/-- **C67** When the listener begins to wait for the end of its connections, every connection that has not ended was told to
shut down. -/
theorem C67_told_partial {s : S} (h : Reachable Init calmStep s) (hp : s.phase = .stop2) {c : Nat} {x : Conn}
    (hx : s.conns[c]? = some x) (hg : x.pc ≠ .gone) : x.shut = true := by
  have k := k_of h
  have st := (inv_of (calm_reach h)).t
  have hn : s.phase ≠ .accepting := by rw [hp]; simp
  obtain ⟨l, hl, hc⟩ := k.linked st hx hn (no_queued st hx hn (by rw [hp]; simp)) hg
  have sh := st.sh x.th (st.c c x hx).th
  have sd := k.sd x.th l hl
  unfold Shape at sh
  rw [hp, hl] at sh
  simp only [Option.isSome_some, true_and] at sh
  have ht : told s c := by
    rcases sh with (⟨h1, _⟩ | ⟨h1, _⟩) | ⟨h1, _⟩
    · rw [h1] at sd; exact sd c hc
    · rw [h1] at sd; exact sd c hc
    · cases h1
  obtain ⟨z, hz, h1⟩ := ht
  rw [hx] at hz
  cases hz
  exact h1

/-- **C67** After the shutdown no connection is left: all have ended, each was started and closed, and the counter is 0. -/
theorem C67_all_ended_partial {s : S} (h : Reachable Init calmStep s) (hp : s.phase = .stopped ∨ s.phase = .dead) :
    s.opn = 0 ∧ ∀ (c : Nat) (x : Conn), s.conns[c]? = some x → x.pc = .gone ∧ ∃ t, Before s.log (.start c t) (.close c) := by
  have k := k_of h
  have hr := calm_reach h
  have st := (inv_of hr).t
  have hn : s.phase ≠ .accepting := by rcases hp with hp | hp <;> rw [hp] <;> simp
  have hn1 : s.phase ≠ .stop1 := by rcases hp with hp | hp <;> rw [hp] <;> simp
  have gone : ∀ (c : Nat) (x : Conn), s.conns[c]? = some x → x.pc = .gone := by
    intro c x hx
    refine Classical.byContradiction fun hg => ?_
    obtain ⟨l, hl, hc⟩ := k.linked st hx hn (no_queued st hx hn hn1) hg
    have sh := st.sh x.th (st.c c x hx).th
    unfold Shape at sh
    rcases hp with hp | hp <;> rw [hp, hl] at sh <;> cases sh.1
  refine ⟨?_, fun c x hx => ⟨gone c x hx, ?_⟩⟩
  · rw [C64_counter hr k.bad, S.open, List.countP_eq_zero]
    intro x hx
    obtain ⟨c, hc⟩ := List.getElem?_of_mem hx
    simp [gone c x hc]
  · exact (C64_close_once hr c).2.1 ((C64_close_once hr c).2.2 x hx (gone c x hx))

theorem sdGo_some {s : S} (st : Str s) {t : Nat} {l : List Nat} (hl : s.lists t = some l) {i : Option Nat}
    (hi : ∀ c, i = some c → c ∈ l) (s0 : S) (h0 : s0.conns = s.conns) : (sdGo s0 t i).isSome = true := by
  unfold sdGo
  cases i with
  | none => rfl
  | some c =>
    obtain ⟨x, hx, _⟩ := (st.l.mem t l c hl).1 (hi c rfl)
    simp [h0, hx]

/-- **C67** The shutdown waits only for connections that it told to shut down: if no callbacks run, one of its steps is
possible, or some connection that was told to shut down has not ended yet. -/
theorem C67_progress_partial {s : S} (h : Reachable Init calmStep s) (hp : s.phase = .stop1 ∨ s.phase = .stop2)
    (hv : ∀ t, s.busy t = false) :
    (∃ t, (step s (.pop t)).isSome = true ∨ (step s (.sdNext t)).isSome = true ∨ (step s (.emptied t)).isSome = true) ∨
    (step s .stop2).isSome = true ∨ (step s .post).isSome = true ∨
    ∃ (c : Nat) (x : Conn), s.conns[c]? = some x ∧ x.shut = true ∧ (x.pc = .running ∨ x.pc = .closing) := by
  have k := k_of h
  have st := (inv_of (calm_reach h)).t
  have e : ∀ a, step s a = stepA s a := fun a => by unfold step; rw [if_neg (by simp [k.bad])]
  have pops : ∀ t, t < s.n → s.queue t ≠ [] → (s.lists t).isSome = true → (step s (.pop t)).isSome = true := by
    intro t ht hq hl
    obtain ⟨l, hl⟩ := Option.isSome_iff_exists.1 hl
    rw [e]
    simp only [stepA, pop, if_pos ht, hv t, hl]
    rw [if_neg (by simp)]
    split
    · rename_i hq'; exact absurd hq' hq
    · rename_i c q hq'
      obtain ⟨x, hx, _⟩ := st.q1 t c (by rw [hq']; simp [mem_qc])
      simp [hx]
    · exact sdGo_some st hl (fun c hc => head_mem hc) _ rfl
    · rfl
  rcases hp with hp | hp
  · by_cases hall : ∀ t, t < s.n → s.sd t = .cleaned
    · refine Or.inr (Or.inl ?_)
      rw [e]
      simp only [stepA, stop2]
      rw [if_pos ⟨hp, by simpa using hall⟩]
      rfl
    · left
      have : ∃ t, t < s.n ∧ s.sd t ≠ .cleaned := by
        refine Classical.byContradiction fun hn => hall fun t ht => Classical.byContradiction fun h1 => hn ⟨t, ht, h1⟩
      obtain ⟨t, ht, hsd⟩ := this
      refine ⟨t, ?_⟩
      have sh := st.sh t ht
      unfold Shape at sh
      rw [hp] at sh
      obtain ⟨hl, ⟨_, cs, hq⟩ | ⟨_, h1 | ⟨c, h1⟩⟩⟩ := sh
      · exact Or.inl (pops t ht (by rw [hq]; simp) hl)
      · exact absurd h1 hsd
      · refine Or.inr (Or.inl ?_)
        obtain ⟨l, hl⟩ := Option.isSome_iff_exists.1 hl
        obtain ⟨x, hx⟩ := st.sd t c h1
        rw [e]
        simp only [stepA, sdNext, hv t, h1, hx, hl]
        rw [if_neg (by simp)]
        split
        · exact sdGo_some st hl (fun c hc => head_mem hc) _ rfl
        · split
          · exact sdGo_some st hl (fun c hc => after_mem hc) _ rfl
          · rfl
  · by_cases hall : ∀ t, t < s.n → s.sd t = .freed
    · refine Or.inr (Or.inr (Or.inl ?_))
      rw [e]
      simp only [stepA, post]
      rw [if_pos ⟨hp, by simpa using hall⟩]
      rfl
    · have : ∃ t, t < s.n ∧ s.sd t ≠ .freed := by
        refine Classical.byContradiction fun hn => hall fun t ht => Classical.byContradiction fun h1 => hn ⟨t, ht, h1⟩
      obtain ⟨t, ht, hsd⟩ := this
      have sh := st.sh t ht
      unfold Shape at sh
      rw [hp] at sh
      rcases sh with ⟨hl, ⟨_, hq⟩ | ⟨h1, _⟩⟩ | ⟨_, h1, _⟩
      · exact Or.inl ⟨t, Or.inl (pops t ht (by rw [hq]; simp) hl)⟩
      · obtain ⟨l, hl⟩ := Option.isSome_iff_exists.1 hl
        cases l with
        | nil =>
          refine Or.inl ⟨t, Or.inr (Or.inr ?_)⟩
          rw [e]
          simp only [stepA, emptied, hv t]
          rw [if_neg (by simp), if_pos ⟨h1, hl⟩]
          rfl
        | cons c l =>
          refine Or.inr (Or.inr (Or.inr ?_))
          obtain ⟨x, hx, hh⟩ := (st.l.mem t _ c hl).1 (by simp)
          have hk := (st.c c x hx).hook t hh
          refine ⟨c, x, hx, C67_told_partial h hp hx hk.2.2.1, ?_⟩
          have hm := k.mig (by rw [hp]; simp) c x hx
          unfold Conn.migrating at hm
          cases hpc : x.pc <;> simp_all
      · exact absurd h1 hsd

/-- **C67** In all runs, with migrations at any time: a connection always finds the list of its thread when it starts and
when it ends, and so do the shutdown tasks. -/
theorem C67_list_found {s : S} (h : Reachable Init step s) : s.bad ≠ some .noList ∧ s.bad ≠ some .notFound := fine_of h

/-- A shutdown of two threads with two connections, from the begin to the destruction. -/
example : ∃ s, Reachable Init calmStep s ∧ (decide (s.phase = .dead) &&
    decide (s.log = [.start 0 0, .start 1 1, .pre, .close 0, .close 1, .post]) && decide (s.conns.length = 2)) = true :=
  calm_of (n := 2) (max := 9)
    (acts := [.accept 0, .pop 0, .accept 1, .pop 1, .stop, .pop 0, .sdNext 0, .pop 1, .finish 0, .finish 1, .close 1, .sdNext 1, .stop2,
      .pop 0, .pop 1, .emptied 1, .close 0, .emptied 0, .post, .destroy]) (by decide)
example : ∃ s, Reachable Init calmStep s ∧ (decide (s.phase = .stop2) &&
    decide (s.conns[0]? = some (Conn.mk 0 .running (some 0) true))) = true :=
  calm_of (n := 1) (max := 9) (acts := [.accept 0, .pop 0, .stop, .pop 0, .sdNext 0, .stop2, .pop 0]) (by decide)

/-- A connection that is between thread 0 and thread 1 when the threads shut their connections down. -/
def lostActs : List Act := [.accept 0, .pop 0, .migBegin 0 1, .migAdd 0, .migUnlink 0, .stop, .pop 0, .pop 1, .stop2, .pop 0, .pop 1]

/-- **C67** fails with migrations: a connection that arrives after the shutdown loop of its new thread is never told to shut
down, and the shutdown waits for it. -/
theorem C67_never_told : ∃ s, Reachable Init step s ∧ (s.bad.isNone && decide (s.phase = .stop2) &&
    decide (s.conns = [Conn.mk 1 .running (some 1) false]) && decide (s.sd 0 = .freed) && decide (s.sd 1 = .awaiting)) = true :=
  reach_of (n := 2) (max := 9) (acts := lostActs ++ [.emptied 0, .migArrive 0, .migRelease 0]) (by decide)

/-- **C67** fails with migrations: the listener has shut down although a connection still runs. -/
theorem C67_survives : ∃ s, Reachable Init step s ∧ (s.bad.isNone && decide (s.phase = .stopped) && decide (s.opn = 1) &&
    decide (s.conns = [Conn.mk 1 .running none false])) = true :=
  reach_of (n := 2) (max := 9) (acts := lostActs ++ [.emptied 0, .emptied 1, .post, .migArrive 0, .migRelease 0]) (by decide)

/-- **C67** fails with migrations: such a connection uses the listener after its destruction. -/
theorem C67_use_after_free : ∃ s, Reachable Init step s ∧ decide (s.bad = some .dead) = true :=
  reach_of (n := 2) (max := 9)
    (acts := lostActs ++ [.emptied 0, .emptied 1, .post, .migArrive 0, .migRelease 0, .destroy, .finish 0]) (by decide)

/-- **C67** fails with migrations: such a connection is not in a list when it migrates again. -/
theorem C67_unlinked_again : ∃ s, Reachable Init step s ∧ decide (s.bad = some .unlinked) = true :=
  reach_of (n := 2) (max := 9)
    (acts := lostActs ++ [.emptied 0, .emptied 1, .migArrive 0, .migRelease 0, .migBegin 0 0, .migAdd 0, .migUnlink 0]) (by decide)

/-- **C67** fails with migrations: a connection migrates while the shutdown loop is inside its `Shutdown`; the loop goes on in
the list of the other thread. -/
theorem C67_foreign_list : ∃ s, Reachable Init step s ∧ decide (s.bad = some .foreign) = true :=
  reach_of (n := 2) (max := 9)
    (acts := [.accept 0, .pop 0, .stop, .pop 0, .migBegin 0 1, .migAdd 0, .migUnlink 0, .migArrive 0, .migRelease 0, .sdNext 0])
    (by decide)

/-- **C67** fails with migrations: a traversal that waits for a migration uses the list of its thread after it was deleted. -/
theorem C67_list_freed : ∃ s, Reachable Init step s ∧ decide (s.bad = some .listFreed) = true :=
  reach_of (n := 2) (max := 9)
    (acts := [.accept 0, .pop 0, .migBegin 0 1, .migAdd 0, .migUnlink 0, .callOne 0 5 none, .trAdd 0, .stop, .pop 0, .pop 1, .stop2,
      .pop 0, .emptied 0, .migArrive 0, .migRelease 0, .trCheck 0]) (by decide)

end Verif.Listener
