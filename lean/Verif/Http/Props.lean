import Verif.Http.Spec
import Mathlib.Data.List.Nodup
/-!
C74: the HTTP client sends a request once and returns its response. C75: the pool of clients. C76: the sender with retries.
-/
namespace Verif.Http
open Verif.Common

/-! ### The client -/

/-- What holds of a connection between calls if there is one try. -/
def Sync (c : Conn) : Prop := c.part = false ∧ (c.isOpen = true → c.pos = c.wire.length)

theorem sendRecv_one {x : Call} {c : Conn} (hx : x.noLimit) (hc : Sync c) :
    ((sendRecv 1 x.req x.w x.r c).1 = .resp x.req ∨ (sendRecv 1 x.req x.w x.r c).1 = .err .io) ∧ Sync (sendRecv 1 x.req x.w x.r c).2 ∧
    ((sendRecv 1 x.req x.w x.r c).2.wire = c.wire ∨ (sendRecv 1 x.req x.w x.r c).2.wire = c.wire ++ [x.req]) := by
  obtain ⟨req, w, r⟩ := x
  obtain ⟨wire, pos, part, op⟩ := c
  obtain ⟨hw, hr⟩ := hx
  obtain ⟨hp, ho⟩ := hc
  simp only at hp
  subst hp
  cases op with
  | false =>
    simp [sendRecv, sendRecvLoop, send1, sendLoop, handle, Sync]
  | true =>
    have hpos : pos = wire.length := ho rfl
    subst hpos
    have hwo : w.headD .ok = .ok ∨ w.headD .ok = .io := by
      cases w with
      | nil => exact Or.inl rfl
      | cons a w => cases a <;> simp_all
    have hro : r.headD .ok = .ok ∨ r.headD .ok = .io := by
      cases r with
      | nil => exact Or.inl rfl
      | cons a r => cases a <;> simp_all
    rcases hwo with hwo | hwo
    · rcases hro with hro | hro <;>
        simp [sendRecv, sendRecvLoop, send1, sendLoop, handle, Sync, hwo, hro, nextResp, -List.headD_eq_head?_getD]
    · simp [sendRecv, sendRecvLoop, send1, sendLoop, handle, Sync, hwo, -List.headD_eq_head?_getD]

theorem calls_one : ∀ (xs : List Call) (c : Conn), (∀ x ∈ xs, x.noLimit) → Sync c →
    (∀ (k : Nat) (x : Call) (a : Res), xs[k]? = some x → (calls 1 xs c).1[k]? = some a → a = .resp x.req ∨ a = .err .io) ∧
    ∃ l, (calls 1 xs c).2.wire = c.wire ++ l ∧ l.Sublist (xs.map Call.req)
  | [], c, _, _ => ⟨fun k x a h => by simp at h, [], by simp [calls], List.Sublist.refl _⟩
  | x :: xs, c, hx, hc => by
    obtain ⟨h1, h2, h3⟩ := sendRecv_one (hx x (List.mem_cons_self ..)) hc
    obtain ⟨h4, l, h5, h6⟩ := calls_one xs (sendRecv 1 x.req x.w x.r c).2 (fun y hy => hx y (List.mem_cons_of_mem _ hy)) h2
    refine ⟨fun k y a hy ha => ?_, ?_⟩
    · cases k with
      | zero =>
        cases hy
        cases ha
        exact h1
      | succ k => exact h4 k y a hy ha
    · rcases h3 with h3 | h3
      · exact ⟨l, by show (calls 1 xs _).2.wire = _; rw [h5, h3], h6.cons _⟩
      · exact ⟨x.req :: l, by show (calls 1 xs _).2.wire = _; rw [h5, h3, List.append_assoc]; rfl, h6.cons_cons _⟩

/-- C74, the response is that to the request: with one try, which is the default, and unless a read was given up for its size, each
call on a client returns the response to its own request or an I/O error, whatever happened before. -/
theorem C74_own_response_partial (xs : List Call) (h : ∀ x ∈ xs, x.noLimit) (k : Nat) (x : Call) (a : Res) (hx : xs[k]? = some x)
    (ha : (calls 1 xs Conn.new).1[k]? = some a) : a = .resp x.req ∨ a = .err .io :=
  (calls_one xs Conn.new h ⟨rfl, fun _ => rfl⟩).1 k x a hx ha

/-- C74, a request is written at most once and in order, with one try. -/
theorem C74_once_partial (xs : List Call) (h : ∀ x ∈ xs, x.noLimit) :
    (calls 1 xs Conn.new).2.wire.Sublist (xs.map Call.req) := by
  obtain ⟨l, h1, h2⟩ := (calls_one xs Conn.new h ⟨rfl, fun _ => rfl⟩).2
  rw [h1]
  exact h2

theorem sendLoop_fine (req : Nat) : ∀ (k : Nat) (wire : List Nat) (pos : Nat),
    sendLoop req k [] .ok ⟨wire, pos, false, true⟩ = (.ok, [], ⟨wire ++ List.replicate k req, pos, false, true⟩)
  | 0, wire, pos => by simp [sendLoop]
  | k + 1, wire, pos => by
    have := sendLoop_fine req k (wire ++ [req]) pos
    simp only [sendLoop, if_true, List.headD_nil, List.tail_nil, reduceCtorEq, if_false]
    rw [this, List.append_assoc]
    rfl

theorem calls_fine (n : Nat) (hn : 0 < n) : ∀ (ys : List Nat) (wire : List Nat) (pos : Nat), pos ≤ wire.length →
    calls n (ys.map Call.fine) ⟨wire, pos, false, true⟩ =
      ((((wire ++ ys.flatMap (List.replicate n)).drop pos).take ys.length).map .resp,
        ⟨wire ++ ys.flatMap (List.replicate n), pos + ys.length, false, true⟩)
  | [], wire, pos, _ => by simp [calls]
  | y :: ys, wire, pos, h => by
    have hlt : pos < (wire ++ List.replicate n y).length := by simp; omega
    have hs : sendRecv n y [] [] ⟨wire, pos, false, true⟩ =
        (.resp (wire ++ List.replicate n y)[pos], ⟨wire ++ List.replicate n y, pos + 1, false, true⟩) := by
      obtain ⟨m, rfl⟩ : ∃ m, n = m + 1 := ⟨n - 1, by omega⟩
      unfold sendRecv sendRecvLoop send1
      rw [sendLoop_fine]
      simp [handle, nextResp, List.getElem?_eq_getElem hlt]
    have hrec := calls_fine n hn ys (wire ++ List.replicate n y) (pos + 1) (by omega)
    rw [List.map_cons]
    unfold calls
    simp only [Call.fine] at hrec ⊢
    rw [hs, hrec]
    have hd : (wire ++ List.flatMap (List.replicate n) (y :: ys)).drop pos =
        (wire ++ List.replicate n y)[pos] :: ((wire ++ List.replicate n y) ++ ys.flatMap (List.replicate n)).drop (pos + 1) := by
      rw [List.flatMap_cons, ← List.append_assoc, List.drop_eq_getElem_cons (by rw [List.length_append]; omega),
        List.getElem_append_left hlt]
    rw [hd]
    simp [List.flatMap_cons, List.append_assoc]
    omega

/-- C74 is false with more than one try: though nothing fails, a client that may try `n` times writes each request `n` times, and the
calls return, one after another, the responses to the requests as they were written. -/
theorem C74_copies (n : Nat) (hn : 0 < n) (reqs : List Nat) :
    (calls n (reqs.map Call.fine) Conn.new).2.wire = reqs.flatMap (List.replicate n) ∧
    (calls n (reqs.map Call.fine) Conn.new).1 = ((reqs.flatMap (List.replicate n)).take reqs.length).map .resp := by
  rw [Conn.new, calls_fine n hn reqs [] 0 (Nat.zero_le _)]
  simp

/-- C74, so the second call returns the response to the first request. -/
theorem C74_stale (n : Nat) (hn : 2 ≤ n) (a b : Nat) :
    (calls n [Call.fine a, Call.fine b] Conn.new).1 = [.resp a, .resp a] := by
  obtain ⟨m, rfl⟩ : ∃ m, n = m + 2 := ⟨n - 2, by omega⟩
  have := (C74_copies (m + 2) (by omega) [a, b]).2
  simpa [List.replicate_succ] using this

/-- C74, there is no retry: if the first write fails, the call fails and the connection is closed, whatever the number of tries. -/
theorem C74_no_retry (n : Nat) (req : Nat) (w r : List Out) (c : Conn) (hc : c.isOpen = true) :
    sendRecv (n + 1) req (.io :: w) r c = (.err .io, { c with isOpen := false }) := by
  simp [sendRecv, sendRecvLoop, send1, sendLoop, handle, hc]

/-- C74, with no tries a call does nothing and reports no error. -/
theorem C74_zero (req : Nat) (w r : List Out) (c : Conn) : sendRecv 0 req w r c = (.nothing, c) := by
  simp [sendRecv, sendRecvLoop, handle]

/-- C74, after a read was given up for its size the connection stays in use, and the next call takes the rest for its response. -/
theorem C74_rest_taken : (calls 1 [⟨1, [], [.limit]⟩, Call.fine 2] Conn.new).1 = [.err .limit, .junk] := by decide

/-- C74, `Reconnect` of an encrypted client gives a connection without encryption. -/
theorem C74_reconnect_plain : tlsConnect .none true = .tls ∧ reconnect (tlsConnect .none true) = .plain := ⟨rfl, rfl⟩

example : (calls 1 [⟨1, [], []⟩, ⟨2, [], []⟩, ⟨3, [.io], []⟩, ⟨4, [], []⟩] Conn.new).1 = [.resp 1, .resp 2, .err .io, .err .io] := by decide

/-! ### The pool -/

theorem pull_spec (conn : Nat → Bool) : ∀ l : List Nat,
    l = (pull conn l).1 ++ (pull conn l).2.1.toList ++ (pull conn l).2.2 ∧ (∀ c ∈ (pull conn l).1, conn c = false) ∧
    (∀ c, (pull conn l).2.1 = some c → conn c = true) ∧ ((pull conn l).2.1 = none → (pull conn l).2.2 = [])
  | [] => ⟨rfl, by simp [pull], by simp [pull], fun _ => rfl⟩
  | c :: cs => by
    unfold pull
    by_cases hc : conn c = true
    · simp [hc]
    · obtain ⟨h1, h2, h3, h4⟩ := pull_spec conn cs
      rw [if_neg hc]
      refine ⟨?_, ?_, h3, h4⟩
      · show c :: cs = (c :: (pull conn cs).1) ++ _ ++ _
        rw [List.cons_append, List.cons_append, ← h1]
      · intro d hd
        rcases List.mem_cons.1 hd with rfl | hd
        · simpa using hc
        · exact h2 d hd

theorem pull_all (conn : Nat → Bool) {l : List Nat} (h : ∀ c ∈ l, conn c = true) :
    pull conn l = ([], l.head?, l.tail) := by
  cases l with
  | nil => rfl
  | cons c cs => simp [pull, h c (List.mem_cons_self ..)]

structure PI (s : Pl) : Prop where
  perm : (s.avail ++ s.held ++ s.dead).Perm (List.range s.made)
  cnt : s.avail.length + s.held.length ≤ s.existing
  eq : s.misuse = false → s.existing = s.avail.length + s.held.length
  live : s.misuse = false → ∀ c ∈ s.avail, s.conn c = true
  bad : s.bad = false

theorem PI.lt {s : Pl} (h : PI s) {c : Nat} (hc : c ∈ s.avail ++ s.held ++ s.dead) : c < s.made :=
  List.mem_range.1 (h.perm.mem_iff.1 hc)

theorem PI.nodup {s : Pl} (h : PI s) : (s.avail ++ s.held ++ s.dead).Nodup := h.perm.nodup_iff.2 List.nodup_range

theorem PI.disj {s : Pl} (h : PI s) {c : Nat} (h1 : c ∈ s.avail) : c ∉ s.held := by
  have := h.nodup
  rw [List.append_assoc, List.nodup_append] at this
  exact fun h2 => this.2.2 c h1 c (List.mem_append_left _ h2) rfl

theorem pi_step {s s' : Pl} {a : PAct} (h : PI s) (hs : pstep s a = some s') : PI s' := by
  cases a with
  | get =>
    obtain ⟨h1, _, h3, h4⟩ := pull_spec s.conn s.avail
    have hlen := congrArg List.length h1
    simp only [List.length_append] at hlen
    simp only [pstep] at hs
    split at hs
    · rename_i c hc
      rw [hc] at hlen h1
      simp only [Option.toList_some, List.length_singleton] at hlen
      simp only [Option.toList_some] at h1
      cases hs
      refine ⟨?_, ?_, fun hm => ?_, fun hm d hd => h.live hm d (by rw [h1]; simp [hd]), h.bad⟩
      · show ((pull s.conn s.avail).2.2 ++ (s.held ++ [c]) ++ (s.dead ++ (pull s.conn s.avail).1)).Perm (List.range s.made)
        refine List.Perm.trans ?_ h.perm
        rw [List.perm_iff_count]
        intro x
        have := congrArg (List.count x) h1
        simp only [List.count_append] at this ⊢
        omega
      · show (pull s.conn s.avail).2.2.length + (s.held ++ [c]).length ≤ s.existing
        have := h.cnt
        rw [List.length_append, List.length_singleton]
        omega
      · show s.existing = (pull s.conn s.avail).2.2.length + (s.held ++ [c]).length
        rw [pull_all s.conn (h.live hm)] at hlen ⊢
        have := h.eq hm
        rw [List.length_append, List.length_singleton]
        simp only [List.length_nil] at hlen ⊢
        omega
    · rename_i hc
      have h5 := h4 hc
      rw [hc, h5] at hlen h1
      simp only [Option.toList_none, List.append_nil] at h1
      simp only [Option.toList_none, List.length_nil] at hlen
      cases hs
      refine ⟨?_, ?_, fun hm => ?_, fun hm d hd => ?_, h.bad⟩
      · show ((pull s.conn s.avail).2.2 ++ s.held ++ (s.dead ++ (pull s.conn s.avail).1)).Perm (List.range s.made)
        refine List.Perm.trans ?_ h.perm
        rw [h5, List.perm_iff_count]
        intro x
        have := congrArg (List.count x) h1
        simp only [List.count_append, List.count_nil] at this ⊢
        omega
      · show (pull s.conn s.avail).2.2.length + s.held.length ≤ s.existing
        have := h.cnt
        rw [h5, List.length_nil]
        omega
      · show s.existing = (pull s.conn s.avail).2.2.length + s.held.length
        have := h.eq hm
        rw [pull_all s.conn (h.live hm)] at hlen
        rw [h5, List.length_nil]
        simp only [List.length_nil] at hlen
        omega
      · have : d ∈ (pull s.conn s.avail).2.2 := hd
        rw [h5] at this
        cases this
  | connected ok =>
    simp only [pstep] at hs
    split at hs
    · cases hs
    · split at hs
      · cases hs
        refine ⟨?_, ?_, fun hm => ?_, fun hm d hd => ?_, h.bad⟩
        · show (s.avail ++ (s.held ++ [s.made]) ++ s.dead).Perm (List.range (s.made + 1))
          rw [List.range_succ]
          refine List.Perm.trans ?_ (h.perm.append_right [s.made])
          rw [List.perm_iff_count]
          intro x
          simp only [List.count_append]
          omega
        · show s.avail.length + (s.held ++ [s.made]).length ≤ s.existing + 1
          have := h.cnt
          rw [List.length_append, List.length_singleton]
          omega
        · show s.existing + 1 = s.avail.length + (s.held ++ [s.made]).length
          have := h.eq hm
          rw [List.length_append, List.length_singleton]
          omega
        · show upd s.conn s.made true d = true
          unfold upd
          split
          · rfl
          · exact h.live hm d hd
      · cases hs
        exact ⟨h.perm, h.cnt, h.eq, h.live, h.bad⟩
  | close c =>
    simp only [pstep] at hs
    split at hs
    · rename_i hc
      cases hs
      refine ⟨h.perm, h.cnt, h.eq, fun hm d hd => ?_, h.bad⟩
      show upd s.conn c false d = true
      unfold upd
      rw [if_neg (fun e : d = c => h.disj hd (e ▸ hc))]
      exact h.live hm d hd
    · cases hs
  | release c =>
    simp only [pstep] at hs
    split at hs
    · rename_i hc
      have hpos : 0 < s.held.length := List.length_pos_of_mem hc
      have hcnt := h.cnt
      have hpc := List.perm_cons_erase hc
      have hcount : ∀ x, List.count x s.held = List.count x [c] + List.count x (s.held.erase c) := by
        intro x
        have := hpc.count_eq x
        rw [this, ← List.count_append]
        rfl
      have hel := hpc.length_eq
      rw [List.length_cons] at hel
      split at hs
      · omega
      · split at hs
        · rename_i hcc
          cases hs
          refine ⟨?_, ?_, fun hm => ?_, fun hm d hd => ?_, h.bad⟩
          · show ((s.avail ++ [c]) ++ s.held.erase c ++ s.dead).Perm (List.range s.made)
            refine List.Perm.trans ?_ h.perm
            rw [List.perm_iff_count]
            intro x
            have := hcount x
            simp only [List.count_append] at this ⊢
            omega
          · show (s.avail ++ [c]).length + (s.held.erase c).length ≤ s.existing
            rw [List.length_append, List.length_singleton]
            omega
          · show s.existing = (s.avail ++ [c]).length + (s.held.erase c).length
            have := h.eq hm
            rw [List.length_append, List.length_singleton]
            omega
          · rcases List.mem_append.1 hd with hd | hd
            · exact h.live hm d hd
            · rw [List.mem_singleton.1 hd]; exact hcc
        · cases hs
          refine ⟨?_, ?_, fun hm => ?_, h.live, h.bad⟩
          · show (s.avail ++ s.held.erase c ++ (s.dead ++ [c])).Perm (List.range s.made)
            refine List.Perm.trans ?_ h.perm
            rw [List.perm_iff_count]
            intro x
            have := hcount x
            simp only [List.count_append] at this ⊢
            omega
          · show s.avail.length + (s.held.erase c).length ≤ s.existing - 1
            omega
          · show s.existing - 1 = s.avail.length + (s.held.erase c).length
            have := h.eq hm
            omega
    · cases hs
  | closeIdle c =>
    simp only [pstep] at hs
    split at hs
    · cases hs
      exact ⟨h.perm, h.cnt, fun hm => (by cases hm), fun hm => (by cases hm), h.bad⟩
    · cases hs

theorem pi {s : Pl} (h : Reachable (· = Pl.init) pstep s) : PI s :=
  Reachable.invariant PI (fun s hs => by
    subst hs
    exact ⟨List.Perm.refl _, Nat.le_refl _, fun _ => rfl, fun _ c hc => (by cases hc), rfl⟩) (fun _ _ _ hi hs => pi_step hi hs) h

/-- C75, a client is in one place: it is idle, or in the hands of one user, or deleted once. No check fails. -/
theorem C75_exclusive {s : Pl} (h : Reachable (· = Pl.init) pstep s) :
    (s.avail ++ s.held ++ s.dead).Perm (List.range s.made) ∧ (s.avail ++ s.held ++ s.dead).Nodup ∧ s.bad = false :=
  ⟨(pi h).perm, (pi h).nodup, (pi h).bad⟩

/-- C75, `handles_count` is the number of clients that exist, if clients are closed only by those who hold them. -/
theorem C75_count_partial {s : Pl} (h : Reachable (· = Pl.init) pstep s) (hm : s.misuse = false) :
    s.existing + s.dead.length = s.made := by
  have h1 := (pi h).perm.length_eq
  have h2 := (pi h).eq hm
  rw [List.length_append, List.length_append, List.length_range] at h1
  omega

/-- C75, `GetHandle` hands out the client that was idle for the longest time, and it is connected; it connects only if none is
idle. -/
theorem C75_oldest {s s' : Pl} (h : Reachable (· = Pl.init) pstep s) (hm : s.misuse = false) (hs : pstep s .get = some s') :
    (∃ c, s.avail = c :: s'.avail ∧ s'.held = s.held ++ [c] ∧ s.conn c = true ∧ s'.pend = s.pend) ∨
    (s.avail = [] ∧ s'.pend = s.pend + 1 ∧ s'.held = s.held) := by
  have hl := (pi h).live hm
  simp only [pstep, pull_all s.conn hl] at hs
  cases ha : s.avail with
  | nil =>
    rw [ha] at hs
    cases hs
    exact Or.inr ⟨rfl, rfl, rfl⟩
  | cons c cs =>
    rw [ha] at hs
    cases hs
    exact Or.inl ⟨c, rfl, rfl, hl c (by rw [ha]; exact List.mem_cons_self ..), rfl⟩

/-- C75, what `GetHandle` hands out is connected, whatever was done to idle clients. -/
theorem C75_connected {s s' : Pl} (hs : pstep s .get = some s') : s'.held = s.held ∨ ∃ c, s'.held = s.held ++ [c] ∧ s.conn c = true := by
  simp only [pstep] at hs
  split at hs
  · rename_i c hc
    cases hs
    exact Or.inr ⟨c, rfl, (pull_spec s.conn s.avail).2.2.1 c hc⟩
  · cases hs
    exact Or.inl rfl

/-- C75, destruction: once all handles were given back, the destructor's check holds and every client is deleted exactly once. -/
theorem C75_destroy_partial {s : Pl} (h : Reachable (· = Pl.init) pstep s) (hm : s.misuse = false) (hh : s.held = []) :
    s.destroy.1 = true ∧ s.destroy.2.Perm (List.range s.made) := by
  have hp := (pi h).perm
  have he := (pi h).eq hm
  rw [hh] at hp he
  rw [List.append_nil] at hp
  exact ⟨decide_eq_true (by rw [he]; rfl), List.perm_append_comm.trans hp⟩

/-- C75, if an idle client loses its connection the count is wrong from then on, and the destructor's check fails. -/
theorem C75_idle_loss : ∃ s, Reachable (· = Pl.init) pstep s ∧ s.held = [] ∧ s.existing = 2 ∧ s.made = 2 ∧ s.dead = [0] ∧
    s.destroy.1 = false :=
  ⟨_, Reachable.exec (.init rfl trivial)
    [.get, .connected true, .release 0, .closeIdle 0, .get, .connected true, .release 1] rfl, rfl, rfl, rfl, rfl, rfl⟩

example : ∃ s, Reachable (· = Pl.init) pstep s ∧ s.avail = [1, 0] ∧ s.held = [] ∧ s.dead = [2] ∧ s.existing = 2 :=
  ⟨_, Reachable.exec (.init rfl trivial)
    [.get, .get, .connected true, .connected true, .get, .connected true, .release 1, .close 2, .release 0, .release 2] rfl,
    rfl, rfl, rfl, rfl⟩

theorem takeWhile_colon (p l : List Nat) (h : 58 ∉ p) : (p ++ 58 :: l).takeWhile (· ≠ 58) = p := by
  rw [List.takeWhile_append_of_pos (by intro c hc; simp; rintro rfl; exact h hc)]
  simp

/-- C75, the domain: a name without a colon, with or without a port, is split as it should. -/
theorem C75_domain_partial (tls : Bool) (host port : List Nat) (hp : 58 ∉ port) (hne : port ≠ []) :
    splitDomain tls (host ++ 58 :: port) = (host, port) := by
  have h1 : ((host ++ 58 :: port).reverse.takeWhile (· ≠ 58)).reverse = port := by
    rw [List.reverse_append, List.reverse_cons, List.append_assoc, List.singleton_append,
      takeWhile_colon _ _ (by simpa using hp), List.reverse_reverse]
  unfold splitDomain
  simp only [h1]
  rw [if_neg (by simp; omega)]
  simp only [if_neg hne]
  have : (host ++ 58 :: port).length - port.length - 1 = host.length := by simp; omega
  rw [this, List.take_left]

theorem C75_domain_default (tls : Bool) (host : List Nat) (hh : 58 ∉ host) :
    splitDomain tls host = (host, if tls then [52, 52, 51] else [56, 48]) := by
  have hw : ∀ l : List Nat, 58 ∉ l → l.takeWhile (· ≠ 58) = l := by
    intro l
    induction l with
    | nil => intro _; rfl
    | cons c l ih =>
      intro hl
      rw [List.mem_cons, not_or] at hl
      rw [List.takeWhile_cons_of_pos (by simpa using fun e => hl.1 e.symm), ih hl.2]
  have h1 : (host.reverse.takeWhile (· ≠ 58)).reverse = host := by
    rw [hw _ (by simpa using hh), List.reverse_reverse]
  unfold splitDomain
  simp only [h1, if_true]

/-- C75, an IPv6 address is torn apart, and the check of the port ends the process: "[::1]". -/
theorem C75_ipv6 : splitDomain false [91, 58, 58, 49, 93] = ([91, 58], [49, 93]) ∧ portOf [49, 93] = none := by decide

/-- "s3.local:9000" -/
example : splitDomain true [115, 51, 46, 108, 111, 99, 97, 108, 58, 57, 48, 48, 48] =
    ([115, 51, 46, 108, 111, 99, 97, 108], [57, 48, 48, 48]) ∧ portOf [57, 48, 48, 48] = some 9000 := by decide

/-! ### The sender with retries -/

theorem contains_iff : ∀ (s p : List Nat), contains s p = true ↔ p <:+: s
  | [], p => by
    simp [contains]
  | c :: cs, p => by
    rw [contains, Bool.or_eq_true, contains_iff cs p, List.infix_cons_iff, List.isPrefixOf_iff_prefix]

theorem lower_map_iff (w ls : List Nat) (hl : ∀ l ∈ ls, 97 ≤ l ∧ l ≤ 122) :
    w.map lower = ls ↔ Spells w ls := by
  induction w generalizing ls with
  | nil => cases ls <;> simp [Spells]
  | cons c w ih =>
    cases ls with
    | nil => simp [Spells]
    | cons l ls =>
      have h := hl l (by simp)
      rw [List.map_cons, List.cons.injEq, Spells, ih ls fun x hx => hl x (List.mem_cons_of_mem _ hx)]
      have : lower c = l ↔ (c = l ∨ c + 32 = l) := by unfold lower; split <;> omega
      rw [this]

theorem bearer_iff (a : List Nat) : bearer <:+: a.map lower ↔ HasBearer a := by
  constructor
  · rintro ⟨x, y, h⟩
    obtain ⟨xw, y', rfl, hxw, -⟩ := List.map_eq_append_iff.1 h.symm
    obtain ⟨x', w, rfl, -, hw⟩ := List.map_eq_append_iff.1 hxw
    exact ⟨x', w, y', rfl, (lower_map_iff w _ (by decide)).1 hw⟩
  · rintro ⟨x, w, y, rfl, h⟩
    exact ⟨x.map lower, y.map lower, by rw [List.map_append, List.map_append, (lower_map_iff w _ (by decide)).2 h]; rfl⟩

theorem isOk_iff (st : Nat) : isOk st = true ↔ Accepted st := by
  simp [isOk, Accepted, or_assoc]
  tauto

theorem pushback_iff (st : Nat) : pushback st = true ↔ Busy st := by
  simp [pushback, Busy]
  omega

theorem unauthorized_iff (st : Nat) (auth : Option (List Nat)) : unauthorized st auth = true ↔ Challenged st auth := by
  unfold unauthorized Challenged
  by_cases h1 : st = 401
  · subst h1
    cases auth <;> simp
  · by_cases h2 : st = 403
    · subst h2
      cases auth <;> simp [contains_iff, bearer_iff]
    · simp [h1, h2]

/-- A round is retried or decides, as the specification says. -/
theorem round_spec (a : Att) : (∃ r, round a = .ret r ∧ Decided a r) ∨
    (∃ r b, round a = .again r b ∧ Retried a r ∧ (b = true ↔ r = .denied)) := by
  cases a with
  | noHandle e => exact Or.inl ⟨_, rfl, .noHandle e⟩
  | closed e => exact Or.inr ⟨_, _, rfl, .closed e, by simp⟩
  | failed e => exact Or.inl ⟨_, rfl, .failed e⟩
  | resp st keep auth drain refresh =>
    simp only [round]
    by_cases h1 : isOk st = true
    · rw [if_pos h1]
      exact Or.inl ⟨_, rfl, .accepted _ _ _ _ ((isOk_iff st).1 h1)⟩
    · have n1 : ¬ Accepted st := fun h => h1 ((isOk_iff st).2 h)
      rw [if_neg h1]
      cases drain with
      | some e => exact Or.inl ⟨_, rfl, .body _ _ e.1 e.2 _ n1⟩
      | none =>
        simp only
        by_cases h2 : pushback st = true
        · rw [if_pos h2]
          exact Or.inr ⟨_, _, rfl, .busy _ _ _ ((pushback_iff st).1 h2), by simp⟩
        · have n2 : ¬ Busy st := fun h => h2 ((pushback_iff st).2 h)
          rw [if_neg h2]
          by_cases h3 : unauthorized st auth = true
          · have p3 := (unauthorized_iff st auth).1 h3
            rw [if_pos h3]
            cases refresh with
            | some e => exact Or.inl ⟨_, rfl, .refresh _ e p3⟩
            | none => exact Or.inr ⟨_, _, rfl, .challenged _ p3, by simp⟩
          · have n3 : ¬ Challenged st auth := fun h => h3 ((unauthorized_iff st auth).2 h)
            rw [if_neg h3]
            by_cases h4 : st = 403
            · subst h4
              exact Or.inl ⟨_, rfl, .forbidden _ _ n3⟩
            · rw [if_neg h4]
              by_cases h5 : st = 404
              · subst h5
                exact Or.inl ⟨_, rfl, .missing _ _ _⟩
              · rw [if_neg h5]
                by_cases h6 : st / 100 = 3
                · rw [if_pos h6]
                  exact Or.inl ⟨_, rfl, .redirect _ _ _ (by omega) (by omega) (fun h => n1 (by subst h; simp [Accepted]))⟩
                · rw [if_neg h6]
                  exact Or.inr ⟨_, _, rfl, .unexpected _ _ n1 n2 n3 h4 h5 (by omega), by simp⟩

/-- Whether a round got a handle, so that a request was sent or tried. -/
def Tried (a : Att) : Prop := ∀ e, a ≠ .noHandle e

theorem fate_some {a : Att} (h : Tried a) : ∃ f, fate a = some f := by
  cases a with
  | noHandle e => exact absurd rfl (h e)
  | closed e => exact ⟨_, rfl⟩
  | failed e => exact ⟨_, rfl⟩
  | resp st keep auth drain refresh =>
    simp only [fate]
    split
    · exact ⟨_, rfl⟩
    · split
      · exact ⟨_, rfl⟩
      · exact ⟨_, rfl⟩
      · split <;> exact ⟨_, rfl⟩

theorem after_sent {s : RS} {a : Att} (h : Tried a) : (s.after a).sent = s.sent ++ [s.sig] := by
  obtain ⟨f, hf⟩ := fate_some h
  unfold RS.after
  rw [hf]
  simp only
  split <;> rfl

theorem robustLoop_spec : ∀ (n : Nat) (as : List Att) (ec : Ret) (s : RS), 0 < n → n ≤ as.length →
    ∃ i a, i < n ∧ as[i]? = some a ∧ (∀ j b, j < i → as[j]? = some b → ∃ r, Retried b r) ∧
      (Decided a (robustLoop n as ec s).1 ∨ (i + 1 = n ∧ Retried a (robustLoop n as ec s).1)) ∧
      (Tried a → (robustLoop n as ec s).2.sent.length = s.sent.length + i + 1)
  | 0, _, _, _, h, _ => absurd h (Nat.lt_irrefl 0)
  | n + 1, [], _, _, _, h => by simp at h
  | n + 1, a :: as, ec, s, _, hlen => by
    rw [List.length_cons] at hlen
    unfold robustLoop
    rcases round_spec a with ⟨r, h1, h2⟩ | ⟨r, b, h1, h2, _⟩
    · refine ⟨0, a, by omega, rfl, fun j b hj => by omega, Or.inl ?_, fun ht => ?_⟩
      · simp only [h1]; exact h2
      · simp only [h1]; rw [after_sent ht]; simp
    · simp only [h1]
      have htr : Tried a := by
        rintro e rfl
        cases h2
      by_cases hn : n = 0
      · subst hn
        refine ⟨0, a, by omega, rfl, fun j b hj => by omega, Or.inr ⟨rfl, ?_⟩, fun ht => ?_⟩
        · simp only [robustLoop]; exact h2
        · simp only [robustLoop]; rw [after_sent ht]; simp
      · obtain ⟨i, a', k1, k2, k3, k4, k5⟩ := robustLoop_spec n as r (s.after a) (by omega) (by omega)
        refine ⟨i + 1, a', by omega, k2, fun j c hj hc => ?_, ?_, fun ht => ?_⟩
        · cases j with
          | zero => cases hc; exact ⟨r, h2⟩
          | succ j => exact k3 j c (by omega) hc
        · rcases k4 with k4 | ⟨k4, k6⟩
          · exact Or.inl k4
          · exact Or.inr ⟨by omega, k6⟩
        · rw [k5 ht, after_sent htr, List.length_append, List.length_singleton]
          omega

/-- C76, the result: a call makes at most `n` rounds; all but its last one are rounds after which the request may be sent again; it
returns what the last one decides, or its error if there is no other round. The request is sent once in each round. -/
theorem C76_result (n : Nat) (hn : 0 < n) (ex : Bool) (as : List Att) (hlen : n ≤ as.length) (tok : Nat) :
    ∃ i a, i < n ∧ as[i]? = some a ∧ (∀ j b, j < i → as[j]? = some b → ∃ r, Retried b r) ∧
      (Decided a (robust n (.inr ex) as tok).1 ∨ (i + 1 = n ∧ Retried a (robust n (.inr ex) as tok).1)) ∧
      (Tried a → (robust n (.inr ex) as tok).2.sent.length = i + 1) := by
  cases ex
  · simpa [robust] using robustLoop_spec n as .ok ⟨tok, tok, [], true, [], none⟩ hn hlen
  · simpa [robust] using robustLoop_spec n as .ok ⟨tok + 1, tok + 1, [], true, [], none⟩ hn hlen

/-- C76, success: a call returns no error only if its last round brought a response that accepts the request. -/
theorem C76_success (n : Nat) (hn : 0 < n) (ex : Bool) (as : List Att) (hlen : n ≤ as.length) (tok : Nat)
    (h : (robust n (.inr ex) as tok).1 = .ok) :
    ∃ i st keep auth dr rf, i < n ∧ as[i]? = some (.resp st keep auth dr rf) ∧ Accepted st := by
  obtain ⟨i, a, h1, h2, _, h4, _⟩ := C76_result n hn ex as hlen tok
  rw [h] at h4
  rcases h4 with h4 | ⟨_, h4⟩
  · cases h4 with
    | accepted keep auth dr rf hst => exact ⟨i, _, keep, auth, dr, rf, h1, h2, hst⟩
  · cases h4

/-- C76, with no rounds a call returns no error though it has no response. -/
theorem C76_zero (as : List Att) (tok : Nat) : (robust 0 (.inr false) as tok).1 = .ok ∧ (robust 0 (.inr false) as tok).2.cur = none :=
  ⟨rfl, rfl⟩

theorem after_tok (s : RS) (a : Att) (r : Ret) (b : Bool) (h : round a = .again r b) :
    (s.after a).tok = s.tok + (if b then 1 else 0) ∧ (s.sig = s.tok → (s.after a).sig = (s.after a).tok) := by
  obtain ⟨f, hf⟩ := fate_some (a := a) (by rintro e rfl; cases h)
  unfold RS.after
  rw [hf]
  simp only [h]
  cases b
  · exact ⟨rfl, fun h => h⟩
  · exact ⟨rfl, fun _ => rfl⟩

/-- The rounds after which the token was refreshed are those that ended with a challenge. -/
theorem C76_refresh_iff (a : Att) : (∃ r, round a = .again r true) ↔ Retried a .denied := by
  constructor
  · rintro ⟨r, h⟩
    rcases round_spec a with ⟨r', h1, _⟩ | ⟨r', b, h1, h2, h3⟩
    · rw [h] at h1; cases h1
    · rw [h] at h1
      cases h1
      rw [h3.1 rfl] at h2
      exact h2
  · intro h
    cases h with
    | challenged keep hc =>
      rename_i st auth
      refine ⟨.denied, ?_⟩
      have h1 : isOk st ≠ true := by
        rw [ne_eq, isOk_iff]
        rcases hc with ⟨rfl, _⟩ | ⟨rfl, _⟩ <;> simp [Accepted]
      have h2 : pushback st ≠ true := by
        rw [ne_eq, pushback_iff]
        rcases hc with ⟨rfl, _⟩ | ⟨rfl, _⟩ <;> simp [Busy]
      simp only [round, if_neg h1, if_neg h2, if_pos ((unauthorized_iff st auth).2 hc)]

open Classical in
theorem robustLoop_sent : ∀ (n : Nat) (as : List Att) (ec : Ret) (s : RS), s.sig = s.tok → ∀ (j v : Nat),
    (robustLoop n as ec s).2.sent[s.sent.length + j]? = some v →
      v = s.tok + ((as.take j).countP fun a => decide (Retried a .denied))
  | 0, as, ec, s, _, j, v, h => by
    have := (List.getElem?_eq_some_iff.1 h).1
    simp only [robustLoop] at this
    omega
  | n + 1, [], ec, s, _, j, v, h => by
    have := (List.getElem?_eq_some_iff.1 h).1
    simp only [robustLoop] at this
    omega
  | n + 1, a :: as, ec, s, hsig, j, v, h => by
    unfold robustLoop at h
    rcases round_spec a with ⟨r, h1, h2⟩ | ⟨r, b, h1, h2, _⟩
    · simp only [h1] at h
      by_cases htr : Tried a
      · rw [after_sent htr] at h
        have hj := (List.getElem?_eq_some_iff.1 h).1
        rw [List.length_append, List.length_singleton] at hj
        have : j = 0 := by omega
        subst this
        simp at h
        simp [← h, hsig]
      · have hnh : ∃ e, a = .noHandle e := by
          cases a with
          | noHandle e => exact ⟨e, rfl⟩
          | closed e => exact absurd (fun _ h => by cases h) htr
          | failed e => exact absurd (fun _ h => by cases h) htr
          | resp => exact absurd (fun _ h => by cases h) htr
        obtain ⟨e, rfl⟩ := hnh
        have := (List.getElem?_eq_some_iff.1 h).1
        simp only [RS.after, fate] at this
        omega
    · simp only [h1] at h
      have htr : Tried a := by
        rintro e rfl
        cases h2
      obtain ⟨t1, t2⟩ := after_tok s a r b h1
      have hl : (s.after a).sent.length = s.sent.length + 1 := by rw [after_sent htr]; simp
      cases j with
      | zero =>
        -- the version of this round stays where it is
        have hpre : ∀ (n : Nat) (as : List Att) (ec : Ret) (s : RS), s.sent <+: (robustLoop n as ec s).2.sent := by
          intro n
          induction n with
          | zero => intro as ec s; exact List.prefix_refl _
          | succ n ih =>
            intro as ec s
            cases as with
            | nil => exact List.prefix_refl _
            | cons a as =>
              have hap : s.sent <+: (s.after a).sent := by
                unfold RS.after
                split
                · exact List.prefix_refl _
                · simp only; split <;> exact List.prefix_append _ _
              unfold robustLoop
              simp only
              split
              · exact hap
              · exact hap.trans (ih _ _ _)
        obtain ⟨l, hl2⟩ := hpre n as r (s.after a)
        rw [← hl2, after_sent htr] at h
        simp at h
        simp [← h, hsig]
      | succ j =>
        have := robustLoop_sent n as r (s.after a) (t2 hsig) j v (by rw [hl, ← h]; congr 1; omega)
        rw [this, t1, List.take_succ_cons, List.countP_cons]
        have : (decide (Retried a .denied)) = b := by
          cases b
          · refine decide_eq_false (fun hd => ?_)
            obtain ⟨r', h'⟩ := (C76_refresh_iff a).2 hd
            rw [h1] at h'
            cases h'
          · exact decide_eq_true ((C76_refresh_iff a).1 ⟨r, h1⟩)
        rw [this]
        cases b <;> simp <;> omega

open Classical in
/-- C76, the request is sent with the newest credentials: the `j`-th time it is signed with the token as it is after the refresh
before the call, if there was one, and those after each challenge so far. -/
theorem C76_signed (n : Nat) (ex : Bool) (as : List Att) (tok j v : Nat) (h : (robust n (.inr ex) as tok).2.sent[j]? = some v) :
    v = tok + (if ex then 1 else 0) + ((as.take j).countP fun a => decide (Retried a .denied)) := by
  cases ex
  · have := robustLoop_sent n as .ok ⟨tok, tok, [], true, [], none⟩ rfl j v (by simpa [robust] using h)
    simpa using this
  · have := robustLoop_sent n as .ok ⟨tok + 1, tok + 1, [], true, [], none⟩ rfl j v (by simpa [robust] using h)
    simpa using this

theorem again_fate {a : Att} {r : Ret} {b : Bool} (h : round a = .again r b) :
    fate a = some .shut ∨ fate a = some .clean ∨ fate a = some .closing := by
  cases a with
  | noHandle e => cases h
  | closed e => exact Or.inl rfl
  | failed e => cases h
  | resp st keep auth drain refresh =>
    simp only [round] at h
    simp only [fate]
    split at h
    · cases h
    · rename_i h1
      rw [if_neg h1]
      split at h
      · cases h
      · simp only
        cases keep <;> simp

theorem robustLoop_back : ∀ (n : Nat) (as : List Att) (ec : Ret) (s : RS),
    (∀ f ∈ s.back ++ s.cur.toList, f = .shut ∨ f = .clean ∨ f = .closing) →
      ∀ f ∈ (robustLoop n as ec s).2.back, f = .shut ∨ f = .clean ∨ f = .closing
  | 0, _, _, s, hs, f, hf => hs f (List.mem_append_left _ hf)
  | n + 1, [], _, s, hs, f, hf => hs f (List.mem_append_left _ hf)
  | n + 1, a :: as, ec, s, hs, f, hf => by
    have hback : (s.after a).back = s.back ∨ (s.after a).back = s.back ++ s.cur.toList := by
      unfold RS.after
      split
      · exact Or.inl rfl
      · right; simp only; split <;> rfl
    have hb : ∀ f ∈ (s.after a).back, f = .shut ∨ f = .clean ∨ f = .closing := by
      intro f hf
      rcases hback with h | h <;> rw [h] at hf
      · exact hs f (List.mem_append_left _ hf)
      · exact hs f hf
    unfold robustLoop at hf
    simp only at hf
    split at hf
    · exact hb f hf
    · rename_i r b hr
      refine robustLoop_back n as r (s.after a) ?_ f hf
      intro g hg
      rcases List.mem_append.1 hg with hg | hg
      · exact hb g hg
      · have hcur : (s.after a).cur = fate a := by
          have := again_fate hr
          unfold RS.after
          cases hf : fate a with
          | none => rw [hf] at this; simp at this
          | some f => simp only; split <;> rfl
        rw [hcur] at hg
        rcases again_fate hr with h | h | h <;> rw [h] at hg <;> simp at hg <;> simp [hg]

/-- C76, connections given up on the way to the last round are closed or have been read to the end. -/
theorem C76_back_clean (n : Nat) (ex : Bool) (as : List Att) (tok : Nat) :
    ∀ f ∈ (robust n (.inr ex) as tok).2.back, f = .shut ∨ f = .clean ∨ f = .closing := by
  cases ex <;> exact robustLoop_back n as .ok _ (by simp)

/-- C76 is false of the last one: if the body of an error response is over the limit of the parser, the connection goes back to the
pool with the rest of the body in it. -/
theorem C76_rest_left : ∃ as, (robust 3 (.inr false) as 0).1 = .passed 7 ∧ (robust 3 (.inr false) as 0).2.pooled true = [.dirty] :=
  ⟨[.resp 400 true none (some (7, false)) none], rfl, rfl⟩

/-- C76, what a response says about its connection is applied to another one: that which the server closes goes back to the pool,
and the good one of the last round is shut down. -/
theorem C76_wrong_connection : ∃ as, (robust 3 (.inr false) as 0).1 = .ok ∧
    (robust 3 (.inr false) as 0).2.pooled true = [.closing] ∧ (robust 3 (.inr false) as 0).2.reuse = false :=
  ⟨[.resp 503 false none none none, .resp 200 true none none none], rfl, rfl, rfl⟩

/-- A closed connection, a busy server, a challenge, then success: four requests, the last one signed anew. -/
example : (robust 5 (.inr false) [.closed 1, .resp 503 true none none none, .resp 401 true (some []) none none,
    .resp 200 true none none none, .failed 1] 4).1 = .ok ∧
    (robust 5 (.inr false) [.closed 1, .resp 503 true none none none, .resp 401 true (some []) none none,
    .resp 200 true none none none, .failed 1] 4).2.sent = [4, 4, 4, 5] := ⟨rfl, rfl⟩

end Verif.Http
