import Verif.FQPool.Spec
import Verif.FQPool.Shut
import Mathlib.Data.List.Perm.Subperm
import Mathlib.Data.List.Nodup
/-!
# C69: `FiberQueueThreadPool`
-/
namespace Verif.FQPool
open Verif.Common

theorem reach_of {n cap m : Nat} (hn : 0 < n) (hc : 0 < cap) {acts : List Act} {P : S → Bool}
    (h : (exec step (S.new n cap m) acts).map P = some true) : ∃ s, Reachable Init step s ∧ P s = true := by
  cases he : exec step (S.new n cap m) acts with
  | none => rw [he] at h; cases h
  | some s =>
    rw [he] at h
    exact ⟨s, Reachable.exec (.init ⟨n, cap, m, hn, hc, rfl⟩ trivial) acts he, by simpa using h⟩

/-! ## Each task once, in order -/

/-- Each worker runs the tasks of its queue in the order in which they were put there; a task is put into one queue only,
and never more than `cap` of them wait there. -/
theorem C69_order {s : S} (h : Reachable Init step s) :
    (∀ k, s.ranAt k <+: s.queuedAt k) ∧ (s.acc.map Prod.fst).Nodup ∧
    ∀ (k : Nat) (w : W), s.ws[k]? = some w → w.q.length ≤ s.cap := by
  have hi := invA h
  refine ⟨fun k => ?_, hi.nd, hi.len⟩
  show ofW s.ran k <+: ofW s.acc k
  by_cases hk : k < s.ws.length
  · rw [hi.ord k _ (List.getElem?_eq_getElem hk)]; exact List.prefix_append _ _
  · have : ofW s.ran k = [] := by
      unfold ofW
      rw [List.map_eq_nil_iff, List.filter_eq_nil_iff]
      intro p hp
      have := hi.ranK p hp
      simp; omega
    rw [this]; exact List.nil_prefix

theorem count_ofW (l : List (Nat × Nat)) (x k : Nat) : (ofW l k).count x = l.count (x, k) := by
  unfold ofW
  induction l with
  | nil => rfl
  | cons p l ih =>
    obtain ⟨y, j⟩ := p
    by_cases hj : j = k
    · subst hj
      rw [List.filter_cons_of_pos (by simp), List.map_cons, List.count_cons, List.count_cons, ih]
      by_cases hy : y = x
      · subst hy; simp
      · simp [hy]
    · rw [List.filter_cons_of_neg (by simpa using hj), List.count_cons, ih]
      have : ¬ ((y, j) == (x, k)) = true := by simp [hj]
      rw [if_neg this]; rfl

theorem ran_subperm {s : S} (h : Reachable Init step s) : s.ran.Subperm s.acc := by
  rw [List.subperm_ext_iff]
  intro p _
  obtain ⟨x, k⟩ := p
  rw [← count_ofW, ← count_ofW]
  exact ((C69_order h).1 k).sublist.count_le x

/-- No task runs twice, not even on two workers, and a task that ran was put into the queue of the worker that ran it. -/
theorem C69_once {s : S} (h : Reachable Init step s) : (s.ran.map Prod.fst).Nodup ∧ ∀ x k, s.Ran x k → (x, k) ∈ s.acc :=
  ⟨by
    obtain ⟨l, h1, h2⟩ := ran_subperm h
    exact (h1.map Prod.fst).nodup_iff.1 ((h2.map Prod.fst).nodup (invA h).nd), fun _ _ hr => (ran_subperm h).subset hr⟩

/-- A worker never takes more tasks than its array of sixteen holds. -/
theorem C69_batch_in_bounds {s : S} (h : Reachable Init step s) {k : Nat} {w : W} (hw : s.ws[k]? = some w) : w.pc.batch.length ≤ 16 := by
  refine Reachable.invariant (fun s => ∀ (k : Nat) (w : W), s.ws[k]? = some w → w.pc.batch.length ≤ 16) ?_ ?_ h k w hw
  · rintro s ⟨n, cap, m, _, _, rfl⟩ k w hk
    rw [List.eq_of_mem_replicate (List.mem_of_getElem? (show (List.replicate n (W.mk [] false 0 0 .try0))[k]? = some w from hk))]
    exact Nat.zero_le _
  · intro s a s' hi hst
    have sw : ∀ {k : Nat} {w' : W}, w'.pc.batch.length ≤ 16 →
        ∀ (j : Nat) (v : W), (s.ws.set k w')[j]? = some v → v.pc.batch.length ≤ 16 := by
      intro k w' h1 j v hj
      rcases get_set hj with ⟨rfl, rfl⟩ | ⟨_, h⟩
      · exact h1
      · exact hi j v h
    cases step_mv hst with
    | enq _ hw => exact sw (by have := hi _ _ hw; exact this)
    | cntf _ hw => exact sw (by have := hi _ _ hw; exact this)
    | take hw hq hp =>
      refine sw ?_
      rcases hp with hp | ⟨e, hp⟩ | ⟨ts, hp, hl⟩ <;> rw [hp]
      · exact Nat.le_add_left 1 15
      · exact Nat.le_add_left 1 15
      · show (ts ++ [_]).length ≤ 16
        rw [List.length_append]
        exact hl
    | empty0 => exact sw (Nat.zero_le _)
    | empty1 => exact sw (Nat.zero_le _)
    | exit => exact sw (Nat.zero_le _)
    | stay => exact sw (Nat.zero_le _)
    | wslp => exact sw (Nat.zero_le _)
    | wprep => exact sw (Nat.zero_le _)
    | wwake => exact sw (Nat.zero_le _)
    | full hw hp => exact sw (by have := hi _ _ hw; rw [hp] at this; exact this)
    | wntf hw hp => exact sw (by have := hi _ _ hw; rw [hp] at this; exact this)
    | run hw hp => exact sw (by have := hi _ _ hw; rw [hp] at this; exact Nat.le_of_succ_le this)
    | again => exact sw (Nat.zero_le _)
    | close _ hw => exact sw (by have := hi _ _ hw; exact this)
    | sntf _ hw => exact sw (by have := hi _ _ hw; exact this)
    | _ => exact hi

/-! ## Which worker -/

/-- The task `x` of a call goes to worker `w`. -/
def Pinned (x w : Nat) (s : S) : Prop :=
  (∀ (c : Nat) (pc : CPc), s.cs[c]? = some pc → pc.held = some x →
    (∃ aw, pc = .prep (.pin w) x aw) ∨ (∃ e aw, pc = .try_ (.pin w) [w] x e aw) ∨ ∃ e aw, pc = .sleep (.pin w) x e aw) ∧
  (∀ k, (x, k) ∈ s.acc → k = w) ∧ x < s.cnt

theorem pinned_mv {s s' : S} {x w : Nat} (hp : Pinned x w s) (h : Mv s s') : Pinned x w s' := by
  have key : ∀ {c : Nat} {pc' : CPc}, (pc'.held = some x →
      (∃ aw, pc' = .prep (.pin w) x aw) ∨ (∃ e aw, pc' = .try_ (.pin w) [w] x e aw) ∨ ∃ e aw, pc' = .sleep (.pin w) x e aw) →
      ∀ (d : Nat) (pc : CPc), (s.cs.set c pc')[d]? = some pc → pc.held = some x →
      (∃ aw, pc = .prep (.pin w) x aw) ∨ (∃ e aw, pc = .try_ (.pin w) [w] x e aw) ∨ ∃ e aw, pc = .sleep (.pin w) x e aw := by
    intro c pc' h1 d pc hd hh
    rcases get_set hd with ⟨rfl, rfl⟩ | ⟨_, h⟩
    · exact h1 hh
    · exact hp.1 d pc h hh
  have old : ∀ {c : Nat} {pc : CPc}, s.cs[c]? = some pc → pc.held = some x →
      (∃ aw, pc = .prep (.pin w) x aw) ∨ (∃ e aw, pc = .try_ (.pin w) [w] x e aw) ∨ ∃ e aw, pc = .sleep (.pin w) x e aw :=
    fun h h' => hp.1 _ _ h h'
  cases h with
  | add _ hc =>
    refine ⟨key (fun h => ?_), hp.2.1, Nat.lt_succ_of_lt hp.2.2⟩
    have h1 : s.cnt = x := Option.some.inj h
    have := hp.2.2
    omega
  | addTo _ hc =>
    refine ⟨key (fun h => ?_), hp.2.1, Nat.lt_succ_of_lt hp.2.2⟩
    have h1 : s.cnt = x := Option.some.inj h
    have := hp.2.2
    omega
  | @prep c k y aw v hc hw =>
    refine ⟨key (fun h => ?_), hp.2.1, hp.2.2⟩
    rcases old hc h with ⟨a, h⟩ | ⟨e, a, h⟩ | ⟨e, a, h⟩ <;> cases h
    exact .inr (.inl ⟨_, _, rfl⟩)
  | @enq c k i rest y e aw v hc hw hl =>
    refine ⟨key (fun h => by cases h), ?_, hp.2.2⟩
    intro j hj
    rcases List.mem_append.1 hj with hj | hj
    · exact hp.2.1 j hj
    · simp only [List.mem_singleton, Prod.mk.injEq] at hj
      obtain ⟨rfl, rfl⟩ := hj
      rcases old hc rfl with ⟨a, h⟩ | ⟨e, a, h⟩ | ⟨e, a, h⟩ <;> cases h
      rfl
  | @nxt c k i j rest y e aw v hc hw hl =>
    refine ⟨key (fun h => ?_), hp.2.1, hp.2.2⟩
    rcases old hc h with ⟨a, h⟩ | ⟨e, a, h⟩ | ⟨e, a, h⟩ <;> cases h
  | @slp c k i y e aw v hc hw hl =>
    refine ⟨key (fun h => ?_), hp.2.1, hp.2.2⟩
    rcases old hc h with ⟨a, h⟩ | ⟨e, a, h⟩ | ⟨e, a, h⟩ <;> cases h
    exact .inr (.inr ⟨_, _, rfl⟩)
  | @retry c k i y aw v hc hw hl =>
    refine ⟨key (fun h => ?_), hp.2.1, hp.2.2⟩
    rcases old hc h with ⟨a, h⟩ | ⟨e, a, h⟩ | ⟨e, a, h⟩ <;> cases h
    exact .inl ⟨_, rfl⟩
  | @cntf c i y aw v hc hw =>
    exact ⟨key (fun h => by cases aw <;> cases h), hp.2.1, hp.2.2⟩
  | @wake c k y e aw v hc =>
    refine ⟨key (fun h => ?_), hp.2.1, hp.2.2⟩
    rcases old hc h with ⟨a, h⟩ | ⟨e, a, h⟩ | ⟨e, a, h⟩ <;> cases h
    exact .inl ⟨_, rfl⟩
  | done => exact ⟨key (fun h => by cases h), hp.2.1, hp.2.2⟩
  | take => exact hp
  | empty0 => exact hp
  | empty1 => exact hp
  | exit => exact hp
  | stay => exact hp
  | wslp => exact hp
  | wprep => exact hp
  | wwake => exact hp
  | full => exact hp
  | wntf => exact hp
  | run => exact hp
  | again => exact hp
  | shutdown => exact hp
  | close => exact hp
  | closed => exact hp
  | sntf => exact hp
  | join => exact hp
  | down => exact hp

theorem exec_inv {I : S → Prop} (hI : ∀ s s', I s → Mv s s' → I s') :
    ∀ (acts : List Act) {s s' : S}, I s → exec step s acts = some s' → I s' := by
  intro acts
  induction acts with
  | nil => intro s s' h he; cases he; exact h
  | cons a acts ih =>
    intro s s' h he
    simp only [exec] at he
    split at he
    · cases he
    · rename_i s1 h1
      exact ih (hI _ _ h (step_mv h1)) he

theorem reach_exec {s s' : S} (h : Reachable Init step s) {acts} (he : exec step s acts = some s') : Reachable Init step s' :=
  Reachable.exec h acts he

/-- `Add(index, f)`: if the task runs, then on worker `index` modulo the number of workers, whatever happens meanwhile. -/
theorem C69_pinned {s s1 s2 : S} (h : Reachable Init step s) {c i aw acts k}
    (h1 : step s (.addTo c i aw) = some s1) (h2 : exec step s1 acts = some s2) (hr : s2.Ran s.cnt k) : k = i % s.ws.length := by
  have hi := invA h
  have hP : Pinned s.cnt (i % s.ws.length) s1 := by
    simp only [step, S.addTo] at h1
    split at h1 <;> cases h1
    refine ⟨?_, ?_, Nat.lt_succ_self _⟩
    · intro d pc hd hh
      rcases get_set (show (s.cs.set c _)[d]? = some pc from hd) with ⟨rfl, rfl⟩ | ⟨_, h⟩
      · exact .inr (.inl ⟨_, _, rfl⟩)
      · exact absurd (hi.held _ _ _ h hh).1 (Nat.lt_irrefl _)
    · intro k hk
      exact absurd (hi.idA _ hk) (Nat.lt_irrefl _)
  have h3 := exec_inv (fun _ _ => pinned_mv) acts hP h2
  have hr2 : Reachable Init step s2 := reach_exec (.step h h1 trivial) h2
  exact h3.2.1 k ((C69_once hr2).2 _ _ hr)

/-- The workers `Add(f)` tries: the one at position `i` is `(start + i) mod n`, so each worker is tried exactly once,
beginning with `start`. -/
theorem C69_rotation {n start : Nat} (h : start < n) :
    rotation n start = (List.range n).map (fun i => (start + i) % n) ∧ (rotation n start).Perm (List.range n) ∧
    (rotation n start).head? = some start := by
  have h1 : rotation n start = (List.range n).map (fun i => (start + i) % n) := by
    unfold rotation
    apply List.map_congr_left
    intro i hi
    have := List.mem_range.1 hi
    unfold wrapped
    split
    · rw [Nat.mod_eq_of_lt (by assumption)]
    · rw [Nat.mod_eq_sub_mod (by omega), Nat.mod_eq_of_lt (by omega)]
  refine ⟨h1, ?_, ?_⟩
  · have hnd : (rotation n start).Nodup := by
      unfold rotation
      rw [List.nodup_map_iff_inj_on List.nodup_range]
      intro a ha b hb hab
      have := List.mem_range.1 ha
      have := List.mem_range.1 hb
      unfold wrapped at hab
      split at hab <;> split at hab <;> omega
    refine List.Subperm.perm_of_length_le (List.subperm_of_subset hnd ?_) (by simp [rotation])
    intro i hi
    exact List.mem_range.2 (rotation_lt h hi)
  · have : 0 < n := by omega
    obtain ⟨m, rfl⟩ : ∃ m, n = m + 1 := ⟨n - 1, by omega⟩
    simp [rotation, List.range_succ_eq_map, wrapped, h]

theorem scan {c : Nat} {k : Kind} {x : Nat} {e : Option Nat} {aw : Bool} :
    ∀ (pre : List Nat) {i : Nat} {post : List Nat} {w : W} {s : S}, s.cs[c]? = some (.try_ k (pre ++ i :: post) x e aw) →
    (∀ j ∈ pre, ∃ v, s.ws[j]? = some v ∧ ¬ v.q.length < s.cap) → s.ws[i]? = some w → w.q.length < s.cap →
    exec step s (List.replicate (pre.length + 1) (.caller c)) =
      some { (s.setW i { w with q := w.q ++ [x] }).setC c (.ntf i x aw) with acc := s.acc ++ [(x, i)] } := by
  intro pre
  induction pre with
  | nil =>
    intro i post w s hc _ hw hl
    simp only [List.length_nil, Nat.zero_add, List.replicate_one, exec, step, S.caller]
    simp only [List.nil_append] at hc
    simp only [hc, hw, hl, if_true]
  | cons j pre ih =>
    intro i post w s hc hp hw hl
    obtain ⟨v, hv, hf⟩ := hp j (by simp)
    rw [List.length_cons, List.replicate_succ]
    simp only [exec]
    have : step s (.caller c) = some (s.setC c (.try_ k (pre ++ i :: post) x e aw)) := by
      simp only [step, S.caller]
      simp only [List.cons_append] at hc
      simp only [hc, hv, hf, if_false]
      cases pre <;> rfl
    rw [this]
    have h2 := ih (i := i) (post := post) (w := w) (s := s.setC c (.try_ k (pre ++ i :: post) x e aw))
      (by show (s.cs.set c _)[c]? = _; rw [List.getElem?_set_self (lt_of_get hc)])
      (fun a ha => hp a (List.mem_cons_of_mem _ ha)) hw hl
    simp only [] at h2 ⊢
    rw [h2]
    simp [S.setC, S.setW]

/-- A call of `Add(f)` that is not disturbed puts its task into the first queue with room, counting from worker
`next_index_` modulo the number of workers. -/
theorem C69_first_with_room {s s1 : S} (h : Reachable Init step s) {c aw i} (h1 : step s (.add c aw) = some s1)
    (hi : i < s.ws.length) (hr : s.room ((s.next + i) % s.ws.length))
    (hf : ∀ j < i, ¬ s.room ((s.next + j) % s.ws.length)) :
    ∃ s2, exec step s1 (List.replicate (i + 2) (.caller c)) = some s2 ∧
      s2.acc = s.acc ++ [(s.cnt, (s.next + i) % s.ws.length)] ∧ s2.next = s.next + 1 := by
  have hA := invA h
  have hidle : s.cs[c]? = some .idle ∧ s1 = { s.setC c (.prep (.any (s.next % s.ws.length)) s.cnt aw) with next := s.next + 1, cnt := s.cnt + 1 } := by
    simp only [step, S.add] at h1
    split at h1 <;> cases h1
    rename_i hn
    exact ⟨by apply Classical.byContradiction; intro hx; exact hn (.inr hx), rfl⟩
  obtain ⟨hid, rfl⟩ := hidle
  have hlt : s.next % s.ws.length < s.ws.length := Nat.mod_lt _ hA.n
  obtain ⟨v, hv⟩ : ∃ v, s.ws[s.next % s.ws.length]? = some v := ⟨_, List.getElem?_eq_getElem hlt⟩
  obtain ⟨w, hw, hl⟩ := hr
  have hrot := (C69_rotation hlt).1
  have hmod : ∀ j, (s.next % s.ws.length + j) % s.ws.length = (s.next + j) % s.ws.length := by intro j; simp
  have hsplit : rotation s.ws.length (s.next % s.ws.length) =
      (List.range i).map (fun j => (s.next + j) % s.ws.length) ++ (s.next + i) % s.ws.length ::
        (List.range (s.ws.length - i - 1)).map (fun j => (s.next + (i + 1 + j)) % s.ws.length) := by
    rw [hrot]
    have : s.ws.length = i + (1 + (s.ws.length - i - 1)) := by omega
    rw [show List.range s.ws.length = List.range (i + (1 + (s.ws.length - i - 1))) from by rw [← this]]
    rw [List.range_add, List.map_append]
    congr 1
    · apply List.map_congr_left; intro j _; exact hmod j
    · rw [List.map_map, List.range_add, List.map_append, List.map_map]
      simp [hmod, Nat.add_assoc]
  rw [List.replicate_succ]
  simp only [exec]
  have hstep : step { s.setC c (.prep (.any (s.next % s.ws.length)) s.cnt aw) with next := s.next + 1, cnt := s.cnt + 1 } (.caller c) =
      some { s.setC c (.try_ (.any (s.next % s.ws.length)) (rotation s.ws.length (s.next % s.ws.length)) s.cnt (some v.pushE) aw) with
        next := s.next + 1, cnt := s.cnt + 1 } := by
    simp only [step, S.caller, S.setC, List.getElem?_set_self (lt_of_get hid), Kind.main, hv, Kind.list]
    simp
  rw [hstep]
  simp only []
  have := scan (c := c) (k := .any (s.next % s.ws.length)) (x := s.cnt) (e := some v.pushE) (aw := aw)
    ((List.range i).map (fun j => (s.next + j) % s.ws.length)) (i := (s.next + i) % s.ws.length)
    (post := (List.range (s.ws.length - i - 1)).map (fun j => (s.next + (i + 1 + j)) % s.ws.length)) (w := w)
    (s := { s.setC c (.try_ (.any (s.next % s.ws.length)) (rotation s.ws.length (s.next % s.ws.length)) s.cnt (some v.pushE) aw) with
        next := s.next + 1, cnt := s.cnt + 1 })
    (by show (s.cs.set c _)[c]? = _; rw [List.getElem?_set_self (lt_of_get hid), hsplit])
    (by
      intro j hj
      obtain ⟨a, ha, rfl⟩ := List.mem_map.1 hj
      have hlt' : (s.next + a) % s.ws.length < s.ws.length := Nat.mod_lt _ hA.n
      exact ⟨_, List.getElem?_eq_getElem hlt', fun hx => hf a (List.mem_range.1 ha) ⟨_, List.getElem?_eq_getElem hlt', hx⟩⟩)
    hw hl
  rw [List.length_map, List.length_range] at this
  exact ⟨_, this, rfl, rfl⟩

/-- Both kinds of call on a pool of three workers with queues of one task: the second `Add(f)` goes to worker 1, and so does
the task for index 7. -/
example : ∃ s, Reachable Init step s ∧ (decide (s.acc = [(0, 0), (1, 1), (2, 2), (3, 0), (4, 1)]) && decide (s.ran = [(0, 0), (1, 1)])) = true :=
  reach_of (n := 3) (cap := 1) (m := 2) (by decide) (by decide)
    (acts := [.add 0 false, .caller 0, .caller 0, .caller 0, .add 0 false, .caller 0, .caller 0, .caller 0,
      .add 1 true, .caller 1, .caller 1, .caller 1, .worker 0, .worker 0, .worker 0, .worker 0,
      .worker 1, .worker 1, .worker 1, .worker 1,
      .add 0 false, .caller 0, .caller 0, .caller 0, .addTo 0 7 false, .caller 0, .caller 0]) (by decide)

/-! ## Nobody waits for nothing -/

/-- While a caller is asleep inside `Add`, the worker it waits for has a full queue or is about to wake it. -/
theorem C69_sleep_reason {s : S} (h : Reachable Init step s) {c} {k : Kind} {x e aw} (hc : s.cs[c]? = some (.sleep k x e aw))
    (hb : step s (.caller c) = none) :
    ∃ w, s.ws[k.main]? = some w ∧ (w.q.length = s.cap ∨ (∃ ts, w.pc = .more ts) ∨ ∃ ts, w.pc = .ntf ts) := by
  obtain ⟨_, hB, _⟩ := inv h
  have hlt := hB.rng _ _ hc
  have hw := List.getElem?_eq_getElem hlt
  refine ⟨_, hw, ?_⟩
  simp only [step, S.caller, hc, hw] at hb
  split at hb
  · rename_i he
    rcases (hB.owe _ _ _ _ _ hc rfl _ hw).2 he (by simp) with h1 | h1
    · exact .inl h1
    · right
      generalize (s.ws[k.main]'hlt).pc = p at h1
      cases p <;> first | exact .inl ⟨_, rfl⟩ | exact .inr ⟨_, rfl⟩ | cases h1
  · cases hb

theorem worker_blocked {s : S} {k : Nat} {w : W} (hw : s.ws[k]? = some w) (h : s.worker k = none) :
    w.pc = .gone ∨ ∃ e, w.pc = .sleep e ∧ w.pullE = e := by
  simp only [S.worker, hw] at h
  cases hp : w.pc <;> simp only [hp] at h
  · split at h <;> cases h
  · cases h
  · cases h
  · split at h <;> cases h
  · cases h
  · rename_i e
    split at h
    · rename_i he; exact .inr ⟨e, rfl, he⟩
    · cases h
  · split at h
    · split at h <;> cases h
    · cases h
  · cases h
  · rename_i ts; cases ts <;> cases h
  · exact .inl rfl

/-- While the pool is open, nothing gets stuck: when nothing moves by itself, every task that was added has run, every queue
is empty and every call of `Add` or `Await` has returned. -/
theorem C69_no_lost_wakeup {s : S} (h : Reachable Init step s) (ho : s.phase = .opn) (hs : s.Still) :
    (∀ (c : Nat) (pc : CPc), s.cs[c]? = some pc → pc = .idle) ∧ (∀ k, s.ranAt k = s.queuedAt k) ∧
    (∀ (k : Nat) (w : W), s.ws[k]? = some w → w.q = []) ∧ ∀ p ∈ s.acc, p ∈ s.ran := by
  obtain ⟨hA, hB, hC⟩ := inv h
  -- no caller is about to notify
  have hntf : ∀ (c i x : Nat) (aw : Bool), s.cs[c]? ≠ some (.ntf i x aw) := by
    intro c i x aw hc
    have h1 := hs.1 c
    have hlt : i < s.ws.length := hB.rng _ _ hc
    simp only [step, S.caller, hc, List.getElem?_eq_getElem hlt] at h1
    cases h1
  have hw : ∀ (k : Nat) (w : W), s.ws[k]? = some w → w.q = [] ∧ ∃ e, w.pc = .sleep e := by
    intro k w hk
    rcases worker_blocked hk (hs.2.1 k) with hg | ⟨e, hg, he⟩
    · have h1 := hC.gone _ _ hk hg
      have h2 := hC.cl _ _ hk
      rw [ho, h1] at h2; cases h2
    · refine ⟨?_, e, hg⟩
      rcases (hB.wok _ _ hk).2 e (by rw [hg]; rfl) he with h1 | ⟨c, x, aw, h1⟩
      · exact h1
      · exact absurd h1 (hntf _ _ _ _)
  have hran : ∀ k, s.ranAt k = s.queuedAt k := by
    intro k
    show ofW s.ran k = ofW s.acc k
    by_cases hk : k < s.ws.length
    · have hk' := List.getElem?_eq_getElem hk
      obtain ⟨h1, e, h2⟩ := hw k _ hk'
      rw [hA.ord k _ hk', h1, h2]; simp [WPc.batch]
    · have h0 : ∀ l : List (Nat × Nat), (∀ p ∈ l, p.2 < s.ws.length) → ofW l k = [] := by
        intro l hl
        unfold ofW
        rw [List.map_eq_nil_iff, List.filter_eq_nil_iff]
        intro p hp
        have := hl p hp
        simp; omega
      rw [h0 _ hA.ranK, h0 _ hA.accK]
  have hall : ∀ p ∈ s.acc, p ∈ s.ran := by
    intro p hp
    obtain ⟨x, k⟩ := p
    have h1 : x ∈ ofW s.acc k := List.mem_map.2 ⟨(x, k), List.mem_filter.2 ⟨hp, by simp⟩, rfl⟩
    rw [show ofW s.acc k = ofW s.ran k from (hran k).symm] at h1
    obtain ⟨⟨y, j⟩, h2, rfl⟩ := List.mem_map.1 h1
    have h3 := List.mem_filter.1 h2
    have h4 : j = k := by simpa using h3.2
    subst h4; exact h3.1
  refine ⟨?_, hran, fun k w hk => (hw k w hk).1, hall⟩
  intro c pc hc
  have hcal := hs.1 c
  cases pc with
  | idle => rfl
  | prep k x aw =>
    have hlt : k.main < s.ws.length := hB.rng _ _ hc
    simp only [step, S.caller, hc, List.getElem?_eq_getElem hlt] at hcal
    cases hcal
  | try_ k rest x e aw =>
    have hr := hB.rng _ _ hc
    cases rest with
    | nil => exact absurd rfl hr.2.1
    | cons i rest =>
      have hlt : i < s.ws.length := hr.2.2 i (by simp)
      simp only [step, S.caller, hc, List.getElem?_eq_getElem hlt] at hcal
      split at hcal
      · cases hcal
      · cases rest <;> cases e <;> cases hcal
  | ntf i x aw => exact absurd hc (hntf _ _ _ _)
  | sleep k x e aw =>
    obtain ⟨w, hk, h1⟩ := C69_sleep_reason h hc hcal
    obtain ⟨h2, e', h3⟩ := hw _ _ hk
    rcases h1 with h1 | ⟨ts, h1⟩ | ⟨ts, h1⟩
    · rw [h2] at h1; have := hA.cap; simp at h1; omega
    · rw [h3] at h1; cases h1
    · rw [h3] at h1; cases h1
  | await x =>
    obtain ⟨p, hp, hx⟩ := List.mem_map.1 (hA.put _ _ _ hc rfl)
    have : x ∈ s.ran.map Prod.fst := List.mem_map.2 ⟨p, hall p hp, hx⟩
    simp only [step, S.caller, hc, this, if_true] at hcal
    cases hcal

/-- `C69_no_lost_wakeup` speaks of a pool that has worked: here two callers have added to one worker with room for one task,
one of them has slept, both tasks have run and all is still. -/
example : ∃ s, Reachable Init step s ∧ (decide (s.ran = [(0, 0), (1, 0)]) && decide (s.cs = [.idle, .idle]) &&
    decide (s.phase = .opn) && (s.worker 0).isNone && (s.caller 0).isNone && (s.caller 1).isNone && s.sd.isNone) = true :=
  reach_of (n := 1) (cap := 1) (m := 2) (by decide) (by decide)
    (acts := [.add 0 true, .caller 0, .caller 0, .caller 0, .addTo 1 5 false, .caller 1, .caller 1, .caller 1,
      .worker 0, .worker 0, .worker 0, .caller 1, .caller 1, .caller 1, .caller 1, .worker 0, .caller 0, .worker 0,
      .worker 0, .worker 0, .worker 0, .worker 0, .worker 0,
      .worker 0, .worker 0, .worker 0, .worker 0, .worker 0]) (by decide)

/-! ## `Await` -/

/-- Caller `c` is in `Await` with task `x`. -/
def CPc.awaits (x : Nat) : CPc → Bool
  | .prep _ y true => x == y
  | .try_ _ _ y _ true => x == y
  | .ntf _ y true => x == y
  | .sleep _ y _ true => x == y
  | .await y => x == y
  | _ => false

def Awaiting (c x : Nat) (s : S) : Prop := x ∈ s.ran.map Prod.fst ∨ ∃ pc, s.cs[c]? = some pc ∧ pc.awaits x = true

theorem awaiting_c {s s' : S} {c x d : Nat} {pc pc' : CPc} (h : Awaiting c x s) (hd : s.cs[d]? = some pc)
    (hs : pc.awaits x = true → pc'.awaits x = true ∨ x ∈ s.ran.map Prod.fst) (h1 : s'.cs = s.cs.set d pc') (h2 : s'.ran = s.ran) :
    Awaiting c x s' := by
  rcases h with h | ⟨p, hp, ha⟩
  · left; rw [h2]; exact h
  · by_cases hcd : d = c
    · subst hcd
      rw [hd] at hp; cases hp
      rcases hs ha with h | h
      · right; exact ⟨pc', by rw [h1, List.getElem?_set_self (lt_of_get hd)], h⟩
      · left; rw [h2]; exact h
    · right; exact ⟨p, by rw [h1, List.getElem?_set_ne hcd]; exact hp, ha⟩

theorem awaiting_mv {s s' : S} {c x : Nat} (h : Awaiting c x s) (hm : Mv s s') : Awaiting c x s' := by
  cases hm with
  | add _ hc => exact awaiting_c h hc (fun h => by cases h) rfl rfl
  | addTo _ hc => exact awaiting_c h hc (fun h => by cases h) rfl rfl
  | @prep d k y aw w hc => exact awaiting_c h hc (fun h => .inl (by cases aw; cases h; exact h)) rfl rfl
  | @enq d k i rest y e aw w hc => exact awaiting_c h hc (fun h => .inl (by cases aw; cases h; exact h)) rfl rfl
  | @nxt d k i j rest y e aw w hc => exact awaiting_c h hc (fun h => .inl (by cases aw; cases h; exact h)) rfl rfl
  | @slp d k i y e aw w hc => exact awaiting_c h hc (fun h => .inl (by cases aw; cases h; exact h)) rfl rfl
  | @retry d k i y aw w hc => exact awaiting_c h hc (fun h => .inl (by cases aw; cases h; exact h)) rfl rfl
  | @cntf d i y aw w hc => exact awaiting_c h hc (fun h => .inl (by cases aw; cases h; exact h)) rfl rfl
  | @wake d k y e aw w hc => exact awaiting_c h hc (fun h => .inl (by cases aw; cases h; exact h)) rfl rfl
  | @done d y hc hr =>
    refine awaiting_c h hc (fun h => .inr ?_) rfl rfl
    have : x = y := by simpa [CPc.awaits] using h
    rw [this]; exact hr
  | take => exact h
  | empty0 => exact h
  | empty1 => exact h
  | exit => exact h
  | stay => exact h
  | wslp => exact h
  | wprep => exact h
  | wwake => exact h
  | full => exact h
  | wntf => exact h
  | run =>
    rcases h with h | h
    · left
      show x ∈ (s.ran ++ _).map Prod.fst
      rw [List.map_append]; exact List.mem_append_left _ h
    · exact .inr h
  | again => exact h
  | shutdown => exact h
  | close => exact h
  | closed => exact h
  | sntf => exact h
  | join => exact h
  | down => exact h

/-- `Await` returns only after its task has run: a caller that is idle again has had it run. -/
theorem C69_await {s s1 s2 : S} {c acts} (h1 : step s (.add c true) = some s1 ∨ ∃ i, step s (.addTo c i true) = some s1)
    (h2 : exec step s1 acts = some s2) (hr : s2.cs[c]? = some .idle) : ∃ k, s2.Ran s.cnt k := by
  have h0 : Awaiting c s.cnt s1 := by
    rcases h1 with h1 | ⟨i, h1⟩
    · simp only [step, S.add] at h1
      split at h1 <;> cases h1
      rename_i hn
      have : s.cs[c]? = some .idle := by apply Classical.byContradiction; intro hx; exact hn (.inr hx)
      exact .inr ⟨_, by show (s.cs.set c _)[c]? = _; rw [List.getElem?_set_self (lt_of_get this)], by simp [CPc.awaits]⟩
    · simp only [step, S.addTo] at h1
      split at h1 <;> cases h1
      rename_i hn
      have : s.cs[c]? = some .idle := by apply Classical.byContradiction; intro hx; exact hn (.inr hx)
      exact .inr ⟨_, by show (s.cs.set c _)[c]? = _; rw [List.getElem?_set_self (lt_of_get this)], by simp [CPc.awaits]⟩
  rcases exec_inv (fun _ _ => awaiting_mv) acts h0 h2 with h | ⟨pc, hp, ha⟩
  · obtain ⟨⟨y, k⟩, h3, h4⟩ := List.mem_map.1 h
    exact ⟨k, by show (s.cnt, k) ∈ s2.ran; rw [← h4]; exact h3⟩
  · rw [hr] at hp; cases hp; cases ha

/-! ## Waiting for one worker only -/

/-- A caller of `Add(f)` sleeps until the worker at which its attempts began notifies, whatever the other workers do. -/
theorem C69_waits_for_start {s s' : S} {c k x e aw} {w : W} (hc : s.cs[c]? = some (.sleep k x e aw))
    (hw : s.ws[k.main]? = some w) (he : w.pushE = e) {acts : List Act} (hn : .worker k.main ∉ acts)
    (hx : exec step s acts = some s') : s'.Asleep c := by
  have key : ∀ (acts : List Act) (s s' : S), .worker k.main ∉ acts → s.cs[c]? = some (.sleep k x e aw) →
      (∃ w : W, s.ws[k.main]? = some w ∧ w.pushE = e) → exec step s acts = some s' →
      s'.cs[c]? = some (.sleep k x e aw) ∧ ∃ w : W, s'.ws[k.main]? = some w ∧ w.pushE = e := by
    intro acts
    induction acts with
    | nil => intro s s' _ h1 h2 h3; cases h3; exact ⟨h1, h2⟩
    | cons a acts ih =>
      intro s s' hn h1 h2 h3
      simp only [exec] at h3
      split at h3
      · cases h3
      rename_i s1 hs
      have hn' : Act.worker k.main ∉ acts := fun h => hn (List.mem_cons_of_mem _ h)
      obtain ⟨w, hw, he⟩ := h2
      refine ih s1 s' hn' ?_ ?_ h3
      · have setc : ∀ {d : Nat} {pc pc' : CPc}, s.cs[d]? = some pc → (∀ k x e aw, pc ≠ .sleep k x e aw) →
            (s.cs.set d pc')[c]? = some (.sleep k x e aw) := by
          intro d pc pc' hd hp
          rw [List.getElem?_set_ne]
          · exact h1
          · rintro rfl; rw [h1] at hd; exact hp _ _ _ _ (Option.some.inj hd).symm
        cases step_mv hs with
        | add _ h => exact setc h (by intros; exact CPc.noConfusion)
        | addTo _ h => exact setc h (by intros; exact CPc.noConfusion)
        | prep h => exact setc h (by intros; exact CPc.noConfusion)
        | enq h => exact setc h (by intros; exact CPc.noConfusion)
        | nxt h => exact setc h (by intros; exact CPc.noConfusion)
        | slp h => exact setc h (by intros; exact CPc.noConfusion)
        | retry h => exact setc h (by intros; exact CPc.noConfusion)
        | cntf h => exact setc h (by intros; exact CPc.noConfusion)
        | @wake d k' x' e' aw' w' h hw' hne =>
          show (s.cs.set d _)[c]? = _
          rw [List.getElem?_set_ne]
          · exact h1
          · rintro rfl
            rw [h1] at h; cases h
            rw [hw] at hw'; cases hw'
            exact hne he
        | done h => exact setc h (by intros; exact CPc.noConfusion)
        | _ => exact h1
      · have setw : ∀ {j : Nat} {v v' : W}, s.ws[j]? = some v → v'.pushE = v.pushE →
            ∃ u : W, (s.ws.set j v')[k.main]? = some u ∧ u.pushE = e := by
          intro j v v' hv hp
          by_cases hj : j = k.main
          · subst hj
            rw [hw] at hv; cases hv
            exact ⟨v', by rw [List.getElem?_set_self (lt_of_get hw)], by rw [hp, he]⟩
          · exact ⟨w, by rw [List.getElem?_set_ne hj]; exact hw, he⟩
        cases a with
        | worker j =>
          have hj : j ≠ k.main := by rintro rfl; exact hn (by simp)
          have : s1.ws[k.main]? = s.ws[k.main]? := by
            simp only [step, S.worker] at hs
            split at hs
            · cases hs
            split at hs
            · split at hs <;> cases hs <;> exact List.getElem?_set_ne hj
            · cases hs; exact List.getElem?_set_ne hj
            · cases hs; exact List.getElem?_set_ne hj
            · split at hs <;> cases hs <;> exact List.getElem?_set_ne hj
            · cases hs; exact List.getElem?_set_ne hj
            · split at hs <;> cases hs; exact List.getElem?_set_ne hj
            · split at hs
              · split at hs <;> cases hs <;> exact List.getElem?_set_ne hj
              · cases hs; exact List.getElem?_set_ne hj
            · cases hs; exact List.getElem?_set_ne hj
            · cases hs; exact List.getElem?_set_ne hj
            · cases hs; exact List.getElem?_set_ne hj
            · cases hs
          exact ⟨w, by rw [this]; exact hw, he⟩
        | caller d =>
          simp only [step, S.caller] at hs
          split at hs
          · cases hs
          · cases hs
          · split at hs <;> cases hs; exact ⟨w, hw, he⟩
          · cases hs
          · split at hs
            · cases hs
            · rename_i v hv
              split at hs
              · cases hs; exact setw hv rfl
              · split at hs <;> cases hs <;> exact ⟨w, hw, he⟩
          · split at hs
            · cases hs
            · rename_i v hv
              cases hs; exact setw hv rfl
          · split at hs
            · cases hs
            · split at hs <;> cases hs; exact ⟨w, hw, he⟩
          · split at hs <;> cases hs; exact ⟨w, hw, he⟩
        | add d aw' => simp only [step, S.add] at hs; split at hs <;> cases hs; exact ⟨w, hw, he⟩
        | addTo d i aw' => simp only [step, S.addTo] at hs; split at hs <;> cases hs; exact ⟨w, hw, he⟩
        | shutdown => simp only [step] at hs; split at hs <;> cases hs; exact ⟨w, hw, he⟩
        | sd =>
          simp only [step, S.sd] at hs
          split at hs
          · cases hs
          · split at hs
            · rename_i v hv; cases hs; exact setw hv rfl
            · cases hs; exact ⟨w, hw, he⟩
          · split at hs
            · rename_i v hv; cases hs; exact setw hv rfl
            · cases hs
          · split at hs
            · split at hs <;> cases hs; exact ⟨w, hw, he⟩
            · cases hs; exact ⟨w, hw, he⟩
          · cases hs
  obtain ⟨h1, w', h2, h3⟩ := key acts s s' hn hc ⟨w, hw, he⟩ hx
  refine ⟨⟨_, _, _, _, h1⟩, ?_⟩
  simp only [step, S.caller, h1, h2, h3, if_true]

/-- So `Add(f)` may sleep although another worker has nothing to do and room in its queue: worker 0 is running a task, the
caller waits for worker 0, and worker 1 is idle. -/
theorem C69_idle_worker_not_used : ∃ s, Reachable Init step s ∧ s.Asleep 0 ∧ s.Idle 1 ∧ s.room 1 ∧
    ∃ w, s.ws[0]? = some w ∧ w.pc = .exec [0] := by
  obtain ⟨s, hs, h⟩ := reach_of (n := 2) (cap := 1) (m := 1) (by decide) (by decide)
    (acts := [.add 0 false, .caller 0, .caller 0, .caller 0, .worker 0, .worker 0, .worker 0,
      .add 0 false, .caller 0, .caller 0, .caller 0, .add 0 false, .caller 0, .caller 0, .caller 0,
      .worker 1, .worker 1, .worker 1, .add 0 false, .caller 0, .caller 0, .caller 0,
      .add 0 false, .caller 0, .caller 0, .caller 0] ++ List.replicate 12 (.worker 1))
    (P := fun s => decide (s.cs = [.sleep (.any 0) 4 1 false]) && (s.caller 0).isNone && (s.worker 1).isNone && decide (s.cap = 1) &&
      decide (s.ws = [⟨[2], false, 1, 2, .exec [0]⟩, ⟨[], false, 2, 2, .sleep 2⟩])) (by decide)
  simp only [Bool.and_eq_true, decide_eq_true_eq, Option.isNone_iff_eq_none] at h
  obtain ⟨⟨⟨⟨h1, h2⟩, h3⟩, h4⟩, h5⟩ := h
  refine ⟨s, hs, ⟨⟨.any 0, 4, 1, false, by rw [h1]; rfl⟩, h2⟩, ⟨⟨_, _, by rw [h5]; rfl, rfl, rfl⟩, h3⟩,
    ⟨_, by rw [h5]; rfl, by rw [h4]; decide⟩, _, by rw [h5]; rfl, rfl⟩

/-! ## `Shutdown` -/

/-- `Shutdown` returns: once it was called, when nothing moves by itself it has returned and no worker runs. -/
theorem C69_shutdown_returns {s : S} (h : Reachable Init step s) (hp : s.phase ≠ .opn) (hs : s.Still) :
    s.phase = .down ∧ ∀ (k : Nat) (w : W), s.ws[k]? = some w → w.pc = .gone := by
  obtain ⟨hA, hB, hC⟩ := inv h
  have hd : s.phase = .down := by
    have hsd := hs.2.2
    simp only [step, S.sd] at hsd
    split at hsd
    · rename_i h1; exact absurd h1 hp
    · split at hsd <;> cases hsd
    · rename_i k h1
      split at hsd
      · cases hsd
      · rename_i hn
        have := List.getElem?_eq_none_iff.1 hn
        exact absurd (hC.kn k h1) (by omega)
    · rename_i k h1
      split at hsd
      · rename_i w hw
        split at hsd
        · cases hsd
        · rename_i hg
          rcases worker_blocked hw (hs.2.1 k) with h2 | ⟨e, h2, h3⟩
          · exact absurd h2 hg
          · have h4 := hC.cl _ _ hw
            rw [h1] at h4
            have := hC.slc _ _ _ hw h2 h4 h3
            rw [h1] at this; cases this
      · cases hsd
    · assumption
  exact ⟨hd, fun k w hw => hC.down _ _ hd hw⟩

/-- Every task that was added is run before `Shutdown` returns, in executions in which no worker that was told to close is
between finding its queue empty and looking at the flag while its queue has a task. `C69_task_lost` is such a case. -/
theorem C69_drained_partial {s : S} (h : Reach Init step Calm s) (hp : s.phase = .down) : ∀ p ∈ s.acc, p ∈ s.ran := by
  obtain ⟨hC, hD⟩ := invD h
  have hA := invA (h.mono (fun _ _ => trivial))
  intro p hpm
  obtain ⟨x, k⟩ := p
  have hk := List.getElem?_eq_getElem (hA.accK _ hpm)
  have hg := hC.down _ _ hp hk
  have hq := hD _ _ hk hg
  have ho := hA.ord _ _ hk
  rw [hg, hq] at ho
  have h1 : x ∈ ofW s.acc k := List.mem_map.2 ⟨(x, k), List.mem_filter.2 ⟨hpm, by simp⟩, rfl⟩
  rw [ho] at h1
  simp only [WPc.batch, List.append_nil] at h1
  obtain ⟨⟨y, j⟩, h2, rfl⟩ := List.mem_map.1 h1
  have h3 := List.mem_filter.1 h2
  have h4 : j = k := by simpa using h3.2
  subst h4; exact h3.1

def W.calm (w : W) : Bool := !w.closed || w.q.isEmpty || match w.pc with | .cls0 => false | .cls1 _ => false | _ => true

/-- Run while `Calm`. -/
def execCalm (s : S) : List Act → Option S
  | [] => some s
  | a :: acts => match step s a with
    | none => none
    | some s1 => if s1.ws.all W.calm then execCalm s1 acts else none

theorem calm_of {s : S} (h : s.ws.all W.calm = true) : Calm s := by
  intro k w hk hc hp
  have h1 := List.all_eq_true.1 h _ (List.mem_of_getElem? hk)
  unfold W.calm at h1
  rw [hc] at h1
  rcases hp with hp | ⟨e, hp⟩ <;> rw [hp] at h1 <;> simpa using h1

theorem reach_calm : ∀ (acts : List Act) {s s' : S}, Reach Init step Calm s → execCalm s acts = some s' → Reach Init step Calm s' := by
  intro acts
  induction acts with
  | nil => intro s s' h he; cases he; exact h
  | cons a acts ih =>
    intro s s' h he
    simp only [execCalm] at he
    split at he
    · cases he
    · rename_i s1 h1
      split at he
      · rename_i hc; exact ih (.step h h1 (calm_of hc)) he
      · cases he

/-- Such an execution: two workers, one of them asleep and one with a task in its queue, are shut down. -/
example : ∃ s, Reach Init step Calm s ∧ s.phase = .down ∧ s.ran = [(0, 1), (1, 0)] := by
  have h : (execCalm (S.new 2 1 1) ([.worker 0, .worker 0, .worker 0, .worker 0, .worker 0, .addTo 0 3 false, .caller 0, .caller 0,
      .worker 1, .addTo 0 2 false, .caller 0, .caller 0, .shutdown, .sd, .sd, .worker 1, .worker 1, .sd, .sd, .sd, .worker 1] ++
      List.replicate 3 (.worker 1) ++ List.replicate 9 (.worker 0) ++ [.sd, .sd, .sd])).map
      (fun s => decide (s.phase = .down) && decide (s.ran = [(0, 1), (1, 0)])) = some true := by decide
  cases he : execCalm (S.new 2 1 1) ([.worker 0, .worker 0, .worker 0, .worker 0, .worker 0, .addTo 0 3 false, .caller 0, .caller 0,
      .worker 1, .addTo 0 2 false, .caller 0, .caller 0, .shutdown, .sd, .sd, .worker 1, .worker 1, .sd, .sd, .sd, .worker 1] ++
      List.replicate 3 (.worker 1) ++ List.replicate 9 (.worker 0) ++ [.sd, .sd, .sd]) with
  | none => rw [he] at h; cases h
  | some s =>
    rw [he] at h
    simp only [Option.map_some, Option.some.injEq, Bool.and_eq_true, decide_eq_true_eq] at h
    refine ⟨s, reach_calm _ (.init ⟨2, 1, 1, by decide, by decide, rfl⟩ ?_) he, h.1, h.2⟩
    exact calm_of (by decide)

/-- A task that was added before `Shutdown` was called, by the same thread, may never run: the worker has found its queue
empty, the task is added and the pool closed, and then the worker looks at the flag. -/
theorem C69_task_lost : ∃ s, Reachable Init step s ∧ s.phase = .down ∧ s.acc = [(0, 0)] ∧ s.ran = [] := by
  obtain ⟨s, hs, h⟩ := reach_of (n := 1) (cap := 1) (m := 1) (by decide) (by decide)
    (acts := [.worker 0, .add 0 false, .caller 0, .caller 0, .caller 0, .shutdown, .sd, .sd, .sd, .worker 0, .sd, .sd])
    (P := fun s => decide (s.phase = .down) && decide (s.acc = [(0, 0)]) && decide (s.ran = [])) (by decide)
  simp only [Bool.and_eq_true, decide_eq_true_eq] at h
  exact ⟨s, hs, h.1.1, h.1.2, h.2⟩

end Verif.FQPool
