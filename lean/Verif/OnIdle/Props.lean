import Verif.OnIdle.Lemmas

/-!
# C32: on-idle tasks

`Common.run (step cf) init ops = some (os, s)` is any defined history of `AddOnIdleTask`,
`RemoveOnIdleTask` and idle-loop passes on a fresh proactor. `installed (events os)` is the client's
own table from ids to tasks, computed from the results it saw.
-/
namespace Verif.OnIdle

/-- **C32** After any history the vector holds, at each position, exactly the task the client
believes is installed under that id. -/
theorem C32_table (cf : Cfg) (ops : List Op) (os : List Obs) (s : St)
    (h : Common.run (step cf) init ops = some (os, s)) :
    ∀ i, (s.arr[i]?.join).map (·.tid) = installed (events os) i := by
  have := run_inv cf ops init [] os s init_inv h
  intro i
  exact this.tab i

/-- **C32** `AddOnIdleTask` returns an id no installed task has, and a task number never used
before. -/
theorem C32_add_fresh (cf : Cfg) (ops : List Op) (os : List Obs) (s : St) (ob : Obs) (s' : St)
    (h : Common.run (step cf) init ops = some (os, s)) (ha : step cf s .add = some (ob, s')) :
    ∃ id tid, ob.res = .id id ∧ installed (events os) id = none ∧
      (∀ i, installed (events os) i ≠ some tid) ∧
      ∀ i, installed (events os ++ ob.log) i = if i = id then some tid else installed (events os) i := by
  have hi := run_inv cf ops init [] os s init_inv h
  simp only [List.nil_append] at hi
  simp only [step, Option.some.injEq, Prod.mk.injEq] at ha
  obtain ⟨rfl, rfl⟩ := ha
  refine ⟨s.arr.length, s.cnt, rfl, ?_, ?_, ?_⟩
  · rw [← hi.tab]; simp [tidAt]
  · intro i h1
    rw [← hi.tab] at h1
    exact absurd (hi.old _ _ h1) (Nat.lt_irrefl _)
  · intro i
    rw [installed_append]
    rfl

/-- **C32** `RemoveOnIdleTask(id)` is defined, returns true exactly if a task is installed under
`id`, and then removes that one and no other. -/
theorem C32_remove_exact (cf : Cfg) (ops : List Op) (os : List Obs) (s : St) (id : Nat)
    (h : Common.run (step cf) init ops = some (os, s)) :
    ∃ ob s', step cf s (.remove id) = some (ob, s') ∧
      ob.res = .ok (installed (events os) id).isSome ∧
      ∀ i, (s'.arr[i]?.join).map (·.tid) = if i = id then none else installed (events os) i := by
  have hi := run_inv cf ops init [] os s init_inv h
  simp only [List.nil_append] at hi
  refine ⟨_, _, rfl, ?_, ?_⟩
  · rw [← hi.tab]; simp only [remove_res]
  · intro i
    rw [← hi.tab]
    exact remove_tid s.arr id i

/-- The cursor is inside the vector. -/
def Inside (s : St) : Prop := s.next < s.arr.length ∨ (s.arr = [] ∧ s.next = 0)

theorem step_inside {cf s log op} (hi : Inv s log) (hn : Inside s) (hp : Polite op) (hr : NotRemove op) :
    ∃ ob s', step cf s op = some (ob, s') ∧ Inside s' := by
  cases op with
  | add =>
    refine ⟨_, _, rfl, Or.inl ?_⟩
    simp only [List.length_append, List.length_singleton]
    rcases hn with h | ⟨h1, h2⟩
    · omega
    · omega
  | remove id => exact absurd hr (fun h => h)
  | idle env start =>
    simp only [step]
    rcases hn with h | ⟨h1, h2⟩
    · have h0 : s.arr ≠ [] := by intro h0; rw [h0] at h; simp at h
      obtain ⟨o, ho⟩ := loop_some cf env start hp s.arr.length s.arr s.next start hi.dist h (by omega)
      have hrun : runIdle cf env start s = some o := by unfold runIdle; rw [if_neg h0, ho]
      refine ⟨_, _, by rw [hrun]; rfl, ?_⟩
      have ok := loop_ok _ _ _ _ _ _ _ _ hi.dist ho
      obtain ⟨k, _, _, hk⟩ := ok.vis
      unfold Inside
      simp only
      rcases hk with ⟨_, hk2⟩ | ⟨hk1, hk2⟩
      · exact Or.inl hk2
      · by_cases he : o.arr = []
        · exact Or.inr ⟨he, hk1⟩
        · left; rw [hk1]; exact List.length_pos_iff.2 he
    · have hrun : runIdle cf env start s = some ⟨s.arr, s.next, false, [], []⟩ := by
        unfold runIdle; rw [if_pos h1]
      exact ⟨_, _, by rw [hrun]; rfl, Or.inr ⟨h1, h2⟩⟩

theorem run_inside (cf : Cfg) (ops : List Op) : ∀ (s : St) (log : List Ev), Inv s log → Inside s →
    (∀ op ∈ ops, Polite op ∧ NotRemove op) → ∃ r, Common.run (step cf) s ops = some r ∧ Inside r.2 := by
  induction ops with
  | nil => intro s log _ hn _; exact ⟨_, rfl, hn⟩
  | cons op ops ih =>
    intro s log hi hn hp
    obtain ⟨ob, s1, hs, hn1⟩ := step_inside (cf := cf) hi hn (hp op (List.mem_cons_self ..)).1
      (hp op (List.mem_cons_self ..)).2
    obtain ⟨r, hr, hn2⟩ := ih s1 _ (step_inv hi hs) hn1 (fun o ho => hp o (List.mem_cons_of_mem _ ho))
    exact ⟨(ob :: r.1, r.2), by simp only [Common.run, hs, hr], hn2⟩

/-- **C32** (safety, partial) If tasks are removed only by their own result or by other tasks from
inside the idle loop, no history touches an element that does not exist. Missing: removals from
outside the idle loop, for which the claim is false (`C32_remove_then_run_ub`). -/
theorem C32_safe_partial (cf : Cfg) (ops : List Op) (hp : ∀ op ∈ ops, Polite op ∧ NotRemove op) :
    ∃ r, Common.run (step cf) init ops = some r := by
  obtain ⟨r, hr, _⟩ := run_inside cf ops init [] init_inv (Or.inr ⟨rfl, rfl⟩) hp
  exact ⟨r, hr⟩

/-- **C32** An idle pass is undefined exactly if there are tasks and the cursor is outside the
vector. -/
theorem C32_ub_iff (cf : Cfg) (ops : List Op) (os : List Obs) (s : St) (env : Nat → Exec) (start : Nat)
    (h : Common.run (step cf) init ops = some (os, s)) (hp : Polite (.idle env start)) :
    step cf s (.idle env start) = none ↔ s.arr ≠ [] ∧ s.arr.length ≤ s.next := by
  have hi := run_inv cf ops init [] os s init_inv h
  constructor
  · intro hn
    refine ⟨?_, ?_⟩
    · intro h0
      simp [step, runIdle, h0] at hn
    · by_cases hl : s.next < s.arr.length
      · obtain ⟨ob, s', hs, _⟩ := step_inside (cf := cf) hi (Or.inl hl) hp trivial
        rw [hs] at hn; cases hn
      · omega
  · intro ⟨h0, hl⟩
    obtain ⟨n, hn⟩ : ∃ n, s.arr.length = n + 1 :=
      ⟨s.arr.length - 1, by have := List.length_pos_iff.2 h0; omega⟩
    simp only [step, runIdle, if_neg h0]
    have : loop cf env start s.arr.length s.arr s.next start = none := by
      rw [hn]
      unfold loop
      rw [visit_none hl]
    rw [this]
    rfl

/-- A task that always asks to run again as soon as possible, and takes long. -/
def busy : Nat → Exec := fun _ => ⟨21, 100, []⟩

/-- A task that unregisters itself. -/
def once : Nat → Exec := fun _ => ⟨-1, 0, []⟩

/-- **C32** (refuted) `RemoveOnIdleTask` from outside the idle loop may leave the cursor behind the
end of the vector, and the next idle pass then reads an element that does not exist: two tasks, one
pass that runs out of its time budget after the first, removal of the second, next pass. -/
theorem C32_remove_then_run_ub :
    let cf : Cfg := ⟨10, 1000⟩
    let ops : List Op := [.add, .add, .idle busy 0, .remove 1]
    (∃ r, Common.run (step cf) init ops = some r) ∧
    (∀ op ∈ ops ++ [.idle busy 200], Polite op) ∧
    Common.run (step cf) init (ops ++ [.idle busy 200]) = none := by
  refine ⟨⟨_, rfl⟩, ?_, rfl⟩
  intro op hop
  simp only [List.cons_append, List.nil_append, List.mem_cons, List.not_mem_nil, or_false] at hop
  rcases hop with rfl | rfl | rfl | rfl | rfl <;> try exact trivial
  all_goals (intro i h; exact absurd h (by simp [busy]))

/-- **C32** (refuted) Ids are not unique: the second task unregisters itself, a third task gets its
id, and `RemoveOnIdleTask` with the id of the second removes the third. -/
theorem C32_id_reused :
    ∃ os s, Common.run (step ⟨10, 1000⟩) init
        [.add, .add, .idle (fun i => if i = 1 then ⟨-1, 0, []⟩ else ⟨0, 0, []⟩) 0, .add, .remove 1] =
        some (os, s) ∧
      os.map (·.res) = [.id 0, .id 1, .ok false, .id 1, .ok true] ∧
      installed (events (os.take 4)) 1 = some 2 ∧ installed (events os) 1 = none :=
  ⟨_, _, rfl, by decide +kernel, by decide +kernel, by decide +kernel⟩

/-- **C32** (round robin) A pass that finds tasks looks at consecutive positions, at least one,
starting where the cursor stands; it leaves the cursor behind the last one, or at the start of the
vector if that was the last position. -/
theorem C32_round_robin (cf : Cfg) (ops : List Op) (os : List Obs) (s : St) (env : Nat → Exec)
    (start : Nat) (ob : Obs) (s' : St) (h : Common.run (step cf) init ops = some (os, s))
    (hs : step cf s (.idle env start) = some (ob, s')) (h0 : s.arr ≠ []) :
    ∃ k, ob.visited = List.range' s.next (k + 1) ∧ s.next + k < s.arr.length ∧
      ((s'.next = s.next + k + 1 ∧ s'.next < s'.arr.length) ∨
        (s'.next = 0 ∧ s'.arr.length ≤ s.next + k + 1)) := by
  have hi := run_inv cf ops init [] os s init_inv h
  simp only [step] at hs
  cases hr : runIdle cf env start s with
  | none => rw [hr] at hs; cases hs
  | some o =>
    rw [hr] at hs
    simp only [Option.map_some, Option.some.injEq, Prod.mk.injEq] at hs
    obtain ⟨rfl, rfl⟩ := hs
    rcases run_ok hr hi.dist with ⟨h1, _⟩ | ⟨_, h1⟩
    · exact absurd h1 h0
    · exact h1.vis

/-- How many positions the cursor still has to pass before it looks at `p`, at most. -/
def dist (s : St) (p : Nat) : Nat := if s.next ≤ p then p - s.next else s.arr.length - s.next + p

theorem visited_runs (cf : Cfg) (p tid : Nat) (ops : List Op) : ∀ (s : St) (log : List Ev)
    (os : List Obs) (s' : St), Inv s log → (∀ op ∈ ops, IsIdle op) →
    Common.run (step cf) s ops = some (os, s') → tidAt s'.arr p = some tid → dist s p < ops.length →
    tidAt s.arr p = some tid ∧ ∃ ob ∈ os, p ∈ ob.visited := by
  induction ops with
  | nil => intro s log os s' _ _ _ _ h; simp at h
  | cons op ops ih =>
    intro s log os s' hi hid hrun hp hd
    have sub : ∀ (ops : List Op) (s : St) (log : List Ev) (os : List Obs) (s' : St), Inv s log →
        (∀ op ∈ ops, IsIdle op) → Common.run (step cf) s ops = some (os, s') →
        tidAt s'.arr p = some tid → tidAt s.arr p = some tid := by
      clear ih hi hid hrun hp hd s log os s' ops op
      intro ops
      induction ops with
      | nil =>
        intro s log os s' _ _ h hp
        simp only [Common.run, Option.some.injEq, Prod.mk.injEq] at h
        rw [h.2]; exact hp
      | cons op ops ih =>
        intro s log os s' hi hid h hp
        simp only [Common.run] at h
        cases hs : step cf s op with
        | none => rw [hs] at h; cases h
        | some q =>
          obtain ⟨o, s1⟩ := q
          rw [hs] at h
          simp only at h
          cases hr : Common.run (step cf) s1 ops with
          | none => rw [hr] at h; cases h
          | some q2 =>
            obtain ⟨os2, s2⟩ := q2
            rw [hr] at h
            simp only [Option.some.injEq, Prod.mk.injEq] at h
            have h1 := ih s1 _ os2 s2 (step_inv hi hs) (fun o ho => hid o (List.mem_cons_of_mem _ ho)) hr
              (by rw [h.2]; exact hp)
            have hidle := hid op (List.mem_cons_self ..)
            cases op with
            | add => exact absurd hidle (fun h => h)
            | remove id => exact absurd hidle (fun h => h)
            | idle env start =>
              simp only [step] at hs
              cases hq : runIdle cf env start s with
              | none => rw [hq] at hs; cases hs
              | some ou =>
                rw [hq] at hs
                simp only [Option.map_some, Option.some.injEq, Prod.mk.injEq] at hs
                obtain ⟨rfl, rfl⟩ := hs
                rcases run_ok hq hi.dist with ⟨_, h3⟩ | ⟨_, h3⟩
                · subst h3; exact h1
                · exact h3.sub _ _ h1
    have h0 := sub _ _ _ _ _ hi hid hrun hp
    refine ⟨h0, ?_⟩
    simp only [Common.run] at hrun
    cases hs : step cf s op with
    | none => rw [hs] at hrun; cases hrun
    | some q =>
      obtain ⟨o, s1⟩ := q
      rw [hs] at hrun
      simp only at hrun
      cases hr : Common.run (step cf) s1 ops with
      | none => rw [hr] at hrun; cases hrun
      | some q2 =>
        obtain ⟨os2, s2⟩ := q2
        rw [hr] at hrun
        simp only [Option.some.injEq, Prod.mk.injEq] at hrun
        obtain ⟨rfl, rfl⟩ := hrun
        have hid' : ∀ op ∈ ops, IsIdle op := fun o ho => hid o (List.mem_cons_of_mem _ ho)
        have hi1 := step_inv hi hs
        have h1 := sub _ _ _ _ _ hi1 hid' hr hp
        by_cases hv : p ∈ o.visited
        · exact ⟨o, List.mem_cons_self .., hv⟩
        · have hlt : dist s1 p < ops.length := by
            have hidle := hid op (List.mem_cons_self ..)
            cases op with
            | add => exact absurd hidle (fun h => h)
            | remove id => exact absurd hidle (fun h => h)
            | idle env start =>
              simp only [step] at hs
              cases hq : runIdle cf env start s with
              | none => rw [hq] at hs; cases hs
              | some ou =>
                rw [hq] at hs
                simp only [Option.map_some, Option.some.injEq, Prod.mk.injEq] at hs
                obtain ⟨rfl, rfl⟩ := hs
                rcases run_ok hq hi.dist with ⟨h3, _⟩ | ⟨_, h3⟩
                · have := tidAt_lt h0; rw [h3] at this; simp at this
                · obtain ⟨k, hk1, hk2, hk3⟩ := h3.vis
                  simp only [hk1, List.mem_range'_1] at hv
                  have hpl := tidAt_lt h1
                  have hpl0 := tidAt_lt h0
                  have hlen := h3.len
                  simp only [List.length_cons] at hd
                  simp only [dist] at hd hpl ⊢
                  rcases hk3 with ⟨a1, a2⟩ | ⟨a1, a2⟩
                  · split at hd <;> split <;> omega
                  · split at hd <;> split <;> omega
          obtain ⟨_, ob, hob, hpv⟩ := ih s1 _ os2 s2 hi1 hid' hr hp hlt
          exact ⟨ob, List.mem_cons_of_mem _ hob, hpv⟩

/-- **C32** (every task is visited, partial) Take any history and then any number of passes, at least
twice the size of the vector: every task that is still installed afterwards was looked at in one of
these passes. Missing: passes interleaved with additions and outside removals. -/
theorem C32_visited_partial (cf : Cfg) (ops : List Op) (os : List Obs) (s : St) (idles : List Op)
    (os' : List Obs) (s' : St) (id tid : Nat) (h : Common.run (step cf) init ops = some (os, s))
    (hid : ∀ op ∈ idles, IsIdle op) (h' : Common.run (step cf) s idles = some (os', s'))
    (hn : 2 * s.arr.length ≤ idles.length)
    (hinst : installed (events os ++ events os') id = some tid) :
    installed (events os) id = some tid ∧ ∃ ob ∈ os', id ∈ ob.visited := by
  have hi := run_inv cf ops init [] os s init_inv h
  simp only [List.nil_append] at hi
  have hi' := run_inv cf idles s _ os' s' hi h'
  rw [← hi'.tab] at hinst
  rw [← hi.tab]
  have hd : dist s id < idles.length ∨ idles = [] ∨ s.arr.length ≤ id := by
    unfold dist
    by_cases hl : id < s.arr.length
    · left; split <;> omega
    · right; right; omega
  rcases hd with hd | hd | hd
  · exact visited_runs cf id tid idles s _ os' s' hi hid h' hinst hd
  · subst hd
    simp only [Common.run, Option.some.injEq, Prod.mk.injEq] at h'
    obtain ⟨rfl, rfl⟩ := h'
    have := tidAt_lt hinst
    simp only [List.length_nil] at hn
    omega
  · exfalso
    have hmono : ∀ (ops : List Op) (s : St) (log : List Ev) (os : List Obs) (s' : St), Inv s log →
        (∀ op ∈ ops, IsIdle op) → Common.run (step cf) s ops = some (os, s') →
        s'.arr.length ≤ s.arr.length := by
      intro ops
      induction ops with
      | nil =>
        intro s log os s' _ _ h
        simp only [Common.run, Option.some.injEq, Prod.mk.injEq] at h
        rw [h.2]
        exact Nat.le_refl _
      | cons op ops ih =>
        intro s log os s' hi hid h
        simp only [Common.run] at h
        cases hs : step cf s op with
        | none => rw [hs] at h; cases h
        | some q =>
          obtain ⟨o, s1⟩ := q
          rw [hs] at h
          simp only at h
          cases hr : Common.run (step cf) s1 ops with
          | none => rw [hr] at h; cases h
          | some q2 =>
            obtain ⟨os2, s2⟩ := q2
            rw [hr] at h
            simp only [Option.some.injEq, Prod.mk.injEq] at h
            have h1 := ih s1 _ os2 s2 (step_inv hi hs) (fun o ho => hid o (List.mem_cons_of_mem _ ho)) hr
            rw [← h.2]
            refine Nat.le_trans h1 ?_
            have hidle := hid op (List.mem_cons_self ..)
            cases op with
            | add => exact absurd hidle (fun h => h)
            | remove id => exact absurd hidle (fun h => h)
            | idle env start =>
              simp only [step] at hs
              cases hq : runIdle cf env start s with
              | none => rw [hq] at hs; cases hs
              | some ou =>
                rw [hq] at hs
                simp only [Option.map_some, Option.some.injEq, Prod.mk.injEq] at hs
                obtain ⟨rfl, rfl⟩ := hs
                rcases run_ok hq hi.dist with ⟨_, h3⟩ | ⟨_, h3⟩
                · subst h3; exact Nat.le_refl _
                · exact h3.len
    have := hmono _ _ _ _ _ hi hid h'
    have := tidAt_lt hinst
    omega

/-- **C32** (a visited task that is due runs) When the cursor looks at an installed task whose rest
is over, the task is called once and its level decides: negative unregisters it. -/
theorem C32_due_runs (cf : Cfg) (e : Exec) (a : Arr) (next cur : Nat) (t : Task) (v : Visit)
    (ha : a[next]? = some (some t)) (hd : t.nextTs ≤ cur) (hv : visit cf e a next cur = some v)
    (hu : Distinct a) :
    (Ev.ran t.tid e.level) ∈ v.log ∧ (e.level < 0 → (v.arr[next]?.join) = none) ∧
      (v.spin = true ↔ e.level ≥ maxLevel) := by
  have ok := visit_ok hv hu
  unfold visit at hv
  rw [ha] at hv
  simp only [if_pos hd] at hv
  split at hv
  · rename_i hneg
    have hm : ¬ e.level ≥ maxLevel := by unfold maxLevel; omega
    split at hv
    · cases hv
    · have key : (Ev.ran t.tid e.level) ∈ v.log ∧ v.spin = false ∧ tidAt v.arr next = none := by
        split at hv
        · cases hv
          refine ⟨by simp, rfl, ?_⟩
          simp only
          rw [tidAt_popTrail, tidAt_set_none, if_pos rfl]
        · cases hv
          refine ⟨by simp, rfl, ?_⟩
          simp only
          rw [tidAt_set_none, if_pos rfl]
      refine ⟨key.1, fun _ => ?_, ?_⟩
      · have := key.2.2
        unfold tidAt at this
        cases h : v.arr[next]?.join with
        | none => rfl
        | some t => rw [h] at this; cases this
      · rw [key.2.1]; constructor
        · intro h; cases h
        · intro h; exact absurd h hm
  · rename_i hneg
    cases hv
    refine ⟨by simp, fun h => absurd h hneg, by simp⟩

/-- **C32** (rest) A task that returned a level between 0 and 20 at time `now` rests for
`kIdleMaxCycles / 2^level` cycles: looked at before `now` plus that much, it is not called. -/
theorem C32_rests (cf : Cfg) (e : Exec) (a : Arr) (next cur : Nat) (t t' : Task) (v : Visit)
    (ha : a[next]? = some (some t)) (hd : t.nextTs ≤ cur) (hv : visit cf e a next cur = some v)
    (h0 : 0 ≤ e.level) (h1 : e.level < 21) (ht : v.arr[next]? = some (some t')) (e' : Exec) (cur' : Nat)
    (hc : cur' < e.now + cf.idleMax / 2 ^ e.level.toNat) :
    visit cf e' v.arr next cur' = some ⟨v.arr, cur', false, [], false⟩ := by
  have hts : t'.nextTs = e.now + cf.idleMax / 2 ^ e.level.toNat := by
    unfold visit at hv
    rw [ha] at hv
    simp only [if_pos hd, if_neg (show ¬ e.level < 0 by omega), Option.some.injEq] at hv
    subst hv
    simp only at ht
    unfold rest at ht
    rw [if_neg (show ¬ e.level ≥ maxLevel by unfold maxLevel; omega)] at ht
    split at ht
    · rename_i t2 ht2
      rw [List.getElem?_set] at ht
      rw [if_pos rfl] at ht
      split at ht
      · simp only [Option.some.injEq] at ht
        rw [← ht]
        simp only [Nat.shiftRight_eq_div_pow]
      · cases ht
    · rename_i h5
      exact absurd ht (h5 t')
  unfold visit
  rw [ht]
  simp only
  rw [if_neg (by omega)]

/-- A task that rests, is skipped, and is due again later. -/
example : visit ⟨10, 1000⟩ ⟨2, 5, []⟩ [some ⟨0, 0⟩] 0 0 = some ⟨[some ⟨0, 255⟩], 5, false, [.ran 0 2], false⟩ ∧
    visit ⟨10, 1000⟩ ⟨2, 5, []⟩ [some ⟨0, 255⟩] 0 254 = some ⟨[some ⟨0, 255⟩], 254, false, [], false⟩ := by
  decide +kernel

/-- A history with additions, removals and a pass, meeting the hypotheses above. -/
example : ∃ os s, Common.run (step ⟨10, 1000⟩) init [.add, .add, .remove 0, .add, .idle once 0] =
    some (os, s) ∧ installed (events os) 1 = none ∧ installed (events os) 0 = none :=
  ⟨_, _, rfl, by decide +kernel, by decide +kernel⟩

/-- Two tasks that stay installed while four passes look at both. -/
example : ∃ os s os' s', Common.run (step ⟨10, 1000⟩) init [.add, .add] = some (os, s) ∧
    Common.run (step ⟨10, 1000⟩) s [.idle busy 0, .idle busy 0, .idle busy 0, .idle busy 0] = some (os', s') ∧
    os'.map (·.visited) = [[0], [1], [0], [1]] ∧
    installed (events os ++ events os') 1 = some 1 :=
  ⟨_, _, _, _, rfl, rfl, by decide +kernel, by decide +kernel⟩

end Verif.OnIdle
