import Verif.OnIdle.Spec

namespace Verif.OnIdle

/-- The task number at a position. -/
def tidAt (a : Arr) (i : Nat) : Option Nat := a[i]?.join.map (·.tid)

theorem dropWhile_none (l : Arr) :
    ∃ k, l = List.replicate k none ++ l.dropWhile (·.isNone) := by
  induction l with
  | nil => exact ⟨0, rfl⟩
  | cons x l ih =>
    cases x with
    | some t => exact ⟨0, by simp⟩
    | none =>
      obtain ⟨k, hk⟩ := ih
      refine ⟨k + 1, ?_⟩
      simp only [List.replicate_succ, List.cons_append, List.dropWhile_cons, Option.isNone_none, if_true]
      rw [← hk]

theorem popTrail_append (a : Arr) : ∃ k, a = popTrail a ++ List.replicate k none := by
  obtain ⟨k, hk⟩ := dropWhile_none a.reverse
  refine ⟨k, ?_⟩
  have := congrArg List.reverse hk
  simpa [popTrail] using this

theorem popTrail_len (a : Arr) : (popTrail a).length ≤ a.length := by
  obtain ⟨k, hk⟩ := popTrail_append a
  have := congrArg List.length hk
  simp at this
  omega

theorem tidAt_popTrail (a : Arr) (i : Nat) : tidAt (popTrail a) i = tidAt a i := by
  obtain ⟨k, hk⟩ := popTrail_append a
  conv => rhs; rw [hk]
  unfold tidAt
  rw [List.getElem?_append]
  by_cases h : i < (popTrail a).length
  · rw [if_pos h]
  · rw [if_neg h, List.getElem?_eq_none (by omega)]
    rw [List.getElem?_replicate]
    split <;> simp

theorem tidAt_lt {a : Arr} {i t : Nat} (h : tidAt a i = some t) : i < a.length := by
  unfold tidAt at h
  by_cases hi : i < a.length
  · exact hi
  · rw [List.getElem?_eq_none (by omega)] at h; cases h

theorem tidAt_of {a : Arr} {i : Nat} {t : Task} (h : a[i]? = some (some t)) :
    tidAt a i = some t.tid := by simp [tidAt, h]

theorem tidAt_set_none (a : Arr) (i j : Nat) :
    tidAt (a.set i none) j = if j = i then none else tidAt a j := by
  unfold tidAt
  rw [List.getElem?_set]
  by_cases h : i = j
  · subst h
    by_cases h2 : i < a.length <;> simp [h2]
  · rw [if_neg h, if_neg (fun e => h e.symm)]

theorem remove_len (a : Arr) (id : Nat) : (remove a id).2.length ≤ a.length := by
  unfold remove
  split
  · have := popTrail_len (a.set id none); simpa using this
  · exact Nat.le_refl _

theorem remove_res (a : Arr) (id : Nat) : (remove a id).1 = (tidAt a id).isSome := by
  unfold remove tidAt
  split
  · rename_i h; simp [h]
  · rename_i h
    cases h2 : a[id]? with
    | none => simp
    | some x =>
      cases x with
      | none => simp
      | some t => exact absurd h2 (h t)

theorem remove_tid (a : Arr) (id j : Nat) :
    tidAt (remove a id).2 j = if j = id then none else tidAt a j := by
  unfold remove
  split
  · rw [tidAt_popTrail, tidAt_set_none]
  · rename_i h
    by_cases hj : j = id
    · subst hj
      simp only [if_true]
      unfold tidAt
      cases h2 : a[j]? with
      | none => simp
      | some x =>
        cases x with
        | none => simp
        | some t => exact absurd h2 (h t)
    · rw [if_neg hj]

theorem removes_len (ids : List Nat) : ∀ a : Arr, (removes a ids).2.length ≤ a.length := by
  induction ids with
  | nil => intro a; exact Nat.le_refl _
  | cons id ids ih =>
    intro a
    have h1 := remove_len a id
    unfold removes
    rcases h : remove a id with ⟨b, a1⟩
    rw [h] at h1
    cases b
    · exact Nat.le_trans (ih a1) h1
    · exact Nat.le_trans (ih a1) h1

theorem removes_tid (ids : List Nat) : ∀ (a : Arr) (j : Nat),
    tidAt (removes a ids).2 j = (removes a ids).1.foldl note (tidAt a) j := by
  induction ids with
  | nil => intro a j; rfl
  | cons id ids ih =>
    intro a j
    have h1 := remove_tid a id
    have h2 := remove_res a id
    unfold removes
    rcases h : remove a id with ⟨b, a1⟩
    rw [h] at h1 h2
    cases b
    · rw [ih a1 j]
      have : tidAt a1 = tidAt a := by
        funext i
        rw [h1 i]
        by_cases hi : i = id
        · subst hi
          have h2 : (tidAt a i).isSome = false := h2.symm
          cases h3 : tidAt a i with
          | none => simp
          | some t => rw [h3] at h2; cases h2
        · rw [if_neg hi]
      simp only [this]
    · simp only [List.foldl_cons]
      rw [ih a1 j]
      have : tidAt a1 = note (tidAt a) (.removed id) := by
        funext i
        rw [h1 i]; rfl
      rw [this]

theorem removes_not_mem (ids : List Nat) : ∀ (a : Arr) (j : Nat), j ∉ ids →
    tidAt (removes a ids).2 j = tidAt a j := by
  induction ids with
  | nil => intro a j _; rfl
  | cons id ids ih =>
    intro a j hj
    have h1 := remove_tid a id
    simp only [List.mem_cons, not_or] at hj
    unfold removes
    rcases h : remove a id with ⟨b, a1⟩
    rw [h] at h1
    have h3 : tidAt a1 j = tidAt a j := by rw [h1 j, if_neg hj.1]
    cases b
    · rw [← h3]; exact ih a1 j hj.2
    · rw [← h3]; exact ih a1 j hj.2

theorem removes_sub (ids : List Nat) : ∀ (a : Arr) (j t : Nat),
    tidAt (removes a ids).2 j = some t → tidAt a j = some t := by
  induction ids with
  | nil => intro a j t h; exact h
  | cons id ids ih =>
    intro a j t hj
    have h1 := remove_tid a id
    unfold removes at hj
    rcases h : remove a id with ⟨b, a1⟩
    rw [h] at h1 hj
    have h3 : tidAt a1 j = some t := by
      cases b
      · exact ih a1 j t hj
      · exact ih a1 j t hj
    rw [h1 j] at h3
    split at h3
    · cases h3
    · exact h3

theorem rest_tid (cf : Cfg) (a : Arr) (next : Nat) (e : Exec) (j : Nat) :
    tidAt (rest cf a next e) j = tidAt a j := by
  unfold rest
  split
  · rfl
  · split
    · rename_i t ht
      unfold tidAt
      rw [List.getElem?_set]
      by_cases h : next = j
      · subst h
        have : next < a.length := by
          by_cases h2 : next < a.length
          · exact h2
          · rw [List.getElem?_eq_none (by omega)] at ht; cases ht
        rw [if_pos rfl, if_pos this, ht]
        rfl
      · simp [h]
    · rfl

theorem rest_len (cf : Cfg) (a : Arr) (next : Nat) (e : Exec) :
    (rest cf a next e).length = a.length := by
  unfold rest
  split
  · rfl
  · split
    · simp
    · rfl

/-- No two positions hold the same task. -/
def Distinct (a : Arr) : Prop := ∀ i j t, tidAt a i = some t → tidAt a j = some t → i = j

/-- What one iteration guarantees. -/
structure VisitOk (a : Arr) (next : Nat) (v : Visit) : Prop where
  len : v.arr.length ≤ a.length
  tid : ∀ j, tidAt v.arr j = v.log.foldl note (tidAt a) j
  sub : ∀ j t, tidAt v.arr j = some t → tidAt a j = some t
  stop : v.stop = true → v.arr.length ≤ next + 1

theorem visit_ok {cf e a next cur v} (h : visit cf e a next cur = some v) (hd : Distinct a) :
    VisitOk a next v := by
  unfold visit at h
  split at h
  · cases h
  · cases h; exact ⟨Nat.le_refl _, fun _ => rfl, fun _ _ h => h, fun h => nomatch h⟩
  · rename_i t ht
    split at h
    · simp only at h
      have hl := removes_len e.removes a
      have ht2 := tidAt_of ht
      split at h
      · rename_i hneg
        split at h
        · cases h
        · rename_i hn
          have hkey : ∀ j, tidAt ((removes a e.removes).2.set next none) j =
              ((removes a e.removes).1 ++ [Ev.ran t.tid e.level]).foldl note (tidAt a) j := by
            intro j
            rw [tidAt_set_none, List.foldl_append]
            simp only [List.foldl_cons, List.foldl_nil, note]
            rw [← removes_tid]
            by_cases hj : j = next
            · subst hj
              rw [if_pos rfl]
              cases h3 : tidAt (removes a e.removes).2 j with
              | none => simp
              | some t' =>
                have := removes_sub _ _ _ _ h3
                rw [ht2] at this
                cases this
                simp [hneg]
            · rw [if_neg hj]
              split
              · rename_i h4
                have := removes_sub _ _ _ _ h4.2
                exact absurd (hd _ _ _ this ht2) hj
              · rfl
          have hsub : ∀ j t', tidAt ((removes a e.removes).2.set next none) j = some t' →
              tidAt a j = some t' := by
            intro j t' h5
            rw [tidAt_set_none] at h5
            split at h5
            · cases h5
            · exact removes_sub _ _ _ _ h5
          have hlen : ((removes a e.removes).2.set next none).length ≤ a.length := by simpa using hl
          split at h
          · rename_i hlast
            cases h
            have := popTrail_len ((removes a e.removes).2.set next none)
            refine ⟨by simp only; omega, fun j => by rw [← hkey]; exact tidAt_popTrail _ _, ?_, ?_⟩
            · intro j t' h5
              exact hsub j t' (by rw [← tidAt_popTrail]; exact h5)
            · intro _; simp only; omega
          · cases h
            exact ⟨hlen, hkey, hsub, fun h => nomatch h⟩
      · rename_i hneg
        cases h
        refine ⟨?_, ?_, ?_, fun h => nomatch h⟩
        · simp only; rw [rest_len]; exact hl
        · intro j
          simp only
          rw [rest_tid, removes_tid, List.foldl_append]
          simp only [List.foldl_cons, List.foldl_nil, note]
          rw [if_neg (fun h => hneg h.1)]
        · intro j t' h5
          simp only at h5
          rw [rest_tid] at h5
          exact removes_sub _ _ _ _ h5
    · cases h; exact ⟨Nat.le_refl _, fun _ => rfl, fun _ _ h => h, fun h => nomatch h⟩

/-- An iteration on an existing element is defined, if a task that unregisters itself by its result
does not also remove itself. -/
theorem visit_some {cf e a next cur} (hn : next < a.length) (hp : e.level < 0 → next ∉ e.removes) :
    ∃ v, visit cf e a next cur = some v := by
  unfold visit
  rw [List.getElem?_eq_getElem hn]
  cases ha : a[next] with
  | none => exact ⟨_, rfl⟩
  | some t =>
    simp only
    split
    · split
      · rename_i hneg
        have h1 := removes_not_mem e.removes a next (hp hneg)
        have h2 : tidAt a next = some t.tid := tidAt_of (by rw [List.getElem?_eq_getElem hn, ha])
        rw [h2] at h1
        have := tidAt_lt h1
        rw [if_neg (by omega)]
        split <;> exact ⟨_, rfl⟩
      · exact ⟨_, rfl⟩
    · exact ⟨_, rfl⟩

/-- An iteration outside the vector is undefined. -/
theorem visit_none {cf e a next cur} (hn : a.length ≤ next) : visit cf e a next cur = none := by
  unfold visit
  rw [List.getElem?_eq_none hn]

theorem Distinct.sub {a b : Arr} (h : Distinct a) (hs : ∀ j t, tidAt b j = some t → tidAt a j = some t) :
    Distinct b := fun i j t h1 h2 => h i j t (hs _ _ h1) (hs _ _ h2)

/-- What a whole pass guarantees. -/
structure OutOk (a : Arr) (next : Nat) (o : Out) : Prop where
  len : o.arr.length ≤ a.length
  tid : ∀ j, tidAt o.arr j = o.log.foldl note (tidAt a) j
  sub : ∀ j t, tidAt o.arr j = some t → tidAt a j = some t
  vis : ∃ k, o.visited = List.range' next (k + 1) ∧ next + k < a.length ∧
    ((o.next = next + k + 1 ∧ o.next < o.arr.length) ∨ (o.next = 0 ∧ o.arr.length ≤ next + k + 1))

theorem loop_ok (cf : Cfg) (env : Nat → Exec) (start : Nat) : ∀ (fuel : Nat) (a : Arr) (next cur : Nat)
    (o : Out), Distinct a → loop cf env start fuel a next cur = some o → OutOk a next o := by
  intro fuel
  induction fuel with
  | zero => intro a next cur o hd h; cases h
  | succ fuel ih =>
    intro a next cur o hd h
    unfold loop at h
    have hlt : next < a.length := by
      by_cases hn : next < a.length
      · exact hn
      · rw [visit_none (by omega)] at h; cases h
    cases hv : visit cf (env next) a next cur with
    | none => rw [hv] at h; cases h
    | some v =>
      rw [hv] at h
      simp only at h
      have ok := visit_ok hv hd
      split at h
      · rename_i hst
        cases h
        exact ⟨ok.len, ok.tid, ok.sub, 0, rfl, hlt, Or.inr ⟨rfl, ok.stop hst⟩⟩
      · split at h
        · cases h
          exact ⟨ok.len, ok.tid, ok.sub, 0, rfl, hlt, Or.inr ⟨rfl, by simp only; omega⟩⟩
        · split at h
          · cases hl : loop cf env start fuel v.arr (next + 1) v.cur with
            | none => rw [hl] at h; cases h
            | some o1 =>
              rw [hl] at h
              simp only [Option.map_some, Option.some.injEq] at h
              have ok1 := ih _ _ _ _ (hd.sub ok.sub) hl
              subst h
              have e1 : tidAt v.arr = v.log.foldl note (tidAt a) := funext ok.tid
              refine ⟨Nat.le_trans ok1.len ok.len, ?_, fun j t h => ok.sub _ _ (ok1.sub _ _ h), ?_⟩
              · intro j
                simp only [Out.pre, List.foldl_append]
                rw [ok1.tid j, e1]
              · obtain ⟨k, hk1, hk2, hk3⟩ := ok1.vis
                refine ⟨k + 1, ?_, ?_, ?_⟩
                · simp only [Out.pre, hk1]
                  rw [List.range'_succ (n := k + 1)]
                · have := ok.len; omega
                · simp only [Out.pre]
                  rcases hk3 with ⟨h1, h2⟩ | ⟨h1, h2⟩
                  · left; exact ⟨by omega, h2⟩
                  · right; exact ⟨h1, by omega⟩
          · cases h
            exact ⟨ok.len, ok.tid, ok.sub, 0, rfl, hlt, Or.inl ⟨rfl, by simp only; omega⟩⟩

/-- A pass that starts inside the vector is defined. -/
theorem loop_some (cf : Cfg) (env : Nat → Exec) (start : Nat)
    (hp : ∀ i, (env i).level < 0 → i ∉ (env i).removes) : ∀ (fuel : Nat) (a : Arr) (next cur : Nat),
    Distinct a → next < a.length → a.length ≤ next + fuel → ∃ o, loop cf env start fuel a next cur = some o := by
  intro fuel
  induction fuel with
  | zero => intro a next cur _ h1 h2; omega
  | succ fuel ih =>
    intro a next cur hd h1 h2
    obtain ⟨v, hv⟩ := visit_some (cf := cf) (cur := cur) h1 (hp next)
    have ok := visit_ok hv hd
    unfold loop
    rw [hv]
    simp only
    split
    · exact ⟨_, rfl⟩
    · split
      · exact ⟨_, rfl⟩
      · split
        · have := ok.len
          obtain ⟨o, ho⟩ := ih v.arr (next + 1) v.cur (hd.sub ok.sub) (by omega) (by omega)
          rw [ho]
          exact ⟨_, rfl⟩
        · exact ⟨_, rfl⟩

/-- The invariant of the vector. -/
structure Inv (s : St) (log : List Ev) : Prop where
  dist : Distinct s.arr
  tab : ∀ i, tidAt s.arr i = installed log i
  old : ∀ i t, tidAt s.arr i = some t → t < s.cnt

theorem installed_append (l l' : List Ev) : installed (l ++ l') = l'.foldl note (installed l) := by
  simp [installed, List.foldl_append]

theorem tidAt_append (a : Arr) (t : Task) (i : Nat) :
    tidAt (a ++ [some t]) i = if i = a.length then some t.tid else tidAt a i := by
  unfold tidAt
  rw [List.getElem?_append]
  by_cases h : i < a.length
  · rw [if_pos h, if_neg (by omega)]
  · rw [if_neg h]
    by_cases h2 : i = a.length
    · subst h2; simp
    · rw [if_neg h2, List.getElem?_eq_none (by simp only [List.length_singleton]; omega),
        List.getElem?_eq_none (by omega)]

theorem run_ok {cf env start s o} (h : runIdle cf env start s = some o) (hd : Distinct s.arr) :
    (s.arr = [] ∧ o = ⟨s.arr, s.next, false, [], []⟩) ∨ (s.arr ≠ [] ∧ OutOk s.arr s.next o) := by
  unfold runIdle at h
  split at h
  · rename_i h0; cases h; exact Or.inl ⟨h0, rfl⟩
  · rename_i h0; exact Or.inr ⟨h0, loop_ok _ _ _ _ _ _ _ _ hd h⟩

theorem step_inv {cf s log op ob s'} (hi : Inv s log) (h : step cf s op = some (ob, s')) :
    Inv s' (log ++ ob.log) := by
  cases op with
  | add =>
    simp only [step, Option.some.injEq, Prod.mk.injEq] at h
    obtain ⟨rfl, rfl⟩ := h
    have ha := tidAt_append s.arr ⟨s.cnt, 0⟩
    simp only at ha
    refine ⟨?_, ?_, ?_⟩
    · intro i j t h1 h2
      simp only [ha] at h1 h2
      have o1 := hi.old i t
      have o2 := hi.old j t
      have d := hi.dist i j t
      grind
    · intro i
      rw [installed_append]
      simp only [List.foldl_cons, List.foldl_nil, note, ha, hi.tab]
    · intro i t h1
      simp only [ha] at h1
      have o1 := hi.old i t
      simp only
      grind
  | remove id =>
    simp only [step, Option.some.injEq, Prod.mk.injEq] at h
    obtain ⟨rfl, rfl⟩ := h
    have hr := remove_tid s.arr id
    have hr2 := remove_res s.arr id
    refine ⟨?_, ?_, ?_⟩
    · apply hi.dist.sub
      intro j t h1
      simp only [hr] at h1
      grind
    · intro i
      rw [installed_append]
      simp only [hr, hr2]
      have t1 := hi.tab i
      cases h0 : tidAt s.arr id with
      | none =>
        simp only [Option.isSome_none, Bool.false_eq_true, if_false, List.foldl_nil]
        grind
      | some t =>
        simp only [Option.isSome_some, if_true, List.foldl_cons, List.foldl_nil, note]
        grind
    · intro i t h1
      simp only [hr] at h1
      have := hi.old i t
      simp only
      grind
  | idle env start =>
    simp only [step] at h
    cases hr : runIdle cf env start s with
    | none => rw [hr] at h; cases h
    | some o =>
      rw [hr] at h
      simp only [Option.map_some, Option.some.injEq, Prod.mk.injEq] at h
      obtain ⟨rfl, rfl⟩ := h
      rcases run_ok hr hi.dist with ⟨h0, h1⟩ | ⟨h0, h1⟩
      · subst h1
        simp only [List.append_nil]
        exact ⟨hi.dist, hi.tab, hi.old⟩
      · refine ⟨hi.dist.sub h1.sub, ?_, fun i t h2 => hi.old i t (h1.sub _ _ h2)⟩
        intro i
        rw [installed_append]
        have e : tidAt s.arr = installed log := funext hi.tab
        rw [← e]
        exact h1.tid i

theorem init_inv : Inv init [] :=
  ⟨fun i j t h => by simp [tidAt, init] at h, fun i => by simp [tidAt, init, installed],
    fun i t h => by simp [tidAt, init] at h⟩

theorem run_inv (cf : Cfg) (ops : List Op) : ∀ (s : St) (log : List Ev) (os : List Obs) (s' : St),
    Inv s log → Common.run (step cf) s ops = some (os, s') → Inv s' (log ++ events os) := by
  induction ops with
  | nil =>
    intro s log os s' hi h
    simp only [Common.run, Option.some.injEq, Prod.mk.injEq] at h
    obtain ⟨rfl, rfl⟩ := h
    simpa [events] using hi
  | cons op ops ih =>
    intro s log os s' hi h
    simp only [Common.run] at h
    cases hs : step cf s op with
    | none => rw [hs] at h; cases h
    | some p =>
      obtain ⟨o, s1⟩ := p
      rw [hs] at h
      simp only at h
      cases hr : Common.run (step cf) s1 ops with
      | none => rw [hr] at h; cases h
      | some q =>
        obtain ⟨os2, s2⟩ := q
        rw [hr] at h
        simp only [Option.some.injEq, Prod.mk.injEq] at h
        obtain ⟨rfl, rfl⟩ := h
        have := ih _ _ _ _ (step_inv hi hs) hr
        simpa [events, List.append_assoc] using this

end Verif.OnIdle
