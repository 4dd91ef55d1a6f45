import Verif.Periodic.Log
import Verif.Periodic.Spec
/-! One round of the loop, and where the timers are. -/
namespace Verif.Periodic
open Verif.Common

theorem exists_fresh (l : List Nat) : ∃ u, ∀ v ∈ l, v < u := by
  induction l with
  | nil => exact ⟨0, fun v h => by cases h⟩
  | cons a l ih =>
    obtain ⟨u, hu⟩ := ih
    refine ⟨max u (a + 1), ?_⟩
    intro v hv
    rcases List.mem_cons.1 hv with rfl | hv
    · omega
    · have := hu v hv
      omega

theorem exists_free {s : S} (v : Inv s) : ∃ u, s.slots u = none := by
  obtain ⟨u, hu⟩ := exists_fresh ((flight s).map Prod.fst)
  refine ⟨u, ?_⟩
  cases h : s.slots u with
  | none => rfl
  | some o =>
    have := hu u (List.mem_map.2 ⟨_, (v.t.iff _ _).1 h, rfl⟩)
    omega

/-- The events of a round of the loop. -/
def Ev.ofLoop : Ev → Bool
  | .called _ | .cancelDone _ | .freed _ => true
  | _ => false

def Ext (l l' : List Ev) : Prop := ∃ l2, l' = l ++ l2 ∧ ∀ e ∈ l2, e.ofLoop = true

theorem Ext.refl (l : List Ev) : Ext l l := ⟨[], by simp, fun e h => by cases h⟩
theorem Ext.trans {a b c : List Ev} (h : Ext a b) (h' : Ext b c) : Ext a c := by
  obtain ⟨x, rfl, hx⟩ := h
  obtain ⟨y, rfl, hy⟩ := h'
  refine ⟨x ++ y, by simp, ?_⟩
  intro e he
  rcases List.mem_append.1 he with h | h
  · exact hx e h
  · exact hy e h
theorem Ext.one (l : List Ev) {e : Ev} (h : e.ofLoop = true) : Ext l (l ++ [e]) :=
  ⟨[e], rfl, fun e' h' => by rw [List.mem_singleton] at h'; subst h'; exact h⟩

theorem Ext.count {l l' : List Ev} (h : Ext l l') {e : Ev} (he : e.ofLoop = false) : l'.count e = l.count e := by
  obtain ⟨x, rfl, hx⟩ := h
  rw [List.count_append]
  have : x.count e = 0 := by
    rw [List.count_eq_zero]
    intro hm
    rw [hx e hm] at he
    cases he
  omega

theorem Ext.mem {l l' : List Ev} (h : Ext l l') {e : Ev} (he : e.ofLoop = false) : e ∈ l' ↔ e ∈ l := by
  rw [← List.count_pos_iff, ← List.count_pos_iff, h.count he]

/-- A run of the loop from `s` to `s'`. -/
def Run (s s' : S) : Prop := ∃ acts, (∀ a ∈ acts, a.loop = true) ∧ exec step s acts = some s' ∧ Ext s.log s'.log ∧ Inv s'

theorem Run.refl {s : S} (v : Inv s) : Run s s := ⟨[], fun a h => (by cases h), rfl, Ext.refl _, v⟩

theorem Run.trans {a b c : S} (h : Run a b) (h' : Run b c) : Run a c := by
  obtain ⟨x, hx, ex, gx, _⟩ := h
  obtain ⟨y, hy, ey, gy, v⟩ := h'
  refine ⟨x ++ y, ?_, ?_, gx.trans gy, v⟩
  · intro e he
    rcases List.mem_append.1 he with h | h
    · exact hx e h
    · exact hy e h
  · rw [exec_append, ex]
    exact ey

theorem Run.one {s s' : S} (v : Inv s) {a : Act} (ha : a.loop = true) (h : stepA s a = some s') (g : Ext s.log s'.log) : Run s s' := by
  have h' : step s a = some s' := by
    unfold step
    rw [v.ok]
    exact h
  refine ⟨[a], ?_, ?_, g, inv_step v h'⟩
  · intro b hb
    rw [List.mem_singleton] at hb
    subst hb
    exact ha
  · simp [exec, h']

theorem proc_some {s : S} (hm : s.mode = .reaping) (h : s.cq ≠ []) : ∃ s1, s.proc = some s1 := by
  unfold S.proc
  rw [if_neg (by rw [hm]; simp)]
  split
  · rename_i h0; exact absurd h0 h
  · split <;> exact ⟨_, rfl⟩

theorem run_drain (n : Nat) : ∀ s : S, s.cq.length = n → Inv s → s.mode = .reaping → ∃ s', Run s s' ∧ s'.mode = .resched ∧ s'.cq = [] := by
  induction n with
  | zero =>
    intro s hn v hm
    have hcq : s.cq = [] := List.length_eq_zero_iff.1 hn
    refine ⟨{ s with mode := .resched }, Run.one v (a := .drained) rfl ?_ (Ext.refl _), rfl, hcq⟩
    simp [stepA, hm, hcq]
  | succ n ih =>
    intro s hn v hm
    obtain ⟨s1, h1⟩ := proc_some hm (by intro h; rw [h] at hn; cases hn)
    have sh := proc_shape v h1
    have hl : s1.cq.length = n ∧ s1.mode = .reaping ∧ Ext s.log s1.log := by
      obtain ⟨_, c, cq, hcq, _, h⟩ := sh
      rw [hcq] at hn
      have hn' : cq.length = n := by simpa using hn
      rcases h with ⟨i, x, _, _, _, _, _, _, rfl⟩ | ⟨i, x, _, _, _, _, _, _, _, rfl⟩ | ⟨f, k, _, _, _, rfl⟩ | ⟨_, rfl⟩
      · exact ⟨hn', hm, Ext.one _ rfl⟩
      · exact ⟨hn', hm, Ext.one _ rfl⟩
      · exact ⟨hn', hm, Ext.one _ rfl⟩
      · exact ⟨hn', hm, Ext.refl _⟩
    have r1 : Run s s1 := Run.one v (a := .proc) rfl h1 hl.2.2
    obtain ⟨s', r2, h2⟩ := ih s1 hl.1 (inv_proc v h1) hl.2.1
    exact ⟨s', r1.trans r2, h2⟩

theorem run_resch (n : Nat) : ∀ s : S, s.plist.length = n → Inv s → s.mode = .resched → ∃ s', Run s s' ∧ s'.mode = .fibers ∧ s'.cq = s.cq := by
  induction n with
  | zero =>
    intro s hn v hm
    have hp : s.plist = [] := List.length_eq_zero_iff.1 hn
    refine ⟨{ s with mode := .fibers }, Run.one v (a := .finish) rfl ?_ (Ext.refl _), rfl, rfl⟩
    simp [stepA, hm, hp]
  | succ n ih =>
    intro s hn v hm
    obtain ⟨u, hu⟩ := exists_free v
    cases hp : s.plist with
    | nil => rw [hp] at hn; cases hn
    | cons i rest =>
      obtain ⟨x, hx, hin⟩ := v.o.d i (by rw [hp]; exact List.mem_cons_self ..)
      have hfr := ((v.o.c i x hx).1 hin).2
      have h1 : s.resch u = some { s with
          plist := rest, slots := upd s.slots u (some (.timer i)), sq := s.sq ++ [⟨u, .timer i, 0⟩],
          items := s.items.set i { x with ref := 2, ud := u } } := by
        unfold S.resch
        rw [if_neg (by rw [hm, hu]; simp)]
        simp only [hp, S.schedule, hx, hfr, Bool.false_eq_true, if_false, S.setI, S.push]
      have r1 : Run s _ := Run.one v (a := .resch u) rfl h1 (Ext.refl _)
      have hl : rest.length = n := by rw [hp] at hn; simpa using hn
      obtain ⟨s', r2, h2⟩ := ih _ (by exact hl) (inv_resch v h1) (by exact hm)
      exact ⟨s', r1.trans r2, h2.1, h2.2⟩

theorem run_reap {s : S} (v : Inv s) (hm : s.mode = .reaping) : ∃ s', Run s s' ∧ s'.mode = .fibers ∧ s'.cq = [] := by
  obtain ⟨s1, r1, m1, c1⟩ := run_drain _ s rfl v hm
  obtain ⟨_, _, _, _, v1⟩ := id r1
  obtain ⟨s2, r2, m2, c2⟩ := run_resch _ s1 rfl v1 m1
  exact ⟨s2, r1.trans r2, m2, c2.trans c1⟩

theorem run_fibers {s : S} (v : Inv s) (hm : s.mode = .fibers) : ∃ s', Run s s' ∧ s'.mode = .fibers ∧ s'.cq = [] := by
  have h1 : stepA s .begin = some { s with mode := .reaping } := by simp [stepA, hm]
  have r1 : Run s _ := Run.one v (a := .begin) rfl h1 (Ext.refl _)
  obtain ⟨_, _, _, _, v1⟩ := id r1
  obtain ⟨s2, r2, h2⟩ := run_reap v1 rfl
  exact ⟨s2, r1.trans r2, h2⟩

theorem run_round {s : S} (v : Inv s) : ∃ s', Run s s' ∧ s'.mode = .fibers ∧ s'.cq = [] := by
  cases hm : s.mode with
  | fibers => exact run_fibers v hm
  | reaping => exact run_reap v hm
  | resched =>
    obtain ⟨s1, r1, m1, _⟩ := run_resch _ s rfl v hm
    obtain ⟨_, _, _, _, v1⟩ := id r1
    obtain ⟨s2, r2, h2⟩ := run_fibers v1 m1
    exact ⟨s2, r1.trans r2, h2⟩

theorem registered_iff {s : S} (g : Lg s) (i : Nat) : Registered s.log i ↔ ∃ x : Item, s.items[i]? = some x ∧ x.inMap = true := by
  unfold Registered
  rw [g.added, g.start]
  constructor
  · rintro ⟨h, hn⟩
    refine ⟨s.items[i], List.getElem?_eq_getElem h, ?_⟩
    cases hm : s.items[i].inMap with
    | true => rfl
    | false => exact absurd ⟨_, List.getElem?_eq_getElem h, hm⟩ hn
  · rintro ⟨x, hx, hm⟩
    refine ⟨lt_of_get hx, ?_⟩
    rintro ⟨y, hy, hm'⟩
    rw [hx] at hy; cases hy
    rw [hm] at hm'; cases hm'

theorem timers_eq (s : S) (i : Nat) : timers s i = (flight s).countP (fun p => decide (p.2 = .timer i)) + s.plist.count i := by
  unfold timers flight
  have h0 : List.countP ((fun p : Nat × Cb => decide (p.2 = .timer i)) ∘ fun u => (u, Cb.other)) s.ko = 0 := by
    rw [List.countP_eq_zero]
    intro u _
    simp
  simp only [List.countP_append, List.countP_map, h0]
  have h1 : (fun t : KT => decide (t.i = i)) = ((fun p : Nat × Cb => decide (p.2 = .timer i)) ∘ fun t => (t.ud, Cb.timer t.i)) := by
    funext t
    simp
  rw [h1]
  show _ + _ + _ + _ = _
  have h2 : (fun e : Sqe => decide (e.cb = .timer i)) = ((fun p : Nat × Cb => decide (p.2 = .timer i)) ∘ fun e => (e.ud, e.cb)) := rfl
  have h3 : (fun e : Cqe => decide (e.cb = .timer i)) = ((fun p : Nat × Cb => decide (p.2 = .timer i)) ∘ fun e => (e.ud, e.cb)) := rfl
  rw [h2, h3]
  omega

theorem countP_one {fl : List (Nat × Cb)} {i u : Nat} (nd : (fl.map Prod.fst).Nodup) (hm : (u, Cb.timer i) ∈ fl)
    (hu : ∀ v, (v, Cb.timer i) ∈ fl → v = u) : fl.countP (fun p => decide (p.2 = .timer i)) = 1 := by
  induction fl with
  | nil => cases hm
  | cons a l ih =>
    rw [List.map_cons, List.nodup_cons] at nd
    rw [List.countP_cons]
    by_cases ha : a.2 = .timer i
    · have hau : a.1 = u := hu a.1 (by rw [← ha]; exact List.mem_cons_self ..)
      have h0 : l.countP (fun p => decide (p.2 = .timer i)) = 0 := by
        rw [List.countP_eq_zero]
        intro b hb
        simp only [decide_eq_true_eq]
        intro hb2
        have := hu b.1 (by rw [← hb2]; exact List.mem_cons_of_mem _ hb)
        exact nd.1 (List.mem_map.2 ⟨b, hb, this.trans hau.symm⟩)
      rw [h0]
      simp [ha]
    · rw [ih nd.2 ?_ (fun v hv => hu v (List.mem_cons_of_mem _ hv))]
      · simp [ha]
      · rcases List.mem_cons.1 hm with h | h
        · rw [← h] at ha; exact absurd rfl ha
        · exact h

theorem countP_zero {s : S} (v : Inv s) {i : Nat} (h : ∀ u, s.slots u ≠ some (.timer i)) :
    (flight s).countP (fun p => decide (p.2 = .timer i)) = 0 := by
  rw [List.countP_eq_zero]
  intro b hb
  simp only [decide_eq_true_eq]
  intro hb2
  exact h b.1 ((v.t.iff _ _).2 (by rw [← hb2]; exact hb))

theorem timers_one {s : S} (v : Inv s) {i : Nat} {x : Item} (hx : s.items[i]? = some x) (hf : x.freed = false) : timers s i = 1 := by
  rw [timers_eq]
  rcases v.o.a i x hx hf with h | h
  · rw [countP_zero v, List.Nodup.count v.o.nd, if_pos h]
    intro u hu
    obtain ⟨_, _, _, _, hp⟩ := v.o.b u i hu
    exact hp h
  · have hp : i ∉ s.plist := by
      obtain ⟨_, _, _, _, hp⟩ := v.o.b _ i h
      exact hp
    rw [countP_one v.t.nd ((v.t.iff _ _).1 h), List.count_eq_zero.2 hp]
    intro w hw
    obtain ⟨y, hy, _, h1, _⟩ := v.o.b _ _ ((v.t.iff _ _).2 hw)
    rw [hx] at hy; cases hy
    exact h1.symm

theorem timers_zero {s : S} (v : Inv s) {i : Nat} {x : Item} (hx : s.items[i]? = some x) (hf : x.freed = true) : timers s i = 0 := by
  rw [timers_eq, countP_zero v, List.count_eq_zero.2]
  · intro h
    obtain ⟨y, hy, hm⟩ := v.o.d i h
    rw [hx] at hy; cases hy
    have := ((v.o.c i x hx).1 hm).2
    rw [hf] at this; cases this
  · intro u hu
    obtain ⟨y, hy, h1, _⟩ := v.o.b u i hu
    rw [hx] at hy; cases hy
    rw [hf] at h1; cases h1

theorem ready_le {s : S} (i : Nat) : ready i s.cq ≤ timers s i := by
  unfold ready timers
  have : s.cq.countP (fun c => decide (c.cb = .timer i ∧ c.res = .etime)) ≤ s.cq.countP (fun c => decide (c.cb = .timer i)) := by
    apply List.countP_mono_left
    intro c _ h
    simp only [decide_eq_true_eq] at h ⊢
    exact h.1
  omega

theorem pairwise_not_before {l : List Ev} {P : Ev → Ev → Prop} (h : l.Pairwise P) {a b : Ev} (hn : ¬ P a b) : ¬ Before l a b := by
  rintro ⟨l1, l2, l3, rfl⟩
  rw [List.pairwise_append] at h
  have := h.2.1
  rw [List.pairwise_cons] at this
  exact hn (this.1 b (List.mem_append_right _ (List.mem_cons_self ..)))

end Verif.Periodic
