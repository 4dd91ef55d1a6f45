import Verif.Periodic.Model
/-! Which position belongs to which operation, and who owns an item. -/
namespace Verif.Periodic
open Verif.Common

/-- Everything that was submitted and whose completion was not processed. -/
def flight (s : S) : List (Nat × Cb) :=
  s.sq.map (fun e => (e.ud, e.cb)) ++ (s.kt.map (fun t => (t.ud, Cb.timer t.i)) ++
    (s.ko.map (fun u => (u, Cb.other)) ++ s.cq.map (fun c => (c.ud, c.cb))))

/-- The table holds the callbacks of the operations in flight, each at its own position. -/
structure Tbl (slots : Nat → Option Cb) (fl : List (Nat × Cb)) : Prop where
  nd : (fl.map Prod.fst).Nodup
  iff : ∀ u o, slots u = some o ↔ (u, o) ∈ fl

theorem Tbl.perm {slots : Nat → Option Cb} {fl fl' : List (Nat × Cb)} (h : Tbl slots fl) (p : fl.Perm fl') : Tbl slots fl' :=
  ⟨(p.map _).nodup_iff.1 h.nd, fun u o => by rw [h.iff, p.mem_iff]⟩

theorem Tbl.push {slots : Nat → Option Cb} {fl : List (Nat × Cb)} (h : Tbl slots fl) {u : Nat} {o : Cb} (hu : slots u = none) :
    Tbl (upd slots u (some o)) ((u, o) :: fl) := by
  constructor
  · rw [List.map_cons, List.nodup_cons]
    refine ⟨?_, h.nd⟩
    intro hm
    obtain ⟨⟨v, o'⟩, hm', rfl⟩ := List.mem_map.1 hm
    rw [(h.iff v o').2 hm'] at hu
    cases hu
  · intro v o'
    by_cases hv : v = u
    · subst hv
      rw [upd_same, List.mem_cons]
      constructor
      · intro h1; cases h1; exact Or.inl rfl
      · rintro (h1 | h1)
        · cases h1; rfl
        · rw [(h.iff v o').2 h1] at hu; cases hu
    · rw [upd_ne _ _ hv, h.iff, List.mem_cons]
      simp [hv]

theorem Tbl.pop {slots : Nat → Option Cb} {fl : List (Nat × Cb)} {u : Nat} {o : Cb} (h : Tbl slots ((u, o) :: fl)) :
    Tbl (upd slots u none) fl := by
  have hn : u ∉ fl.map Prod.fst := (List.nodup_cons.1 h.nd).1
  refine ⟨(List.nodup_cons.1 h.nd).2, fun v o' => ?_⟩
  by_cases hv : v = u
  · subst hv
    rw [upd_same]
    constructor
    · intro h1; cases h1
    · intro h1; exact absurd (List.mem_map.2 ⟨_, h1, rfl⟩) hn
  · rw [upd_ne _ _ hv, h.iff, List.mem_cons]
    simp [hv]

/-- Item `i` is not in the map. -/
def S.out (s : S) (i : Nat) : Prop := ∀ x : Item, s.items[i]? = some x → x.inMap = false

structure Own (s : S) : Prop where
  a : ∀ (i : Nat) (x : Item), s.items[i]? = some x → x.freed = false → i ∈ s.plist ∨ s.slots x.ud = some (.timer i)
  b : ∀ u i, s.slots u = some (.timer i) → ∃ x : Item, s.items[i]? = some x ∧ x.freed = false ∧ x.ud = u ∧ i ∉ s.plist
  c : ∀ (i : Nat) (x : Item), s.items[i]? = some x → (x.inMap = true → x.ref = 2 ∧ x.freed = false) ∧ (x.inMap = false → x.freed = false → x.ref = 1)
  d : ∀ i ∈ s.plist, ∃ x : Item, s.items[i]? = some x ∧ x.inMap = true
  nd : s.plist.Nodup
  m : s.mode = .fibers → s.plist = []
  e : ∀ u f, s.slots u = some (.remove f) → ∃ c : Cancel, s.cans[f]? = some c ∧ c.done = false
  r : ∀ u v f, s.slots u = some (.remove f) → s.slots v = some (.remove f) → u = v
  f : ∀ (f : Nat) (c : Cancel), s.cans[f]? = some c → c.done = false → ∃ u, s.slots u = some (.remove f)
  g : ∀ (f : Nat) (c : Cancel), s.cans[f]? = some c → ∃ x : Item, s.items[c.i]? = some x ∧ x.inMap = false

structure Fifo (s : S) : Prop where
  a1 : ∀ e ∈ s.sq, ∀ f, e.cb = .remove f → ∀ k ∈ s.kt, k.ud = e.target → s.out k.i
  a3 : s.sq.Pairwise fun e e' => ∀ f i, e'.cb = .remove f → e.cb = .timer i → e.ud = e'.target → s.out i
  b1 : ∀ k ∈ s.kt, k.dying = true → s.out k.i
  b2 : ∀ c ∈ s.cq, ∀ i, c.cb = .timer i → c.res ≠ .etime → s.out i
  c1 : s.sq.Pairwise fun e e' => ∀ f (c : Cancel), e.cb = .remove f → s.cans[f]? = some c → e'.cb ≠ .timer c.i
  c2 : ∀ e ∈ s.sq, ∀ f (c : Cancel), e.cb = .remove f → s.cans[f]? = some c → ∀ x : Item, s.items[c.i]? = some x →
    x.freed = false → x.ud = e.target
  d : ∀ (f : Nat) (c : Cancel), s.cans[f]? = some c → (∀ e ∈ s.sq, e.cb ≠ .remove f) →
    (∀ e ∈ s.sq, e.cb ≠ .timer c.i) ∧ ∀ k ∈ s.kt, k.i = c.i → k.dying = true

structure Inv (s : S) : Prop where
  t : Tbl s.slots (flight s)
  o : Own s
  q : Fifo s
  ok : s.bad = none

theorem mem_sq {s : S} {e : Sqe} (h : e ∈ s.sq) : (e.ud, e.cb) ∈ flight s := by
  unfold flight
  exact List.mem_append_left _ (List.mem_map.2 ⟨e, h, rfl⟩)
theorem mem_kt {s : S} {t : KT} (h : t ∈ s.kt) : (t.ud, Cb.timer t.i) ∈ flight s := by
  unfold flight
  exact List.mem_append_right _ (List.mem_append_left _ (List.mem_map.2 ⟨t, h, rfl⟩))
theorem mem_cq {s : S} {c : Cqe} (h : c ∈ s.cq) : (c.ud, c.cb) ∈ flight s := by
  unfold flight
  exact List.mem_append_right _ (List.mem_append_right _ (List.mem_append_right _ (List.mem_map.2 ⟨c, h, rfl⟩)))

theorem inv_init : Inv S.init := by
  refine ⟨⟨by simp [flight, S.init], by simp [flight, S.init]⟩, ?_, ?_, rfl⟩
  · refine ⟨?_, ?_, ?_, ?_, ?_, ?_, ?_, ?_, ?_, ?_⟩ <;> simp [S.init]
  · refine ⟨?_, ?_, ?_, ?_, ?_, ?_, ?_⟩ <;> simp [S.init]

/-- A step that changes neither items, slots, plist nor cans. -/
theorem Own.same {s s1 : S} (h : Own s) (h1 : s1.items = s.items) (h2 : s1.slots = s.slots) (h3 : s1.plist = s.plist)
    (h4 : s1.cans = s.cans) (h5 : s1.mode = .fibers → s1.plist = []) : Own s1 := by
  obtain ⟨a, b, c, d, nd, m, e, r, f, g⟩ := h
  exact ⟨by rw [h1, h2, h3]; exact a, by rw [h1, h2, h3]; exact b, by rw [h1]; exact c, by rw [h1, h3]; exact d,
    by rw [h3]; exact nd, h5, by rw [h2, h4]; exact e, by rw [h2]; exact r, by rw [h2, h4]; exact f, by rw [h1, h4]; exact g⟩

theorem Fifo.same {s s1 : S} (h : Fifo s) (h1 : s1.items = s.items) (h2 : s1.sq = s.sq) (h3 : s1.kt = s.kt)
    (h4 : s1.cans = s.cans) (h5 : s1.cq = s.cq) : Fifo s1 := by
  obtain ⟨a1, a3, b1, b2, c1, c2, d⟩ := h
  unfold S.out at *
  exact ⟨by unfold S.out; rw [h1, h2, h3]; exact a1, by unfold S.out; rw [h1, h2]; exact a3, by unfold S.out; rw [h1, h3]; exact b1,
    by unfold S.out; rw [h1, h5]; exact b2, by rw [h2, h4]; exact c1, by rw [h1, h2, h4]; exact c2, by rw [h2, h3, h4]; exact d⟩

/-! ## Moves of the kernel -/

theorem perm_submit_t {e : Sqe} {sq : List Sqe} {kt : List KT} {i : Nat} {b : Bool} {x : List (Nat × Cb)} (h : e.cb = .timer i) :
    ((e :: sq).map (fun e => (e.ud, e.cb)) ++ (kt.map (fun t => (t.ud, Cb.timer t.i)) ++ x)).Perm
    (sq.map (fun e => (e.ud, e.cb)) ++ ((kt ++ [KT.mk e.ud i b]).map (fun t => (t.ud, Cb.timer t.i)) ++ x)) := by
  rw [List.map_append, List.map_cons, List.map_singleton, List.append_assoc, List.cons_append, h]
  refine List.Perm.trans ?_ (List.Perm.append_left _ (List.perm_middle.symm))
  exact List.perm_middle.symm

theorem map_remove (kt : List KT) (u : Nat) : (remove kt u).map (fun t => (t.ud, Cb.timer t.i)) = kt.map (fun t => (t.ud, Cb.timer t.i)) := by
  unfold remove
  rw [List.map_map]
  apply List.map_congr_left
  intro t _
  simp only [Function.comp]
  split <;> rfl

theorem mem_remove {kt : List KT} {u : Nat} {t : KT} (h : t ∈ remove kt u) :
    ∃ t0 ∈ kt, t0.ud = t.ud ∧ t0.i = t.i ∧ (t.dying = true → t0.dying = true ∨ t.ud = u) ∧ (t0.dying = true → t.dying = true) ∧
      (t.ud = u → t.dying = true) := by
  unfold remove at h
  obtain ⟨t0, h0, rfl⟩ := List.mem_map.1 h
  refine ⟨t0, h0, ?_⟩
  split
  · rename_i hu; exact ⟨rfl, rfl, fun _ => Or.inr hu, fun _ => rfl, fun _ => rfl⟩
  · rename_i hu; exact ⟨rfl, rfl, fun h => Or.inl h, fun h => h, fun h => absurd h hu⟩

theorem inv_submit {s s1 : S} (i : Inv s) (h : s.submit = some s1) : Inv s1 := by
  unfold S.submit at h
  split at h
  · cases h
  rename_i e sq hsq
  obtain ⟨t, o, q, ok⟩ := i
  have a3 := q.a3
  have c1 := q.c1
  rw [hsq, List.pairwise_cons] at a3 c1
  split at h
  · rename_i j hc
    cases h
    refine ⟨t.perm ?_, o.same rfl rfl rfl rfl o.m, ?_, ok⟩
    · unfold flight
      rw [hsq]
      exact perm_submit_t hc
    · refine ⟨?_, a3.2, ?_, q.b2, c1.2, ?_, ?_⟩
      · intro e' he' f hf k hk hu
        rcases List.mem_append.1 hk with hk | hk
        · exact q.a1 e' (by rw [hsq]; exact List.mem_cons_of_mem _ he') f hf k hk hu
        · rw [List.mem_singleton] at hk
          subst hk
          exact a3.1 e' he' f j hf hc hu
      · intro k hk hd
        rcases List.mem_append.1 hk with hk | hk
        · exact q.b1 k hk hd
        · rw [List.mem_singleton] at hk
          subst hk
          cases hd
      · intro e' he'
        exact q.c2 e' (by rw [hsq]; exact List.mem_cons_of_mem _ he')
      · intro f c hcf hno
        have := q.d f c hcf (by
          rw [hsq]
          intro e' he'
          rcases List.mem_cons.1 he' with rfl | he'
          · rw [hc]; simp
          · exact hno e' he')
        rw [hsq] at this
        refine ⟨fun e' he' => this.1 e' (List.mem_cons_of_mem _ he'), fun k hk hki => ?_⟩
        rcases List.mem_append.1 hk with hk | hk
        · exact this.2 k hk hki
        · rw [List.mem_singleton] at hk
          subst hk
          exact absurd (hki ▸ hc) (this.1 e (List.mem_cons_self ..))
  · rename_i f hc
    cases h
    have perm : (flight s).Perm (flight { s with sq := sq, kt := remove s.kt e.target, cq := s.cq ++ [⟨e.ud, .other, .remove f⟩] }) := by
      unfold flight
      rw [hsq]
      simp only [map_remove, List.map_append, List.map_cons, List.map_nil, hc]
      rw [List.cons_append]
      refine List.Perm.trans (l₂ := (List.map (fun e => (e.ud, e.cb)) sq ++
        (List.map (fun t => (t.ud, Cb.timer t.i)) s.kt ++ (List.map (fun u => (u, Cb.other)) s.ko ++
          List.map (fun c => (c.ud, c.cb)) s.cq))) ++ [(e.ud, Cb.remove f)]) ?_ ?_
      · exact (List.perm_append_singleton _ _).symm
      · simp [List.append_assoc]
    refine ⟨t.perm perm, o.same rfl rfl rfl rfl o.m, ?_, ok⟩
    refine ⟨?_, a3.2, ?_, ?_, c1.2, ?_, ?_⟩
    · intro e' he' f' hf k hk hu
      obtain ⟨k0, hk0, h1, h2, _⟩ := mem_remove hk
      rw [← h2]
      exact q.a1 e' (by rw [hsq]; exact List.mem_cons_of_mem _ he') f' hf k0 hk0 (h1.trans hu)
    · intro k hk hd
      obtain ⟨k0, hk0, h1, h2, h3, _⟩ := mem_remove hk
      rw [← h2]
      rcases h3 hd with h3 | h3
      · exact q.b1 k0 hk0 h3
      · exact q.a1 e (by rw [hsq]; exact List.mem_cons_self ..) f hc k0 hk0 (h1.trans h3)
    · intro c hcq j hj hr
      rcases List.mem_append.1 hcq with hcq | hcq
      · exact q.b2 c hcq j hj hr
      · rw [List.mem_singleton] at hcq
        subst hcq
        cases hj
    · intro e' he'
      exact q.c2 e' (by rw [hsq]; exact List.mem_cons_of_mem _ he')
    · intro f' c hcf hno
      by_cases hff : f' = f
      · subst hff
        refine ⟨fun e' he' => c1.1 e' he' f' c hc hcf, fun k hk hki => ?_⟩
        obtain ⟨k0, hk0, h1, h2, _, _, h4⟩ := mem_remove hk
        apply h4
        obtain ⟨x, hx, hfr, hud, _⟩ := o.b k0.ud k0.i ((t.iff _ _).2 (mem_kt hk0))
        rw [h2, hki] at hx
        rw [← h1, ← hud]
        exact q.c2 e (by rw [hsq]; exact List.mem_cons_self ..) f' c hc hcf x hx hfr
      · have := q.d f' c hcf (by
          rw [hsq]
          intro e' he'
          rcases List.mem_cons.1 he' with rfl | he'
          · rw [hc]; intro h; cases h; exact hff rfl
          · exact hno e' he')
        rw [hsq] at this
        refine ⟨fun e' he' => this.1 e' (List.mem_cons_of_mem _ he'), fun k hk hki => ?_⟩
        obtain ⟨k0, hk0, h1, h2, _, h4, _⟩ := mem_remove hk
        exact h4 (this.2 k0 hk0 (h2.trans hki))
  · rename_i hc
    cases h
    refine ⟨t.perm ?_, o.same rfl rfl rfl rfl o.m, ?_, ok⟩
    · unfold flight
      rw [hsq]
      simp only [List.map_append, List.map_cons, List.map_nil, hc]
      rw [List.cons_append]
      refine List.Perm.trans List.perm_middle.symm (List.Perm.append_left _ ?_)
      refine List.Perm.trans List.perm_middle.symm (List.Perm.append_left _ ?_)
      rw [List.append_assoc]
      exact List.perm_middle.symm
    · refine ⟨?_, a3.2, q.b1, q.b2, c1.2, ?_, ?_⟩
      · intro e' he'
        exact q.a1 e' (by rw [hsq]; exact List.mem_cons_of_mem _ he')
      · intro e' he'
        exact q.c2 e' (by rw [hsq]; exact List.mem_cons_of_mem _ he')
      · intro f c hcf hno
        have := q.d f c hcf (by
          rw [hsq]
          intro e' he'
          rcases List.mem_cons.1 he' with rfl | he'
          · rw [hc]; simp
          · exact hno e' he')
        rw [hsq] at this
        exact ⟨fun e' he' => this.1 e' (List.mem_cons_of_mem _ he'), this.2⟩

theorem eraseIdx_perm {α : Type} {l : List α} {k : Nat} {x : α} (h : l[k]? = some x) : l.Perm (x :: l.eraseIdx k) := by
  induction l generalizing k with
  | nil => simp at h
  | cons a l ih =>
    cases k with
    | zero => simp at h; subst h; simp
    | succ k =>
      simp at h
      rw [List.eraseIdx_cons_succ]
      exact (List.Perm.cons a (ih h)).trans (List.Perm.swap ..)

/-- A timer goes from the kernel to the completion queue. -/
theorem perm_kt {sq x : List (Nat × Cb)} {kt : List KT} {k : Nat} {t : KT} {cq : List Cqe} {r : Res} (h : kt[k]? = some t) :
    (sq ++ (kt.map (fun t => (t.ud, Cb.timer t.i)) ++ (x ++ cq.map (fun c => (c.ud, c.cb))))).Perm
    (sq ++ ((kt.eraseIdx k).map (fun t => (t.ud, Cb.timer t.i)) ++ (x ++ (cq ++ [Cqe.mk t.ud r (.timer t.i)]).map (fun c => (c.ud, c.cb))))) := by
  refine List.Perm.append_left _ ?_
  refine List.Perm.trans (List.Perm.append_right _ ((eraseIdx_perm h).map _)) ?_
  rw [List.map_cons, List.cons_append]
  refine List.Perm.trans (List.perm_append_singleton _ _).symm ?_
  simp [List.append_assoc]

theorem inv_tick {s : S} (i : Inv s) {k : Nat} {t : KT} {r : Res} (ht : s.kt[k]? = some t) (hr : r ≠ .etime → t.dying = true) (l : List Ev) :
    Inv { s with kt := s.kt.eraseIdx k, cq := s.cq ++ [⟨t.ud, r, .timer t.i⟩], log := l } := by
  obtain ⟨tb, o, q, ok⟩ := i
  have sub : ∀ k' ∈ s.kt.eraseIdx k, k' ∈ s.kt := fun k' h => (List.eraseIdx_sublist ..).subset h
  refine ⟨tb.perm ?_, o.same rfl rfl rfl rfl o.m, ?_, ok⟩
  · unfold flight
    exact perm_kt ht
  · refine ⟨fun e he f hf k' hk' => q.a1 e he f hf k' (sub k' hk'), q.a3, fun k' hk' => q.b1 k' (sub k' hk'), ?_, q.c1, q.c2,
      fun f c h1 h2 => ⟨(q.d f c h1 h2).1, fun k' hk' => (q.d f c h1 h2).2 k' (sub k' hk')⟩⟩
    intro c hc j hj hres
    rcases List.mem_append.1 hc with hc | hc
    · exact q.b2 c hc j hj hres
    · rw [List.mem_singleton] at hc
      subst hc
      cases hj
      exact q.b1 t (List.mem_of_getElem? ht) (hr hres)

theorem inv_fire {s s1 : S} (i : Inv s) {k : Nat} (h : s.fire k = some s1) : Inv s1 := by
  unfold S.fire at h
  split at h
  · cases h
  rename_i t ht
  split at h
  · cases h
  · cases h
    exact inv_tick i ht (fun h => absurd rfl h) _

theorem inv_post {s s1 : S} (i : Inv s) {k : Nat} (h : s.post k = some s1) : Inv s1 := by
  unfold S.post at h
  split at h
  · cases h
  rename_i t ht
  split at h
  · cases h
    rename_i hd
    exact inv_tick i ht (fun _ => hd) s.log
  · cases h

theorem inv_comp {s s1 : S} (i : Inv s) {k : Nat} (h : s.comp k = some s1) : Inv s1 := by
  unfold S.comp at h
  split at h
  · cases h
  rename_i u hu
  cases h
  obtain ⟨tb, o, q, ok⟩ := i
  refine ⟨tb.perm ?_, o.same rfl rfl rfl rfl o.m, ?_, ok⟩
  · unfold flight
    refine List.Perm.append_left _ (List.Perm.append_left _ ?_)
    refine List.Perm.trans (List.Perm.append_right _ ((eraseIdx_perm hu).map _)) ?_
    rw [List.map_cons, List.cons_append]
    refine List.Perm.trans (List.perm_append_singleton _ _).symm ?_
    simp [List.append_assoc]
  · refine ⟨q.a1, q.a3, q.b1, ?_, q.c1, q.c2, q.d⟩
    intro c hc j hj hres
    rcases List.mem_append.1 hc with hc | hc
    · exact q.b2 c hc j hj hres
    · rw [List.mem_singleton] at hc
      subst hc
      cases hj

end Verif.Periodic
