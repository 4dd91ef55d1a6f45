import Verif.Periodic.Epoll
import Verif.Periodic.Progress
/-! Invariants of the epoll model. -/
namespace Verif.Periodic.Epoll
open Verif.Common Verif.Periodic

/-- Every expiry of task `i` in `l` is followed by a call. -/
def Answered (l : List Ev) (i : Nat) : Prop := ∀ l1 l2, l = l1 ++ Ev.expired i :: l2 → Ev.called i ∈ l2

theorem Answered.snoc {l : List Ev} {i : Nat} (h : Answered l i) {e : Ev} (he : e ≠ .expired i) : Answered (l ++ [e]) i := by
  intro l1 l2 hl
  rcases List.eq_nil_or_concat l2 with rfl | ⟨l3, b, rfl⟩
  · have := List.append_inj_right' (t₁ := [e]) (t₂ := [Ev.expired i]) hl rfl
    cases this
    exact absurd rfl he
  · have hl' : l ++ [e] = (l1 ++ Ev.expired i :: l3) ++ [b] := by rw [hl]; simp
    have h1 := List.append_inj_left' hl' rfl
    rw [List.concat_eq_append]
    exact List.mem_append_left _ (h l1 l3 h1)

theorem Answered.call (l : List Ev) (i : Nat) : Answered (l ++ [.called i]) i := by
  intro l1 l2 hl
  rcases List.eq_nil_or_concat l2 with rfl | ⟨l3, b, rfl⟩
  · have := List.append_inj_right' (t₁ := [Ev.called i]) (t₂ := [Ev.expired i]) hl rfl
    cases this
  · have hl' : l ++ [.called i] = (l1 ++ Ev.expired i :: l3) ++ [b] := by rw [hl]; simp
    have := List.append_inj_right' hl' rfl
    cases this
    rw [List.concat_eq_append]
    exact List.mem_append_right _ (List.mem_singleton.2 rfl)

structure EInv (s : E) : Prop where
  a : ∀ (i : Nat) (x : EItem), s.items[i]? = some x → x.inMap = true → x.ref = 1 ∧ x.freed = false ∧ s.slots x.slot = some (.timer i)
  b : ∀ j i, s.slots j = some (.timer i) → ∃ x : EItem, s.items[i]? = some x ∧ x.inMap = true ∧ x.slot = j
  ok : s.bad = false
  m : s.disp = false → s.batch = []
  ord : s.log.Pairwise May
  start : ∀ i, .cancelStart i ∈ s.log ↔ ∃ x : EItem, s.items[i]? = some x ∧ x.inMap = false
  freed : ∀ i, .freed i ∈ s.log ↔ ∃ x : EItem, s.items[i]? = some x ∧ x.inMap = false
  done : ∀ i, .cancelDone i ∈ s.log ↔ ∃ x : EItem, s.items[i]? = some x ∧ x.inMap = false
  added : ∀ i, .added i ∈ s.log ↔ i < s.items.length
  ans : ∀ (i : Nat) (x : EItem), s.items[i]? = some x → x.inMap = true → x.pending = false → Answered s.log i
  exp : ∀ i, .expired i ∈ s.log → i < s.items.length
  cal : ∀ i, .called i ∈ s.log → i < s.items.length

theorem einv_init : EInv E.init := by
  refine ⟨?_, ?_, rfl, fun _ => rfl, ?_, ?_, ?_, ?_, ?_, ?_, ?_, ?_⟩ <;> simp [E.init]

theorem eget {l : List EItem} {i : Nat} {x : EItem} (hx : l[i]? = some x) (y : EItem) (j : Nat) :
    (l.set i y)[j]? = if j = i then some y else l[j]? := by
  by_cases hj : j = i
  · subst hj; rw [List.getElem?_set_self (lt_of_get hx), if_pos rfl]
  · rw [List.getElem?_set_ne (fun h => hj h.symm), if_neg hj]

theorem not_start {s : E} (v : EInv s) {i : Nat} {x : EItem} (hx : s.items[i]? = some x) (hm : x.inMap = true) :
    Ev.cancelStart i ∉ s.log ∧ Ev.freed i ∉ s.log ∧ Ev.cancelDone i ∉ s.log := by
  rw [v.start, v.freed, v.done]
  have : ¬ ∃ y : EItem, s.items[i]? = some y ∧ y.inMap = false := by
    rintro ⟨y, hy, h⟩
    rw [hx] at hy; cases hy
    rw [hm] at h; cases h
  exact ⟨this, this, this⟩

/-- An event that is not a start, freed, done, called or expired event may follow anything. -/
theorem may_of {s : E} (v : EInv s) {i : Nat} {x : EItem} (hx : s.items[i]? = some x) (hm : x.inMap = true) {b : Ev}
    (hb : b = .called i ∨ b = .expired i ∨ b = .cancelStart i ∨ b = .freed i ∨ b = .cancelDone i) : ∀ a ∈ s.log, May a b := by
  obtain ⟨h1, h2, h3⟩ := not_start v hx hm
  have key : ∀ j, (b = .called j ∨ b = .expired j ∨ b = .cancelStart j ∨ b = .freed j ∨ b = .cancelDone j) → j = i := by
    intro j hj
    rcases hb with rfl | rfl | rfl | rfl | rfl <;> simp at hj <;> exact hj.symm
  intro a ha j
  refine ⟨?_, ?_, ?_⟩
  · rintro rfl
    have : j ≠ i := by intro h; subst h; exact h1 ha
    exact ⟨fun h => this (key j (by simp [h])), fun h => this (key j (by simp [h]))⟩
  · rintro rfl
    have : j ≠ i := by intro h; subst h; exact h2 ha
    exact ⟨fun h => this (key j (by simp [h])), fun h => this (key j (by simp [h])), fun h => this (key j (by simp [h])),
      fun h => this (key j (by simp [h]))⟩
  · rintro rfl
    have : j ≠ i := by intro h; subst h; exact h3 ha
    exact ⟨fun h => this (key j (by simp [h])), fun h => this (key j (by simp [h]))⟩

theorem einv_add {s s1 : E} (v : EInv s) {u : Nat} (h : s.add u = some s1) : EInv s1 := by
  unfold E.add at h
  split at h
  · cases h
  rename_i hu
  have hu := none_of_not_some hu
  cases h
  have out : ∀ (j : Nat) (x : EItem), (s.items ++ [EItem.mk 1 u false true false])[j]? = some x →
      s.items[j]? = some x ∨ (j = s.items.length ∧ x = ⟨1, u, false, true, false⟩) := fun j x h => get_append h
  have inn : ∀ (j : Nat) (x : EItem), s.items[j]? = some x → (s.items ++ [EItem.mk 1 u false true false])[j]? = some x := by
    intro j x h
    rw [List.getElem?_append_left (lt_of_get h)]
    exact h
  have iff0 : ∀ j : Nat, (∃ x : EItem, (s.items ++ [EItem.mk 1 u false true false])[(j : Nat)]? = some x ∧ x.inMap = false) ↔
      ∃ x : EItem, s.items[j]? = some x ∧ x.inMap = false := by
    intro j
    constructor
    · rintro ⟨x, hx, hm⟩
      rcases out j x hx with h | ⟨_, rfl⟩
      · exact ⟨x, h, hm⟩
      · cases hm
    · rintro ⟨x, hx, hm⟩
      exact ⟨x, inn j x hx, hm⟩
  refine ⟨?_, ?_, v.ok, v.m, ord_snoc v.ord ?_, ?_, ?_, ?_, ?_, ?_, ?_, ?_⟩
  · intro j x hx hm
    rcases out j x hx with h | ⟨rfl, rfl⟩
    · obtain ⟨h1, h2, h3⟩ := v.a j x h hm
      refine ⟨h1, h2, ?_⟩
      show upd s.slots u _ x.slot = _
      rw [upd_ne _ _ (by intro he; rw [he, hu] at h3; cases h3)]
      exact h3
    · exact ⟨rfl, rfl, upd_same ..⟩
  · intro j i hj
    simp only at hj
    by_cases hju : j = u
    · subst hju
      rw [upd_same] at hj
      cases hj
      exact ⟨⟨1, j, false, true, false⟩, by simp, rfl, rfl⟩
    · rw [upd_ne _ _ hju] at hj
      obtain ⟨x, hx, h1, h2⟩ := v.b j i hj
      exact ⟨x, inn i x hx, h1, h2⟩
  · intro a _ j
    simp
  · intro j
    simp only [List.mem_append, List.mem_singleton, reduceCtorEq, or_false, v.start, iff0]
  · intro j
    simp only [List.mem_append, List.mem_singleton, reduceCtorEq, or_false, v.freed, iff0]
  · intro j
    simp only [List.mem_append, List.mem_singleton, reduceCtorEq, or_false, v.done, iff0]
  · intro j
    simp only [List.mem_append, List.mem_singleton, v.added, Ev.added.injEq, List.length_append, List.length_singleton]
    omega
  · intro j x hx hm hp
    rcases out j x hx with h | ⟨rfl, rfl⟩
    · exact (v.ans j x h hm hp).snoc (by simp)
    · intro l1 l2 hl
      have hm : Ev.expired s.items.length ∈ s.log ++ [.added s.items.length] := by
        simp only at hl
        rw [hl]; simp
      rcases List.mem_append.1 hm with h | h
      · exact absurd (v.exp _ h) (Nat.lt_irrefl _)
      · rw [List.mem_singleton] at h; cases h
  · intro j hj
    simp only [List.length_append, List.length_singleton]
    rcases List.mem_append.1 hj with h | h
    · have := v.exp j h; omega
    · rw [List.mem_singleton] at h; cases h
  · intro j hj
    simp only [List.length_append, List.length_singleton]
    rcases List.mem_append.1 hj with h | h
    · have := v.cal j h; omega
    · rw [List.mem_singleton] at h; cases h

theorem einv_cancel {s s1 : E} (v : EInv s) {i : Nat} (h : s.cancel i = some s1) : EInv s1 := by
  unfold E.cancel at h
  split at h
  · cases h
  rename_i x hx
  split at h
  · cases h
  rename_i hg
  have hm : x.inMap = true := Classical.byContradiction fun h => hg (Or.inr h)
  obtain ⟨hr, hf, hs⟩ := v.a i x hx hm
  cases h
  have hget := eget hx { x with ref := x.ref - 1, inMap := false, freed := true }
  have iff0 : ∀ j : Nat, (∃ y : EItem, (s.items.set i { x with ref := x.ref - 1, inMap := false, freed := true })[j]? = some y ∧ y.inMap = false) ↔
      (∃ y : EItem, s.items[j]? = some y ∧ y.inMap = false) ∨ j = i := by
    intro j
    constructor
    · rintro ⟨y, hy, hm⟩
      rw [hget] at hy
      split at hy
      · rename_i hj; exact Or.inr hj
      · exact Or.inl ⟨y, hy, hm⟩
    · rintro (⟨y, hy, hm⟩ | rfl)
      · by_cases hj : j = i
        · exact ⟨_, (hget j).trans (if_pos hj), rfl⟩
        · exact ⟨y, (hget j).trans ((if_neg hj).trans hy), hm⟩
      · exact ⟨_, (hget j).trans (if_pos rfl), rfl⟩
  refine ⟨?_, ?_, v.ok, v.m, ?_, ?_, ?_, ?_, ?_, ?_, ?_, ?_⟩
  · intro j y hy hm
    simp only [E.setI, hget] at hy
    split at hy
    · cases hy; cases hm
    · rename_i hne
      obtain ⟨h1, h2, h3⟩ := v.a j y hy hm
      refine ⟨h1, h2, ?_⟩
      show upd s.slots x.slot none y.slot = _
      rw [upd_ne _ _ (by intro he; rw [he, hs] at h3; cases h3; exact hne rfl)]
      exact h3
  · intro j k hj
    simp only [E.setI] at hj
    have hjs : j ≠ x.slot := by intro he; rw [he, upd_same] at hj; cases hj
    rw [upd_ne _ _ hjs] at hj
    obtain ⟨y, hy, h1, h2⟩ := v.b j k hj
    have hk : k ≠ i := by
      intro he; subst he
      rw [hx] at hy; cases hy
      exact hjs h2.symm
    exact ⟨y, (hget k).trans ((if_neg hk).trans hy), h1, h2⟩
  · refine List.pairwise_append.2 ⟨v.ord, ?_, ?_⟩
    · refine List.pairwise_cons.2 ⟨?_, List.pairwise_cons.2 ⟨?_, List.pairwise_singleton ..⟩⟩
      · intro b hb j
        simp only [List.mem_cons, List.not_mem_nil, or_false] at hb
        rcases hb with rfl | rfl <;> simp
      · intro b hb j
        simp only [List.mem_cons, List.not_mem_nil, or_false] at hb
        subst hb
        simp
    · intro a ha b hb
      simp only [List.mem_cons, List.not_mem_nil, or_false] at hb
      exact may_of v hx hm (by rcases hb with rfl | rfl | rfl <;> simp) a ha
  · intro j
    simp only [E.setI, List.mem_append, v.start, iff0]
    simp
  · intro j
    simp only [E.setI, List.mem_append, v.freed, iff0]
    simp
  · intro j
    simp only [E.setI, List.mem_append, v.done, iff0]
    simp
  · intro j
    simp only [E.setI, List.mem_append, v.added, List.length_set]
    simp
  · intro j y hy hm hp
    simp only [E.setI, hget] at hy
    split at hy
    · cases hy; cases hm
    · have := (((v.ans j y hy hm hp).snoc (e := .cancelStart i) (by simp)).snoc (e := .freed i) (by simp)).snoc (e := .cancelDone i) (by simp)
      simpa using this
  · intro j hj
    simp only [E.setI, List.length_set]
    rcases List.mem_append.1 hj with h | h
    · exact v.exp j h
    · simp at h
  · intro j hj
    simp only [E.setI, List.length_set]
    rcases List.mem_append.1 hj with h | h
    · exact v.cal j h
    · simp at h

/-- Only the table changes, and only for other callbacks. -/
theorem EInv.slots {s : E} (v : EInv s) (sl : Nat → Option ECb) (h : ∀ j i, sl j = some (.timer i) ↔ s.slots j = some (.timer i)) :
    EInv { s with slots := sl } :=
  ⟨fun i x hx hm => ⟨(v.a i x hx hm).1, (v.a i x hx hm).2.1, (h _ _).2 (v.a i x hx hm).2.2⟩, fun j i hj => v.b j i ((h _ _).1 hj), v.ok, v.m,
    v.ord, v.start, v.freed, v.done, v.added, v.ans, v.exp, v.cal⟩

/-- The timer of item `i` becomes ready or is read. -/
theorem einv_pending {s : E} (v : EInv s) {i : Nat} {x : EItem} (hx : s.items[i]? = some x) (hm : x.inMap = true) {p : Bool} {e : Ev}
    (he : (p = true ∧ e = .expired i) ∨ (p = false ∧ e = .called i)) {bt : List Nat} (hb : s.disp = false → bt = []) :
    EInv { s with items := s.items.set i { x with pending := p }, log := s.log ++ [e], batch := bt } := by
  have hget := eget hx { x with pending := p }
  have iff0 : ∀ j : Nat, (∃ y : EItem, (s.items.set i { x with pending := p })[j]? = some y ∧ y.inMap = false) ↔
      ∃ y : EItem, s.items[j]? = some y ∧ y.inMap = false := by
    intro j
    constructor
    · rintro ⟨y, hy, hm'⟩
      rw [hget] at hy
      split at hy
      · cases hy; simp only at hm'; rw [hm] at hm'; cases hm'
      · exact ⟨y, hy, hm'⟩
    · rintro ⟨y, hy, hm'⟩
      have hj : j ≠ i := by intro h; subst h; rw [hx] at hy; cases hy; rw [hm] at hm'; cases hm'
      exact ⟨y, (hget j).trans ((if_neg hj).trans hy), hm'⟩
  have hne : (∀ j, e ≠ .cancelStart j) ∧ (∀ j, e ≠ .freed j) ∧ (∀ j, e ≠ .cancelDone j) ∧ ∀ j, e ≠ .added j := by
    rcases he with ⟨_, rfl⟩ | ⟨_, rfl⟩ <;> simp
  refine ⟨?_, ?_, v.ok, hb, ord_snoc v.ord (may_of v hx hm (by rcases he with ⟨_, rfl⟩ | ⟨_, rfl⟩ <;> simp)), ?_, ?_, ?_, ?_, ?_, ?_, ?_⟩
  · intro j y hy hm'
    simp only [hget] at hy
    split at hy
    · rename_i hj
      cases hy
      subst hj
      exact v.a j x hx hm
    · exact v.a j y hy hm'
  · intro j k hj
    obtain ⟨y, hy, h1, h2⟩ := v.b j k hj
    by_cases hk : k = i
    · subst hk
      rw [hx] at hy; cases hy
      exact ⟨_, (hget k).trans (if_pos rfl), h1, h2⟩
    · exact ⟨y, (hget k).trans ((if_neg hk).trans hy), h1, h2⟩
  · intro j
    simp only [List.mem_append, List.mem_singleton, v.start, iff0, (hne.1 j).symm, or_false]
  · intro j
    simp only [List.mem_append, List.mem_singleton, v.freed, iff0, (hne.2.1 j).symm, or_false]
  · intro j
    simp only [List.mem_append, List.mem_singleton, v.done, iff0, (hne.2.2.1 j).symm, or_false]
  · intro j
    simp only [List.mem_append, List.mem_singleton, v.added, List.length_set, (hne.2.2.2 j).symm, or_false]
  · intro j y hy hm' hp
    simp only [hget] at hy
    split at hy
    · rename_i hj
      cases hy
      subst hj
      rcases he with ⟨rfl, _⟩ | ⟨_, rfl⟩
      · cases hp
      · exact Answered.call _ _
    · rename_i hj
      refine (v.ans j y hy hm' hp).snoc ?_
      rcases he with ⟨_, rfl⟩ | ⟨_, rfl⟩
      · intro h; cases h; exact hj rfl
      · simp
  · intro j hj
    simp only [List.length_set]
    rcases List.mem_append.1 hj with h | h
    · exact v.exp j h
    · rw [List.mem_singleton] at h
      rcases he with ⟨_, rfl⟩ | ⟨_, rfl⟩
      · cases h; exact lt_of_get hx
      · cases h
  · intro j hj
    simp only [List.length_set]
    rcases List.mem_append.1 hj with h | h
    · exact v.cal j h
    · rw [List.mem_singleton] at h
      rcases he with ⟨_, rfl⟩ | ⟨_, rfl⟩
      · cases h
      · cases h; exact lt_of_get hx

theorem periodicCb_ok {s : E} {i : Nat} {x : EItem} (hx : s.items[i]? = some x) (hf : x.freed = false) (hr : x.ref = 1) :
    s.periodicCb i = { s with items := s.items.set i { x with pending := false }, log := s.log ++ [.called i] } := by
  unfold E.periodicCb
  rw [hx]
  simp only
  rw [if_neg (by simp [hf, hr])]
  rfl

theorem canReport_iff {s : E} {j : Nat} : s.canReport j = true ↔ s.slots j = some .other ∨
    ∃ (i : Nat) (x : EItem), s.slots j = some (.timer i) ∧ s.items[i]? = some x ∧ x.pending = true := by
  unfold E.canReport
  split
  · rename_i h; simp [h]
  · rename_i h; simp [h]
  · rename_i i h
    split
    · rename_i h1
      rw [h]
      constructor
      · intro h; cases h
      · rintro (h | ⟨i', x, h2, h3, _⟩)
        · cases h
        · cases h2; rw [h1] at h3; cases h3
    · rename_i x h1
      rw [h]
      constructor
      · intro h2; exact Or.inr ⟨i, x, rfl, h1, h2⟩
      · rintro (h | ⟨i', x, h2, h3, h4⟩)
        · cases h
        · cases h2; rw [h1] at h3; cases h3; exact h4

theorem einv_dispatch {s s1 : E} (v : EInv s) (h : s.dispatch = some s1) : EInv s1 := by
  unfold E.dispatch at h
  split at h
  · cases h
  rename_i j rest hb
  have hd : s.disp = true := by
    cases hd : s.disp with
    | true => rfl
    | false => rw [v.m hd] at hb; cases hb
  have same : EInv { s with batch := rest } :=
    ⟨v.a, v.b, v.ok, fun h => absurd (hd.symm.trans h) (by decide), v.ord, v.start, v.freed, v.done, v.added, v.ans, v.exp, v.cal⟩
  simp only at h
  split at h
  · cases h; exact same
  · cases h; exact same
  · rename_i i hs
    obtain ⟨x, hx, hm, _⟩ := v.b j i hs
    obtain ⟨hr, hf, _⟩ := v.a i x hx hm
    rw [periodicCb_ok (by exact hx) hf hr] at h
    cases h
    exact einv_pending v hx hm (Or.inr ⟨rfl, rfl⟩) (fun h => absurd (hd.symm.trans h) (by decide))

theorem einv_step {s s1 : E} {a : EAct} (v : EInv s) (h : estep s a = some s1) : EInv s1 := by
  unfold estep at h
  rw [v.ok] at h
  simp only [Bool.false_eq_true, if_false] at h
  cases a with
  | add u => exact einv_add v h
  | cancel i => exact einv_cancel v h
  | arm u =>
    simp only [estepA, E.arm] at h
    split at h
    · cases h
    rename_i hu
    have hu := none_of_not_some hu
    cases h
    refine v.slots _ ?_
    intro j i
    by_cases hj : j = u
    · subst hj; rw [upd_same, hu]; simp
    · rw [upd_ne _ _ hj]
  | disarm u =>
    simp only [estepA, E.disarm] at h
    split at h
    · rename_i hu
      cases h
      refine v.slots _ ?_
      intro j i
      by_cases hj : j = u
      · subst hj; rw [upd_same, hu]; simp
      · rw [upd_ne _ _ hj]
    · cases h
  | expire i =>
    simp only [estepA, E.expire] at h
    split at h
    · cases h
    rename_i x hx
    split at h
    · rename_i hm
      cases h
      exact einv_pending v hx hm (Or.inl ⟨rfl, rfl⟩) v.m
    · cases h
  | wait js =>
    simp only [estepA, E.wait] at h
    split at h
    · cases h
      exact ⟨v.a, v.b, v.ok, fun h => (by cases h), v.ord, v.start, v.freed, v.done, v.added, v.ans, v.exp, v.cal⟩
    · cases h
  | dispatch => exact einv_dispatch v h
  | finish =>
    simp only [estepA] at h
    split at h
    · rename_i hb
      cases h
      exact ⟨v.a, v.b, v.ok, fun _ => hb.2, v.ord, v.start, v.freed, v.done, v.added, v.ans, v.exp, v.cal⟩
    · cases h

theorem einv_reach {s : E} (h : Reachable EInit estep s) : EInv s :=
  Reachable.invariant EInv (fun s h => by rw [h]; exact einv_init) (fun _ _ _ i h => einv_step i h) h

theorem estep_of_Q {s s1 : E} {a : EAct} (h : estepQ s a = some s1) : estep s a = some s1 := by
  unfold estepQ at h
  split at h
  · split at h
    · cases h
    · exact h
  · exact h

/-- While nothing is disarmed during dispatch, events are those of ready timers. -/
structure EQ (s : E) : Prop where
  v : EInv s
  nd : s.batch.Nodup
  bt : ∀ j ∈ s.batch, s.canReport j = true
  cnt : ∀ (i : Nat) (x : EItem), s.items[i]? = some x → s.log.count (.called i) + (if x.pending then 1 else 0) ≤ s.log.count (.expired i)

theorem eq_reach {s : E} (h : Reachable EInit estepQ s) : EQ s := by
  refine Reachable.invariant EQ ?_ ?_ h
  · intro s h
    rw [h]
    exact ⟨einv_init, by simp [E.init], by simp [E.init], by simp [E.init]⟩
  · intro s a s1 q h
    have v1 := einv_step q.v (estep_of_Q h)
    have v := q.v
    unfold estepQ at h
    cases a with
    | add u =>
      have h' := h
      simp only [estep, v.ok, Bool.false_eq_true, if_false, estepA, E.add] at h'
      split at h'
      · cases h'
      rename_i hu
      have hu := none_of_not_some hu
      cases h'
      refine ⟨v1, q.nd, ?_, ?_⟩
      · intro j hj
        rw [canReport_iff]
        simp only
        rcases canReport_iff.1 (q.bt j hj) with h | ⟨i, x, h, hx, hp⟩
        · left
          rw [upd_ne _ _ (by intro he; rw [he, hu] at h; cases h)]
          exact h
        · right
          refine ⟨i, x, ?_, ?_, hp⟩
          · rw [upd_ne _ _ (by intro he; rw [he, hu] at h; cases h)]
            exact h
          · rw [List.getElem?_append_left (lt_of_get hx)]
            exact hx
      · intro i x hx
        simp only at hx ⊢
        rw [count_snoc (by simp), count_snoc (by simp)]
        rcases get_append hx with hx | ⟨rfl, rfl⟩
        · exact q.cnt i x hx
        · have h0 : s.log.count (.called s.items.length) = 0 := by
            rw [List.count_eq_zero]
            intro hm
            exact absurd (v.cal _ hm) (Nat.lt_irrefl _)
          simp [h0]
    | cancel i =>
      have h' := h
      simp only [estep, v.ok, Bool.false_eq_true, if_false, estepA, E.cancel] at h'
      split at h'
      · cases h'
      rename_i x hx
      split at h'
      · cases h'
      rename_i hg
      have hb : s.batch = [] := v.m (by cases hd : s.disp with | false => rfl | true => exact absurd (Or.inl hd) hg)
      cases h'
      refine ⟨v1, q.nd, ?_, ?_⟩
      · intro j hj
        simp only [E.setI, hb] at hj
        cases hj
      · intro j y hy
        simp only [E.setI, eget hx] at hy
        have e1 : ∀ e : Ev, e = .called j ∨ e = .expired j →
            (s.log ++ [Ev.cancelStart i, .freed i, .cancelDone i]).count e = s.log.count e := by
          intro e he
          rw [List.count_append]
          rcases he with rfl | rfl <;> simp
        simp only [E.setI]
        rw [e1 _ (Or.inl rfl), e1 _ (Or.inr rfl)]
        split at hy
        · rename_i hj
          cases hy
          subst hj
          exact q.cnt j x hx
        · exact q.cnt j y hy
    | arm u =>
      have h' := h
      simp only [estep, v.ok, Bool.false_eq_true, if_false, estepA, E.arm] at h'
      split at h'
      · cases h'
      rename_i hu
      have hu := none_of_not_some hu
      cases h'
      refine ⟨v1, q.nd, ?_, q.cnt⟩
      intro j hj
      have := q.bt j hj
      have hju : j ≠ u := by intro he; unfold E.canReport at this; rw [he, hu] at this; cases this
      unfold E.canReport at this ⊢
      simp only
      rw [upd_ne _ _ hju]
      exact this
    | disarm u =>
      simp only at h
      split at h
      · cases h
      rename_i hd
      have hb : s.batch = [] := v.m (by cases hd' : s.disp with | false => rfl | true => exact absurd hd' hd)
      have h' := h
      simp only [estep, v.ok, Bool.false_eq_true, if_false, estepA, E.disarm] at h'
      split at h'
      · cases h'
        refine ⟨v1, q.nd, ?_, q.cnt⟩
        intro j hj
        simp only [hb] at hj
        cases hj
      · cases h'
    | expire i =>
      have h' := h
      simp only [estep, v.ok, Bool.false_eq_true, if_false, estepA, E.expire] at h'
      split at h'
      · cases h'
      rename_i x hx
      split at h'
      · cases h'
        refine ⟨v1, q.nd, ?_, ?_⟩
        · intro j hj
          rw [canReport_iff]
          simp only [E.setI, eget hx]
          rcases canReport_iff.1 (q.bt j hj) with h | ⟨k, y, h, hy, hp⟩
          · exact Or.inl h
          · right
            by_cases hk : k = i
            · exact ⟨k, _, h, if_pos hk, rfl⟩
            · exact ⟨k, y, h, (if_neg hk).trans hy, hp⟩
        · intro j y hy
          simp only [E.setI, eget hx] at hy ⊢
          rw [count_snoc (by simp)]
          split at hy
          · rename_i hj
            cases hy
            subst hj
            rw [count_snoc_self]
            have := q.cnt j x hx
            simp only [if_true]
            omega
          · rename_i hj
            rw [count_snoc (by intro h; cases h; exact hj rfl)]
            exact q.cnt j y hy
      · cases h'
    | wait js =>
      have h' := h
      simp only [estep, v.ok, Bool.false_eq_true, if_false, estepA, E.wait] at h'
      split at h'
      · rename_i hg
        cases h'
        refine ⟨v1, hg.2.1, ?_, q.cnt⟩
        intro j hj
        exact List.all_eq_true.1 hg.2.2 j hj
      · cases h'
    | dispatch =>
      have h' := h
      simp only [estep, v.ok, Bool.false_eq_true, if_false, estepA, E.dispatch] at h'
      split at h'
      · cases h'
      rename_i j rest hb
      have hnd := q.nd
      rw [hb, List.nodup_cons] at hnd
      have hbt : ∀ k ∈ rest, s.canReport k = true := fun k hk => q.bt k (by rw [hb]; exact List.mem_cons_of_mem _ hk)
      split at h'
      · cases h'; exact ⟨v1, hnd.2, hbt, q.cnt⟩
      · cases h'; exact ⟨v1, hnd.2, hbt, q.cnt⟩
      · rename_i i hs
        obtain ⟨x, hx, hm, hsl⟩ := v.b j i hs
        obtain ⟨hr, hf, _⟩ := v.a i x hx hm
        have hp : x.pending = true := by
          have := q.bt j (by rw [hb]; exact List.mem_cons_self ..)
          simp only [E.canReport, hs, hx] at this
          exact this
        rw [periodicCb_ok (by exact hx) hf hr] at h'
        cases h'
        refine ⟨v1, hnd.2, ?_, ?_⟩
        · intro k hk
          rw [canReport_iff]
          simp only [eget hx]
          rcases canReport_iff.1 (hbt k hk) with h2 | ⟨i', z, h2, hz, hp'⟩
          · exact Or.inl h2
          · right
            by_cases hi : i' = i
            · subst hi
              obtain ⟨y, hy, _, hyl⟩ := v.b k i' h2
              rw [hx] at hy; cases hy
              exact absurd (by rw [← hsl, hyl]; exact hk) hnd.1
            · exact ⟨i', z, h2, (if_neg hi).trans hz, hp'⟩
        · intro k y hy
          simp only [eget hx] at hy ⊢
          rw [count_snoc (a := .expired k) (by simp)]
          split at hy
          · rename_i hk
            cases hy
            subst hk
            rw [count_snoc_self]
            have := q.cnt k x hx
            rw [hp] at this
            simpa using this
          · rename_i hk
            rw [count_snoc (by intro h; cases h; exact hk rfl)]
            exact q.cnt k y hy
    | finish =>
      have h' := h
      simp only [estep, v.ok, Bool.false_eq_true, if_false, estepA] at h'
      split at h'
      · cases h'; exact ⟨v1, q.nd, q.bt, q.cnt⟩
      · cases h'

end Verif.Periodic.Epoll
