import Verif.Periodic.Proc
/-! What the log says about the tasks. -/
namespace Verif.Periodic
open Verif.Common

/-- `b` may follow `a`. -/
def May (a b : Ev) : Prop := ∀ i,
  (a = .cancelStart i → b ≠ .called i ∧ b ≠ .cancelStart i) ∧
  (a = .freed i → b ≠ .called i ∧ b ≠ .freed i ∧ b ≠ .expired i ∧ b ≠ .cancelStart i) ∧
  (a = .cancelDone i → b ≠ .called i ∧ b ≠ .expired i)

/-- Completions of expired timers of task `i` that wait in the queue. -/
def ready (i : Nat) (cq : List Cqe) : Nat := cq.countP fun c => decide (c.cb = .timer i ∧ c.res = .etime)

structure Lg (s : S) : Prop where
  ord : s.log.Pairwise May
  start : ∀ i, .cancelStart i ∈ s.log ↔ ∃ x : Item, s.items[i]? = some x ∧ x.inMap = false
  freed : ∀ i, .freed i ∈ s.log ↔ ∃ x : Item, s.items[i]? = some x ∧ x.freed = true
  done : ∀ i, .cancelDone i ∈ s.log → ∃ (f : Nat) (c : Cancel), s.cans[f]? = some c ∧ c.i = i ∧ c.done = true
  added : ∀ i, .added i ∈ s.log ↔ i < s.items.length
  le : ∀ i, s.log.count (.called i) + ready i s.cq ≤ s.log.count (.expired i)
  eq : ∀ (i : Nat) (x : Item), s.items[i]? = some x → x.inMap = true → s.log.count (.called i) + ready i s.cq = s.log.count (.expired i)
  exp : ∀ i, .expired i ∈ s.log → i < s.items.length

theorem lg_init : Lg S.init := by
  refine ⟨?_, ?_, ?_, ?_, ?_, ?_, ?_, ?_⟩ <;> simp [S.init, ready]

theorem ord_snoc {l : List Ev} {b : Ev} (h : l.Pairwise May) (hb : ∀ a ∈ l, May a b) : (l ++ [b]).Pairwise May := by
  refine List.pairwise_append.2 ⟨h, List.pairwise_singleton .., ?_⟩
  intro a ha b' hb'
  rw [List.mem_singleton] at hb'
  subst hb'
  exact hb a ha

theorem count_snoc {l : List Ev} {a b : Ev} (h : b ≠ a) : (l ++ [b]).count a = l.count a := by
  rw [List.count_append, List.count_singleton]
  simp [h]

theorem count_snoc_self {l : List Ev} {a : Ev} : (l ++ [a]).count a = l.count a + 1 := by
  rw [List.count_append, List.count_singleton]
  simp

theorem ready_snoc {i : Nat} {cq : List Cqe} {c : Cqe} :
    ready i (cq ++ [c]) = ready i cq + if c.cb = .timer i ∧ c.res = .etime then 1 else 0 := by
  unfold ready
  rw [List.countP_append, List.countP_singleton]
  simp only [decide_eq_true_eq]

theorem ready_cons {i : Nat} {cq : List Cqe} {c : Cqe} :
    ready i (c :: cq) = ready i cq + if c.cb = .timer i ∧ c.res = .etime then 1 else 0 := by
  unfold ready
  rw [List.countP_cons]
  simp only [decide_eq_true_eq]

/-- Nothing an observer sees changes. -/
theorem Lg.same {s s1 : S} (h : Lg s) (h1 : s1.log = s.log) (h2 : s1.items.length = s.items.length)
    (h3 : ∀ (i : Nat) (x : Item), s1.items[i]? = some x → ∃ y : Item, s.items[i]? = some y ∧ y.inMap = x.inMap ∧ y.freed = x.freed)
    (h4 : s1.cans = s.cans) (h5 : ∀ i, ready i s1.cq = ready i s.cq) : Lg s1 := by
  obtain ⟨ord, start, freed, done, added, le, eq, exp⟩ := h
  have h3' : ∀ (i : Nat) (y : Item), s.items[i]? = some y → ∃ x : Item, s1.items[i]? = some x ∧ y.inMap = x.inMap ∧ y.freed = x.freed := by
    intro i y hy
    have hlt := lt_of_get hy
    rw [← h2] at hlt
    obtain ⟨y', hy', e1, e2⟩ := h3 i s1.items[i] (List.getElem?_eq_getElem hlt)
    rw [hy] at hy'; cases hy'
    exact ⟨_, List.getElem?_eq_getElem hlt, e1, e2⟩
  refine ⟨by rw [h1]; exact ord, ?_, ?_, by rw [h1, h4]; exact done, by rw [h1, h2]; exact added, ?_, ?_, by rw [h1, h2]; exact exp⟩
  · intro i
    rw [h1, start]
    constructor
    · rintro ⟨y, hy, hm⟩
      obtain ⟨x, hx, e1, _⟩ := h3' i y hy
      exact ⟨x, hx, by rw [← e1]; exact hm⟩
    · rintro ⟨x, hx, hm⟩
      obtain ⟨y, hy, e1, _⟩ := h3 i x hx
      exact ⟨y, hy, by rw [e1]; exact hm⟩
  · intro i
    rw [h1, freed]
    constructor
    · rintro ⟨y, hy, hm⟩
      obtain ⟨x, hx, _, e1⟩ := h3' i y hy
      exact ⟨x, hx, by rw [← e1]; exact hm⟩
    · rintro ⟨x, hx, hm⟩
      obtain ⟨y, hy, _, e1⟩ := h3 i x hx
      exact ⟨y, hy, by rw [e1]; exact hm⟩
  · intro i; rw [h1, h5]; exact le i
  · intro i x hx hm
    obtain ⟨y, hy, e1, _⟩ := h3 i x hx
    rw [h1, h5]
    exact eq i y hy (by rw [e1]; exact hm)

theorem id_items {s : S} : ∀ (i : Nat) (x : Item), s.items[i]? = some x → ∃ y : Item, s.items[i]? = some y ∧ y.inMap = x.inMap ∧ y.freed = x.freed :=
  fun _ x hx => ⟨x, hx, rfl, rfl⟩

theorem lg_add {s s1 : S} (v : Inv s) (g : Lg s) {u : Nat} (h : s.add u = some s1) : Lg s1 := by
  unfold S.add at h
  split at h
  · cases h
  simp only [S.schedule, List.getElem?_append_right (Nat.le_refl _), Nat.sub_self, List.getElem?_cons_zero, Bool.false_eq_true, if_false,
    S.setI, S.push] at h
  have hget : ∀ j, ((s.items ++ [Item.mk 1 0 true false]).set s.items.length ⟨2, u, true, false⟩)[j]? =
      if j = s.items.length then some ⟨2, u, true, false⟩ else s.items[j]? := by
    intro j
    rw [List.getElem?_set]
    by_cases hj : j = s.items.length
    · subst hj; simp
    · rw [if_neg (fun h => hj h.symm), if_neg hj]
      by_cases hlt : j < s.items.length
      · rw [List.getElem?_append_left hlt]
      · rw [List.getElem?_eq_none (by simp; omega), List.getElem?_eq_none (by omega)]
  cases h
  obtain ⟨ord, start, freed, done, added, le, eq, exp⟩ := g
  refine ⟨ord_snoc ord ?_, ?_, ?_, ?_, ?_, ?_, ?_, ?_⟩
  · intro a _ i
    simp
  · intro i
    simp only [hget, List.mem_append, List.mem_singleton, start, reduceCtorEq, or_false]
    constructor
    · rintro ⟨x, hx, hm⟩
      have := lt_of_get hx
      exact ⟨x, by rw [if_neg (by omega)]; exact hx, hm⟩
    · rintro ⟨x, hx, hm⟩
      split at hx
      · cases hx; cases hm
      · exact ⟨x, hx, hm⟩
  · intro i
    simp only [hget, List.mem_append, List.mem_singleton, freed, reduceCtorEq, or_false]
    constructor
    · rintro ⟨x, hx, hm⟩
      have := lt_of_get hx
      exact ⟨x, by rw [if_neg (by omega)]; exact hx, hm⟩
    · rintro ⟨x, hx, hm⟩
      split at hx
      · cases hx; cases hm
      · exact ⟨x, hx, hm⟩
  · intro i hi
    rcases List.mem_append.1 hi with hi | hi
    · exact done i hi
    · rw [List.mem_singleton] at hi; cases hi
  · intro i
    simp only [List.mem_append, List.mem_singleton, added, Ev.added.injEq, List.length_set, List.length_append, List.length_singleton]
    omega
  · intro i
    simp only
    rw [count_snoc (by simp), count_snoc (by simp)]
    exact le i
  · intro i x hx hm
    simp only [hget] at hx
    simp only
    rw [count_snoc (by simp), count_snoc (by simp)]
    split at hx
    · rename_i hi
      subst hi
      have h0 : s.log.count (.expired s.items.length) = 0 := by
        rw [List.count_eq_zero]
        intro hm
        exact absurd (exp _ hm) (Nat.lt_irrefl _)
      have := le s.items.length
      omega
    · exact eq i x hx hm
  · intro i hi
    simp only [List.length_set, List.length_append, List.length_singleton]
    rcases List.mem_append.1 hi with hi | hi
    · have := exp i hi
      omega
    · rw [List.mem_singleton] at hi; cases hi

theorem lg_cancel {s s1 : S} (v : Inv s) (g : Lg s) {i u : Nat} (h : s.cancel i u = some s1) : Lg s1 := by
  unfold S.cancel at h
  split at h
  · cases h
  rename_i x hx
  split at h
  · cases h
  rename_i hg
  have hin : x.inMap = true := Classical.byContradiction fun h => hg (Or.inr (Or.inr h))
  have hfr := ((v.o.c i x hx).1 hin).2
  simp only [S.setI, S.push] at h
  have hget : ∀ j, (s.items.set i { x with ref := x.ref - 1, inMap := false })[j]? =
      if j = i then some { x with ref := x.ref - 1, inMap := false } else s.items[j]? := by
    intro j
    by_cases hj : j = i
    · subst hj; rw [List.getElem?_set_self (lt_of_get hx), if_pos rfl]
    · rw [List.getElem?_set_ne (fun h => hj h.symm), if_neg hj]
  cases h
  obtain ⟨ord, start, freed, done, added, le, eq, exp⟩ := g
  have hns : Ev.cancelStart i ∉ s.log := by
    rw [start]
    rintro ⟨y, hy, hm⟩
    rw [hx] at hy; cases hy
    rw [hin] at hm; cases hm
  have hnf : Ev.freed i ∉ s.log := by
    rw [freed]
    rintro ⟨y, hy, hm⟩
    rw [hx] at hy; cases hy
    rw [hfr] at hm; cases hm
  refine ⟨ord_snoc ord ?_, ?_, ?_, ?_, ?_, ?_, ?_, ?_⟩
  · intro a ha j
    refine ⟨?_, ?_, ?_⟩
    · rintro rfl
      refine ⟨by simp, ?_⟩
      intro h; cases h; exact hns ha
    · rintro rfl
      refine ⟨by simp, by simp, by simp, ?_⟩
      intro h; cases h; exact hnf ha
    · rintro rfl
      simp
  · intro j
    simp only [hget, List.mem_append, List.mem_singleton, start, Ev.cancelStart.injEq]
    constructor
    · rintro (⟨y, hy, hm⟩ | rfl)
      · by_cases hj : j = i
        · exact ⟨_, if_pos hj, rfl⟩
        · exact ⟨y, (if_neg hj).trans hy, hm⟩
      · exact ⟨_, if_pos rfl, rfl⟩
    · rintro ⟨y, hy, hm⟩
      split at hy
      · rename_i hj; exact Or.inr hj
      · exact Or.inl ⟨y, hy, hm⟩
  · intro j
    simp only [hget, List.mem_append, List.mem_singleton, freed, reduceCtorEq, or_false]
    constructor
    · rintro ⟨y, hy, hm⟩
      by_cases hj : j = i
      · subst hj
        rw [hx] at hy; cases hy
        rw [hfr] at hm; cases hm
      · exact ⟨y, (if_neg hj).trans hy, hm⟩
    · rintro ⟨y, hy, hm⟩
      split at hy
      · cases hy
        simp only at hm
        rw [hfr] at hm; cases hm
      · exact ⟨y, hy, hm⟩
  · intro j hj
    rcases List.mem_append.1 hj with hj | hj
    · obtain ⟨f, c, hc, h1⟩ := done j hj
      exact ⟨f, c, by simp only; rw [List.getElem?_append_left (lt_of_get hc)]; exact hc, h1⟩
    · rw [List.mem_singleton] at hj; cases hj
  · intro j
    simp only [List.mem_append, List.mem_singleton, added, List.length_set, reduceCtorEq, or_false]
  · intro j
    simp only
    rw [count_snoc (by simp), count_snoc (by simp)]
    exact le j
  · intro j y hy hm
    simp only [hget] at hy
    simp only
    rw [count_snoc (by simp), count_snoc (by simp)]
    split at hy
    · cases hy; cases hm
    · exact eq j y hy hm
  · intro j hj
    simp only [List.length_set]
    rcases List.mem_append.1 hj with hj | hj
    · exact exp j hj
    · rw [List.mem_singleton] at hj; cases hj

theorem lg_fire {s s1 : S} (v : Inv s) (g : Lg s) {k : Nat} (h : s.fire k = some s1) : Lg s1 := by
  unfold S.fire at h
  split at h
  · cases h
  rename_i t ht
  split at h
  · cases h
  rename_i hd
  cases h
  have hk := List.mem_of_getElem? ht
  obtain ⟨x, hx, hf, _⟩ := v.o.b _ _ ((v.t.iff _ _).2 (mem_kt hk))
  obtain ⟨ord, start, freed, done, added, le, eq, exp⟩ := g
  have hnf : Ev.freed t.i ∉ s.log := by
    rw [freed]
    rintro ⟨y, hy, hm⟩
    rw [hx] at hy; cases hy
    rw [hf] at hm; cases hm
  have hnd : Ev.cancelDone t.i ∉ s.log := by
    intro hm
    obtain ⟨f, c, hc, hci, hcd⟩ := done _ hm
    refine hd ((v.q.d f c hc ?_).2 t hk hci.symm)
    intro e he hcb
    obtain ⟨c', hc', hd'⟩ := v.o.e e.ud f (by rw [← hcb]; exact (v.t.iff _ _).2 (mem_sq he))
    rw [hc] at hc'; cases hc'
    rw [hcd] at hd'; cases hd'
  have cnt : ∀ i, (s.log ++ [Ev.expired t.i]).count (.expired i) = s.log.count (.expired i) + if t.i = i then 1 else 0 := by
    intro i
    by_cases hi : t.i = i
    · subst hi; rw [count_snoc_self, if_pos rfl]
    · rw [count_snoc (by intro h; cases h; exact hi rfl), if_neg hi]; rfl
  have rdy : ∀ i, ready i (s.cq ++ [⟨t.ud, .etime, .timer t.i⟩]) = ready i s.cq + if t.i = i then 1 else 0 := by
    intro i
    rw [ready_snoc]
    simp
  refine ⟨ord_snoc ord ?_, ?_, ?_, ?_, ?_, ?_, ?_, ?_⟩
  · intro a ha j
    refine ⟨?_, ?_, ?_⟩
    · rintro rfl
      simp
    · rintro rfl
      refine ⟨by simp, by simp, ?_, by simp⟩
      intro h; cases h; exact hnf ha
    · rintro rfl
      refine ⟨by simp, ?_⟩
      intro h; cases h; exact hnd ha
  · intro j
    simp only [List.mem_append, List.mem_singleton, start, reduceCtorEq, or_false]
  · intro j
    simp only [List.mem_append, List.mem_singleton, freed, reduceCtorEq, or_false]
  · intro j hj
    rcases List.mem_append.1 hj with hj | hj
    · exact done j hj
    · rw [List.mem_singleton] at hj; cases hj
  · intro j
    simp only [List.mem_append, List.mem_singleton, added, reduceCtorEq, or_false]
  · intro j
    simp only
    rw [count_snoc (by simp), cnt, rdy]
    have := le j
    omega
  · intro j y hy hm
    simp only
    rw [count_snoc (by simp), cnt, rdy]
    have := eq j y hy hm
    omega
  · intro j hj
    rcases List.mem_append.1 hj with hj | hj
    · exact exp j hj
    · rw [List.mem_singleton] at hj; cases hj
      exact lt_of_get hx

theorem lg_proc {s s1 : S} (v : Inv s) (g : Lg s) (h : s.proc = some s1) : Lg s1 := by
  obtain ⟨hm, c, cq, hcq, hs, h⟩ := proc_shape v h
  rcases h with ⟨i, x, hci, hx, hin, hf, hud, hp, rfl⟩ | ⟨i, x, hci, hx, hin, hf, hud, hp, hr, rfl⟩ | ⟨f, k, hci, hk, hd, rfl⟩ | ⟨hci, rfl⟩
  · have hget : ∀ j, (s.items.set i { x with freed := true })[j]? = if j = i then some { x with freed := true } else s.items[j]? := by
      intro j
      by_cases hj : j = i
      · subst hj; rw [List.getElem?_set_self (lt_of_get hx), if_pos rfl]
      · rw [List.getElem?_set_ne (fun h => hj h.symm), if_neg hj]
    obtain ⟨ord, start, freed, done, added, le, eq, exp⟩ := g
    have hnf : Ev.freed i ∉ s.log := by
      rw [freed]
      rintro ⟨y, hy, hm⟩
      rw [hx] at hy; cases hy
      rw [hf] at hm; cases hm
    refine ⟨ord_snoc ord ?_, ?_, ?_, ?_, ?_, ?_, ?_, ?_⟩
    · intro a ha j
      refine ⟨?_, ?_, ?_⟩
      · rintro rfl
        simp
      · rintro rfl
        refine ⟨by simp, ?_, by simp, by simp⟩
        intro h; cases h; exact hnf ha
      · rintro rfl
        simp
    · intro j
      simp only [hget, List.mem_append, List.mem_singleton, start, reduceCtorEq, or_false]
      constructor
      · rintro ⟨y, hy, hm⟩
        by_cases hj : j = i
        · exact ⟨_, if_pos hj, hin⟩
        · exact ⟨y, (if_neg hj).trans hy, hm⟩
      · rintro ⟨y, hy, hm⟩
        split at hy
        · rename_i hj; subst hj; exact ⟨x, hx, hin⟩
        · exact ⟨y, hy, hm⟩
    · intro j
      simp only [hget, List.mem_append, List.mem_singleton, freed, Ev.freed.injEq]
      constructor
      · rintro (⟨y, hy, hm⟩ | rfl)
        · by_cases hj : j = i
          · exact ⟨_, if_pos hj, rfl⟩
          · exact ⟨y, (if_neg hj).trans hy, hm⟩
        · exact ⟨_, if_pos rfl, rfl⟩
      · rintro ⟨y, hy, hm⟩
        split at hy
        · rename_i hj; exact Or.inr hj
        · exact Or.inl ⟨y, hy, hm⟩
    · intro j hj
      rcases List.mem_append.1 hj with hj | hj
      · exact done j hj
      · rw [List.mem_singleton] at hj; cases hj
    · intro j
      simp only [List.mem_append, List.mem_singleton, added, List.length_set, reduceCtorEq, or_false]
    · intro j
      simp only
      rw [count_snoc (by simp), count_snoc (by simp)]
      have := le j
      rw [hcq, ready_cons] at this
      omega
    · intro j y hy hm
      simp only [hget] at hy
      simp only
      rw [count_snoc (by simp), count_snoc (by simp)]
      split at hy
      · cases hy
        simp only at hm
        rw [hin] at hm; cases hm
      · rename_i hji
        have := eq j y hy hm
        rw [hcq, ready_cons, if_neg (by rw [hci]; rintro ⟨h, _⟩; cases h; exact hji rfl)] at this
        exact this
    · intro j hj
      simp only [List.length_set]
      rcases List.mem_append.1 hj with hj | hj
      · exact exp j hj
      · rw [List.mem_singleton] at hj; cases hj
  · obtain ⟨ord, start, freed, done, added, le, eq, exp⟩ := g
    have cnt : ∀ j, (s.log ++ [Ev.called i]).count (.called j) + ready j cq = s.log.count (.called j) + ready j s.cq := by
      intro j
      rw [hcq, ready_cons]
      by_cases hj : i = j
      · subst hj; rw [count_snoc_self, if_pos ⟨hci, hr⟩]; omega
      · rw [count_snoc (by intro h; cases h; exact hj rfl), if_neg (by rw [hci]; rintro ⟨h, _⟩; cases h; exact hj rfl)]
        omega
    refine ⟨ord_snoc ord ?_, ?_, ?_, ?_, ?_, ?_, ?_, ?_⟩
    · intro a ha j
      refine ⟨?_, ?_, ?_⟩
      · rintro rfl
        refine ⟨?_, by simp⟩
        intro h; cases h
        obtain ⟨y, hy, hm⟩ := (start _).1 ha
        rw [hx] at hy; cases hy
        rw [hin] at hm; cases hm
      · rintro rfl
        refine ⟨?_, by simp, by simp, by simp⟩
        intro h; cases h
        obtain ⟨y, hy, hm⟩ := (freed _).1 ha
        rw [hx] at hy; cases hy
        rw [hf] at hm; cases hm
      · rintro rfl
        refine ⟨?_, by simp⟩
        intro h; cases h
        obtain ⟨f, k, hk, hki, _⟩ := done _ ha
        obtain ⟨y, hy, hm⟩ := v.o.g f k hk
        rw [hki, hx] at hy; cases hy
        rw [hin] at hm; cases hm
    · intro j
      simp only [List.mem_append, List.mem_singleton, start, reduceCtorEq, or_false]
    · intro j
      simp only [List.mem_append, List.mem_singleton, freed, reduceCtorEq, or_false]
    · intro j hj
      rcases List.mem_append.1 hj with hj | hj
      · exact done j hj
      · rw [List.mem_singleton] at hj; cases hj
    · intro j
      simp only [List.mem_append, List.mem_singleton, added, reduceCtorEq, or_false]
    · intro j
      simp only
      rw [cnt, count_snoc (by simp)]
      exact le j
    · intro j y hy hm
      simp only
      rw [cnt, count_snoc (by simp)]
      exact eq j y hy hm
    · intro j hj
      rcases List.mem_append.1 hj with hj | hj
      · exact exp j hj
      · rw [List.mem_singleton] at hj; cases hj
  · obtain ⟨ord, start, freed, done, added, le, eq, exp⟩ := g
    have rdy : ∀ j, ready j cq = ready j s.cq := by
      intro j
      rw [hcq, ready_cons, if_neg (by rw [hci]; rintro ⟨h, _⟩; cases h)]; rfl
    refine ⟨ord_snoc ord ?_, ?_, ?_, ?_, ?_, ?_, ?_, ?_⟩
    · intro a ha j
      simp
    · intro j
      simp only [List.mem_append, List.mem_singleton, start, reduceCtorEq, or_false]
    · intro j
      simp only [List.mem_append, List.mem_singleton, freed, reduceCtorEq, or_false]
    · intro j hj
      rcases List.mem_append.1 hj with hj | hj
      · obtain ⟨f', c', hc', h1, h2⟩ := done j hj
        have : f' ≠ f := by intro he; subst he; rw [hk] at hc'; cases hc'; rw [hd] at h2; cases h2
        exact ⟨f', c', by simp only; rw [List.getElem?_set_ne (fun h => this h.symm)]; exact hc', h1, h2⟩
      · rw [List.mem_singleton] at hj; cases hj
        exact ⟨f, _, List.getElem?_set_self (lt_of_get hk), rfl, rfl⟩
    · intro j
      simp only [List.mem_append, List.mem_singleton, added, reduceCtorEq, or_false]
    · intro j
      simp only
      rw [count_snoc (by simp), count_snoc (by simp), rdy]
      exact le j
    · intro j y hy hm
      simp only
      rw [count_snoc (by simp), count_snoc (by simp), rdy]
      exact eq j y hy hm
    · intro j hj
      rcases List.mem_append.1 hj with hj | hj
      · exact exp j hj
      · rw [List.mem_singleton] at hj; cases hj
  · refine g.same rfl rfl id_items rfl ?_
    intro j
    rw [hcq, ready_cons, if_neg (by rw [hci]; rintro ⟨h, _⟩; cases h)]
    rfl

theorem lg_submit {s s1 : S} (g : Lg s) (h : s.submit = some s1) : Lg s1 := by
  unfold S.submit at h
  split at h
  · cases h
  split at h
  · cases h; exact g.same rfl rfl id_items rfl (fun _ => rfl)
  · cases h
    refine g.same rfl rfl id_items rfl ?_
    intro i
    simp only
    rw [ready_snoc, if_neg (by rintro ⟨h, _⟩; cases h)]
    rfl
  · cases h; exact g.same rfl rfl id_items rfl (fun _ => rfl)

theorem lg_resch {s s1 : S} (v : Inv s) (g : Lg s) {u : Nat} (h : s.resch u = some s1) : Lg s1 := by
  unfold S.resch at h
  split at h
  · cases h
  split at h
  · cases h
  rename_i i rest hp
  obtain ⟨x, hx, hin⟩ := v.o.d i (by rw [hp]; exact List.mem_cons_self ..)
  have hfr := ((v.o.c i x hx).1 hin).2
  simp only [S.schedule, hx, hfr, Bool.false_eq_true, if_false, S.setI, S.push] at h
  cases h
  refine g.same rfl (by simp) ?_ rfl (fun _ => rfl)
  intro j y hy
  simp only at hy
  by_cases hj : i = j
  · subst hj
    rw [List.getElem?_set_self (lt_of_get hx)] at hy
    cases hy
    exact ⟨x, hx, rfl, hfr⟩
  · rw [List.getElem?_set_ne hj] at hy
    exact ⟨y, hy, rfl, rfl⟩

theorem lg_step {s s1 : S} {a : Act} (v : Inv s) (g : Lg s) (h : step s a = some s1) : Lg s1 := by
  unfold step at h
  rw [v.ok] at h
  simp only [Option.isSome_none, Bool.false_eq_true, if_false] at h
  cases a with
  | add u => exact lg_add v g h
  | cancel i u => exact lg_cancel v g h
  | other u =>
    simp only [stepA, S.other, S.push] at h
    split at h
    · cases h
    · cases h; exact g.same rfl rfl id_items rfl (fun _ => rfl)
  | submit => exact lg_submit g h
  | fire k => exact lg_fire v g h
  | post k =>
    simp only [stepA, S.post] at h
    split at h
    · cases h
    split at h
    · cases h
      refine g.same rfl rfl id_items rfl ?_
      intro i
      simp only
      rw [ready_snoc, if_neg (by rintro ⟨_, h⟩; cases h)]
      rfl
    · cases h
  | comp k =>
    simp only [stepA, S.comp] at h
    split at h
    · cases h
    · cases h
      refine g.same rfl rfl id_items rfl ?_
      intro i
      simp only
      rw [ready_snoc, if_neg (by rintro ⟨h, _⟩; cases h)]
      rfl
  | proc => exact lg_proc v g h
  | resch u => exact lg_resch v g h
  | begin =>
    simp only [stepA] at h
    split at h
    · cases h; exact g.same rfl rfl id_items rfl (fun _ => rfl)
    · cases h
  | drained =>
    simp only [stepA] at h
    split at h
    · cases h; exact g.same rfl rfl id_items rfl (fun _ => rfl)
    · cases h
  | finish =>
    simp only [stepA] at h
    split at h
    · cases h; exact g.same rfl rfl id_items rfl (fun _ => rfl)
    · cases h

theorem lg_reach {s : S} (h : Reachable Init step s) : Inv s ∧ Lg s :=
  Reachable.invariant (fun s => Inv s ∧ Lg s) (fun s h => by rw [h]; exact ⟨inv_init, lg_init⟩)
    (fun _ _ _ i h => ⟨inv_step i.1 h, lg_step i.1 i.2 h⟩) h

end Verif.Periodic
