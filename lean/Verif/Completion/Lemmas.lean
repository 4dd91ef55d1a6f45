import Verif.Completion.Model

namespace Verif.Completion

open Verif.Common (upd upd_same upd_ne)

theorem upd_apply {α : Type} (f : Nat → α) (i : Nat) (x : α) (j : Nat) :
    upd f i x j = if j = i then x else f j := by
  by_cases h : j = i
  · subst h; rw [upd_same, if_pos rfl]
  · rw [upd_ne _ _ h, if_neg h]

theorem nodup_of_map {α β : Type} {f : α → β} {l : List α} (h : (l.map f).Nodup) : l.Nodup :=
  List.Pairwise.of_map f (fun _ _ h1 h2 => h1 (congrArg f h2)) h

/-- The free list as a list of positions. -/
def Chain (idx : Nat → Option Nat) : Option Nat → List Nat → Prop
  | p, [] => p = none
  | p, x :: xs => p = some x ∧ Chain idx (idx x) xs

theorem Chain.congr {idx idx' : Nat → Option Nat} : ∀ {l : List Nat} {p : Option Nat},
    (∀ i ∈ l, idx' i = idx i) → Chain idx p l → Chain idx' p l
  | [], _, _, h => h
  | x :: xs, p, he, h => by
    refine ⟨h.1, ?_⟩
    rw [he x (List.mem_cons_self ..)]
    exact Chain.congr (fun i hi => he i (List.mem_cons_of_mem _ hi)) h.2

/-- The table is well formed with free list `free`. -/
structure TInv (t : Tab) (free : List Nat) : Prop where
  pos : 0 < t.size
  chain : Chain t.idx t.next free
  nodup : free.Nodup
  mem : ∀ i, i ∈ free ↔ i < t.size ∧ t.cb i = none
  out : ∀ i, t.size ≤ i → t.cb i = none

theorem chain_range (idx : Nat → Option Nat) : ∀ (n a : Nat),
    (∀ i, a ≤ i → i + 1 < a + (n + 1) → idx i = some (i + 1)) → idx (a + n) = none →
    Chain idx (some a) (List.range' a (n + 1)) := by
  intro n
  induction n with
  | zero => intro a _ h; exact ⟨rfl, h⟩
  | succ n ih =>
    intro a h1 h2
    rw [List.range'_succ]
    refine ⟨rfl, ?_⟩
    rw [h1 a (Nat.le_refl _) (by omega)]
    exact ih (a + 1) (fun i hi hj => h1 i (by omega) (by omega)) (by rw [show a + 1 + n = a + (n + 1) by omega]; exact h2)

theorem tinit {n : Nat} (h : 0 < n) : TInv (Tab.init n) (List.range' 0 n) := by
  refine ⟨h, ?_, List.nodup_range', ?_, fun _ _ => rfl⟩
  · obtain ⟨m, rfl⟩ : ∃ m, n = m + 1 := ⟨n - 1, by omega⟩
    apply chain_range
    · intro i _ hi
      simp only [Tab.init]
      rw [if_pos (by omega)]
    · simp only [Tab.init]
      rw [if_neg (by omega)]
  · intro i
    simp [Tab.init, List.mem_range'_1]

theorem ensure_inv {t : Tab} {free : List Nat} (h : TInv t free) :
    ∃ x xs, TInv t.ensure.2 (x :: xs) ∧ t.ensure.2.next = some x ∧ t.ensure.2.cb = t.cb ∧
      t.size ≤ t.ensure.2.size := by
  cases free with
  | cons x xs =>
    have hn : t.next = some x := h.chain.1
    refine ⟨x, xs, ?_, ?_, ?_, ?_⟩ <;> simp only [Tab.ensure, hn]
    · exact h
    · exact Nat.le_refl _
  | nil =>
    have hn : t.next = none := h.chain
    obtain ⟨m, hm⟩ : ∃ m, t.size = m + 1 := ⟨t.size - 1, by have := h.pos; omega⟩
    refine ⟨t.size, List.range' (t.size + 1) m, ?_, ?_, ?_, ?_⟩ <;> simp only [Tab.ensure, hn, Tab.regrow]
    · have e : t.size :: List.range' (t.size + 1) m = List.range' t.size (m + 1) := by
        rw [List.range'_succ]
      rw [e]
      refine ⟨by simp only; omega, ?_, List.nodup_range', ?_, ?_⟩
      · simp only
        apply chain_range
        · intro i h1 h2
          rw [if_pos ⟨h1, by omega⟩]
        · rw [if_neg (by omega), if_pos (by omega)]
      · intro i
        have hm2 := h.mem i
        simp only [List.not_mem_nil, false_iff, not_and] at hm2
        have ho := h.out i
        simp only [List.mem_range'_1]
        constructor
        · intro ⟨h1, h2⟩; exact ⟨by omega, ho h1⟩
        · intro ⟨h1, h2⟩
          by_cases h3 : i < t.size
          · exact absurd h2 (hm2 h3)
          · omega
      · intro i hi
        simp only at hi ⊢
        exact h.out i (by omega)
    · omega

theorem take_inv {t : Tab} {x : Nat} {xs : List Nat} (mark : Bool) (c : Nat) (h : TInv t (x :: xs)) :
    ∃ t', t.take mark c = some (x, t') ∧ TInv t' xs ∧ t'.size = t.size ∧
      t'.cb = upd t.cb x (some c) ∧ (∀ j, j ≠ x → t'.idx j = t.idx j) ∧
      (mark = true → t'.idx x = none) := by
  have hn : t.next = some x := h.chain.1
  have hx := (h.mem x).1 (List.mem_cons_self ..)
  have hnd := List.nodup_cons.1 h.nodup
  refine ⟨{ t with next := t.idx x, cb := upd t.cb x (some c), idx := if mark then upd t.idx x none else t.idx },
    by simp only [Tab.take, hn]; rw [if_pos hx.1], ?_, rfl, rfl, ?_, ?_⟩
  · refine ⟨h.pos, ?_, hnd.2, ?_, ?_⟩
    · apply Chain.congr _ h.chain.2
      intro i hi
      have : i ≠ x := fun e => hnd.1 (e ▸ hi)
      cases mark
      · rfl
      · simp [upd_apply, this]
    · intro i
      have := h.mem i
      simp only [upd_apply]
      simp only [List.mem_cons] at this
      by_cases hi : i = x
      · subst hi; simp [hnd.1]
      · simp only [hi, false_or, if_false] at this ⊢
        exact this
    · intro i hi
      simp only [upd_apply] at hi ⊢
      rw [if_neg (by omega)]
      exact h.out i hi
  · intro j hj
    cases mark
    · rfl
    · simp [upd_apply, hj]
  · intro hm; subst hm; simp [upd_apply]

theorem put_inv {t : Tab} {free : List Nat} {i c : Nat} (h : TInv t free) (hc : t.cb i = some c) :
    TInv (t.put i) (i :: free) ∧ i < t.size := by
  have hlt : i < t.size := by
    by_cases hl : i < t.size
    · exact hl
    · rw [h.out i (by omega)] at hc; cases hc
  have hni : i ∉ free := fun hi => by
    have := ((h.mem i).1 hi).2; rw [hc] at this; cases this
  refine ⟨⟨h.pos, ⟨rfl, ?_⟩, List.nodup_cons.2 ⟨hni, h.nodup⟩, ?_, ?_⟩, hlt⟩
  · simp only [Tab.put, upd_same]
    apply Chain.congr _ h.chain
    intro j hj
    have : j ≠ i := fun e => hni (e ▸ hj)
    simp [upd_apply, this]
  · intro j
    have := h.mem j
    simp only [Tab.put, upd_apply, List.mem_cons]
    by_cases hj : j = i
    · subst hj; simp [hlt]
    · simp only [hj, false_or, if_false]; exact this
  · intro j hj
    simp only [Tab.put, upd_apply] at hj ⊢
    split
    · rfl
    · exact h.out j hj

/-! ## io_uring -/

/-- The invariant of the uring model. -/
structure UInv (u : U) : Prop where
  tab : ∃ free, TInv u.tab free
  live : ∀ op i, (op, i) ∈ u.live ↔ u.tab.cb i = some op
  nodup : (u.live.map (·.1)).Nodup
  old : ∀ p ∈ u.live, p.1 < u.cnt
  pend : u.pending = u.live.length

theorem uinit {n : Nat} (h : 0 < n) : UInv (U.init n) :=
  ⟨⟨_, tinit h⟩, by simp [U.init, Tab.init], by simp [U.init], by simp [U.init], rfl⟩

theorem usubmit {u : U} (h : UInv u) : ∃ g i u', u.submit = some (g, i, u') ∧ UInv u' ∧
    u'.cnt = u.cnt + 1 ∧ u'.live = u.live ++ [(u.cnt, i)] ∧ (∀ op, (op, i) ∉ u.live) := by
  obtain ⟨free, ht⟩ := h.tab
  obtain ⟨x, xs, h1, h2, h3, h4⟩ := ensure_inv ht
  obtain ⟨t', e, k1, k2, k3, _, _⟩ := take_inv false u.cnt h1
  have hx := (h1.mem x).1 (List.mem_cons_self ..)
  rw [h3] at hx
  refine ⟨u.tab.ensure.1, x, ⟨t', u.live ++ [(u.cnt, x)], u.cnt + 1, u.pending + 1⟩,
    by simp only [U.submit, e], ?_, rfl, rfl, ?_⟩
  · refine ⟨⟨xs, k1⟩, ?_, ?_, ?_, ?_⟩
    · intro op i
      have hl := h.live op i
      have hold := h.old
      simp only [k3, h3, upd_apply, List.mem_append, List.mem_singleton, Prod.mk.injEq]
      by_cases hi : i = x
      · subst hi
        rw [hx.2] at hl
        simp only [reduceCtorEq, iff_false] at hl
        simp [hl, eq_comm]
      · simp [hi, hl]
    · simp only [List.map_append, List.map_cons, List.map_nil]
      rw [List.nodup_append]
      refine ⟨h.nodup, by simp, ?_⟩
      intro a ha b hb
      simp only [List.mem_singleton] at hb
      obtain ⟨p, hp, rfl⟩ := List.mem_map.1 ha
      have := h.old p hp
      omega
    · intro p hp
      simp only [List.mem_append, List.mem_singleton] at hp
      rcases hp with hp | rfl
      · have := h.old p hp; simp only; omega
      · simp
    · simp [h.pend]
  · intro op hop
    have := (h.live op x).1 hop
    rw [hx.2] at this; cases this

theorem usubmits : ∀ (n : Nat) {u : U}, UInv u → ∃ g u', U.submits n u = some (g, u') ∧ UInv u' ∧
    u'.cnt = u.cnt + n ∧ (∀ op, op < u.cnt → (op ∈ u'.live.map (·.1) ↔ op ∈ u.live.map (·.1))) ∧
    (∀ op, u.cnt ≤ op → op < u'.cnt → op ∈ u'.live.map (·.1)) := by
  intro n
  induction n with
  | zero => intro u h; exact ⟨false, u, rfl, h, rfl, fun _ _ => Iff.rfl, fun _ h1 h2 => by omega⟩
  | succ n ih =>
    intro u h
    obtain ⟨g, i, u1, e1, h1, c1, l1, _⟩ := usubmit h
    obtain ⟨g2, u2, e2, h2, c2, l2, l3⟩ := ih h1
    refine ⟨g || g2, u2, by simp only [U.submits, e1, e2], h2, by omega, ?_, ?_⟩
    · intro op hop
      rw [l2 op (by omega), l1]
      simp only [List.map_append, List.map_cons, List.map_nil, List.mem_append, List.mem_singleton]
      constructor
      · rintro (h | h)
        · exact h
        · omega
      · exact Or.inl
    · intro op h3 h4
      by_cases h5 : op = u.cnt
      · rw [l2 op (by omega), l1]; simp [h5]
      · exact l3 op (by omega) h4

theorem udone {u : U} {k op i : Nat} (h : UInv u) (hk : u.live[k]? = some (op, i)) :
    UInv { u with tab := u.tab.put i, live := u.live.eraseIdx k, pending := u.pending - 1 } ∧
    u.tab.cb i = some op ∧ i < u.tab.size ∧
    (∀ o, o ∈ (u.live.eraseIdx k).map (·.1) ↔ o ∈ u.live.map (·.1) ∧ o ≠ op) := by
  have hmem : (op, i) ∈ u.live := List.mem_of_getElem? hk
  have hcb := (h.live op i).1 hmem
  obtain ⟨free, ht⟩ := h.tab
  obtain ⟨p1, p2⟩ := put_inv ht hcb
  have hklt : k < u.live.length := (List.getElem?_eq_some_iff.1 hk).1
  have hke : u.live[k] = (op, i) := (List.getElem?_eq_some_iff.1 hk).2
  have hnd : u.live.Nodup := nodup_of_map h.nodup
  have hinj : ∀ q ∈ u.live, q.1 = op → q = (op, i) := by
    intro q hq hq1
    have a1 := (h.live q.1 q.2).1 hq
    obtain ⟨j, hj, hje⟩ := List.mem_iff_getElem.1 hq
    have : (u.live.map (·.1))[j]'(by simpa using hj) = (u.live.map (·.1))[k]'(by simpa using hklt) := by
      simp [hje, hke, hq1]
    have := (List.getElem_inj h.nodup).1 this
    subst this
    rw [← hje, hke]
  have herase : ∀ q, q ∈ u.live.eraseIdx k ↔ q ∈ u.live ∧ q ≠ (op, i) := by
    intro q
    rw [List.mem_eraseIdx_iff_getElem]
    constructor
    · rintro ⟨j, hj, hjk, hje⟩
      refine ⟨hje ▸ List.getElem_mem _, ?_⟩
      intro e
      rw [e, ← hke] at hje
      exact hjk ((List.getElem_inj hnd).1 hje)
    · rintro ⟨hq, hne⟩
      obtain ⟨j, hj, hje⟩ := List.mem_iff_getElem.1 hq
      refine ⟨j, hj, ?_, hje⟩
      intro e
      subst e
      exact hne (hje ▸ hke)
  refine ⟨⟨⟨_, p1⟩, ?_, ?_, ?_, ?_⟩, hcb, p2, ?_⟩
  · intro o j
    have hl := h.live o j
    simp only [Tab.put, upd_apply]
    rw [herase]
    by_cases hj : j = i
    · subst hj
      simp only [if_true, reduceCtorEq, iff_false, not_and, Decidable.not_not]
      intro ho
      have := (h.live o j).1 ho
      rw [hcb] at this
      cases this; rfl
    · simp only [if_neg hj]
      rw [← hl]
      constructor
      · exact fun h => h.1
      · intro h; exact ⟨h, fun e => hj (Prod.mk.inj e).2⟩
  · exact List.Nodup.sublist (List.Sublist.map _ (List.eraseIdx_sublist ..)) h.nodup
  · intro p hp
    exact h.old p ((herase p).1 hp).1
  · simp only [List.length_eraseIdx_of_lt hklt, h.pend]
  · intro o
    simp only [List.mem_map]
    constructor
    · rintro ⟨q, hq, rfl⟩
      have := (herase q).1 hq
      exact ⟨⟨q, this.1, rfl⟩, fun e => this.2 (hinj q this.1 e)⟩
    · rintro ⟨⟨q, hq, rfl⟩, hne⟩
      exact ⟨q, (herase q).2 ⟨hq, fun e => hne (by rw [e])⟩, rfl⟩

/-- Every event of the uring model is defined, and calls the right callback. -/
theorem ustep {u : U} (h : UInv u) (a : UAct) : ∃ ob u', u.step a = some (ob, u') ∧ UInv u' ∧
    (∀ op c m mv, ob = .called op c m mv → op = c ∧ op ∈ u.live.map (·.1) ∧ (m = false → mv = false)) ∧
    (∀ op i, ob = .submitted op i → op = u.cnt ∧ ∀ o, (o, i) ∉ u.live) ∧
    u.cnt ≤ u'.cnt ∧
    (∀ o, o < u'.cnt → (o ∈ u'.live.map (·.1) ↔
      (o ∈ u.live.map (·.1) ∨ u.cnt ≤ o) ∧ ∀ c mv, ob ≠ .called o c false mv)) := by
  cases a with
  | submit =>
    obtain ⟨g, i, u1, e1, h1, c1, l1, l2⟩ := usubmit h
    refine ⟨.submitted u.cnt i, u1, by simp only [U.step, e1], h1, (fun _ _ _ _ e => nomatch e), ?_, by omega, ?_⟩
    · intro op j e
      cases e
      exact ⟨rfl, l2⟩
    · intro o ho
      rw [l1]
      simp only [List.map_append, List.map_cons, List.map_nil, List.mem_append, List.mem_singleton]
      constructor
      · rintro (h | h)
        · exact ⟨Or.inl h, fun _ _ e => nomatch e⟩
        · exact ⟨Or.inr (by omega), fun _ _ e => nomatch e⟩
      · rintro ⟨h | h, _⟩
        · exact Or.inl h
        · right; omega
  | complete k more subs =>
    cases hk : u.live[k]? with
    | none =>
      refine ⟨.nothing, u, by simp only [U.step, hk], h, (fun _ _ _ _ e => nomatch e),
        (fun _ _ e => nomatch e), Nat.le_refl _, ?_⟩
      intro o ho
      constructor
      · exact fun h => ⟨Or.inl h, fun _ _ e => nomatch e⟩
      · rintro ⟨h | h, _⟩
        · exact h
        · omega
    | some p =>
      obtain ⟨op, i⟩ := p
      obtain ⟨d1, d2, d3, d4⟩ := udone h hk
      have hmem : (op, i) ∈ u.live := List.mem_of_getElem? hk
      have hop : op ∈ u.live.map (·.1) := List.mem_map.2 ⟨_, hmem, rfl⟩
      have hlt : op < u.cnt := h.old _ hmem
      cases more with
      | true =>
        obtain ⟨g, u1, e1, h1, c1, l1, l2⟩ := usubmits subs h
        refine ⟨.called op op true g, u1, by simp only [U.step, hk, d2, e1, if_pos d3, if_true], h1,
          ?_, (fun _ _ e => nomatch e), by omega, ?_⟩
        · intro o c m mv e
          cases e
          exact ⟨rfl, hop, fun e => nomatch e⟩
        · intro o ho
          by_cases h5 : o < u.cnt
          · rw [l1 o h5]
            constructor
            · exact fun h => ⟨Or.inl h, fun _ _ e => nomatch e⟩
            · rintro ⟨h | h, _⟩
              · exact h
              · omega
          · constructor
            · exact fun _ => ⟨Or.inr (by omega), fun _ _ e => nomatch e⟩
            · exact fun _ => l2 o (by omega) ho
      | false =>
        obtain ⟨g, u1, e1, h1, c1, l1, l2⟩ := usubmits subs d1
        simp only at c1 l1 l2
        refine ⟨.called op op false false, u1,
          by simp only [U.step, hk, d2, e1, if_pos d3, Bool.false_eq_true, if_false], h1,
          ?_, (fun _ _ e => nomatch e), by omega, ?_⟩
        · intro o c m mv e
          cases e
          exact ⟨rfl, hop, fun _ => rfl⟩
        · intro o ho
          by_cases h5 : o < u.cnt
          · rw [l1 o h5, d4 o]
            constructor
            · rintro ⟨h6, h7⟩
              refine ⟨Or.inl h6, fun c mv e => ?_⟩
              cases e
              exact h7 rfl
            · rintro ⟨h | h, h8⟩
              · refine ⟨h, fun e => ?_⟩
                subst e
                exact h8 _ _ rfl
              · omega
          · constructor
            · refine fun _ => ⟨Or.inr (by omega), fun c mv e => ?_⟩
              cases e
              omega
            · exact fun _ => l2 o (by omega) ho

/-! ## epoll -/

/-- The invariant of the epoll model. -/
structure EInv (e : E) : Prop where
  tab : ∃ free, TInv e.tab free
  armed : ∀ a i, (a, i) ∈ e.armed ↔ e.tab.cb i = some a
  nodup : (e.armed.map (·.1)).Nodup
  old : ∀ p ∈ e.armed, p.1 < e.cnt
  mark : ∀ i c, e.tab.cb i = some c → e.tab.idx i = none
  fetch : e.fetched ≤ e.cnt
  bsize : ∀ p ∈ e.batch, p.2 < e.tab.size
  bold : ∀ p ∈ e.batch, p.1 < e.fetched
  bcb : ∀ p ∈ e.batch, ∀ c, e.tab.cb p.2 = some c → c = p.1 ∨ e.fetched ≤ c
  bslot : ∀ p ∈ e.batch, ∀ j, (p.1, j) ∈ e.armed → j = p.2

theorem einit {n : Nat} (h : 0 < n) : EInv (E.init n) := by
  refine ⟨⟨_, tinit h⟩, ?_, ?_, ?_, ?_, ?_, ?_, ?_, ?_, ?_⟩ <;> simp [E.init, Tab.init]

theorem armed_erase {e : E} {k a i : Nat} (h : EInv e) (hk : e.armed[k]? = some (a, i)) (q : Nat × Nat) :
    q ∈ e.armed.eraseIdx k ↔ q ∈ e.armed ∧ q ≠ (a, i) := by
  have hklt : k < e.armed.length := (List.getElem?_eq_some_iff.1 hk).1
  have hke : e.armed[k] = (a, i) := (List.getElem?_eq_some_iff.1 hk).2
  have hnd : e.armed.Nodup := nodup_of_map h.nodup
  rw [List.mem_eraseIdx_iff_getElem]
  constructor
  · rintro ⟨j, hj, hjk, hje⟩
    refine ⟨hje ▸ List.getElem_mem _, ?_⟩
    intro e
    rw [e, ← hke] at hje
    exact hjk ((List.getElem_inj hnd).1 hje)
  · rintro ⟨hq, hne⟩
    obtain ⟨j, hj, hje⟩ := List.mem_iff_getElem.1 hq
    refine ⟨j, hj, ?_, hje⟩
    intro e
    subst e
    exact hne (hje ▸ hke)

theorem estep {e : E} (h : EInv e) (x : EAct) : ∃ ob e', e.step x = some (ob, e') ∧ EInv e' ∧
    (∀ a c, ob = .called a c → ∃ i rest, e.batch = (a, i) :: rest ∧ c = e.tab.cb i) := by
  cases x with
  | arm =>
    obtain ⟨free, ht⟩ := h.tab
    obtain ⟨y, ys, h1, h2, h3, h4⟩ := ensure_inv ht
    obtain ⟨t', e1, k1, k2, k3, k4, k5⟩ := take_inv true e.cnt h1
    have hy := (h1.mem y).1 (List.mem_cons_self ..)
    rw [h3] at hy
    refine ⟨.armed e.cnt y, { e with tab := t', armed := e.armed ++ [(e.cnt, y)], cnt := e.cnt + 1 },
      by simp only [E.step, e1], ?_, fun a c e => nomatch e⟩
    have hcb : ∀ j, t'.cb j = if j = y then some e.cnt else e.tab.cb j := by
      intro j; rw [k3, h3, upd_apply]
    have hidx : ∀ j c, e.tab.cb j = some c → t'.idx j = none := by
      intro j c hj
      have hjy : j ≠ y := by intro ey; rw [ey, hy.2] at hj; cases hj
      rw [k4 j hjy]
      have hm := h.mark j c hj
      have hlt : j < e.tab.size := by
        by_cases hl : j < e.tab.size
        · exact hl
        · rw [ht.out j (by omega)] at hj; cases hj
      unfold Tab.ensure
      split
      · simp only [Tab.regrow]
        rw [if_neg (by omega), if_neg (by omega)]
        exact hm
      · exact hm
    have hnew : ∀ j, (e.cnt, j) ∉ e.armed := fun j hj => by
      have := h.old _ hj; simp only at this; omega
    refine ⟨⟨ys, k1⟩, ?_, ?_, ?_, ?_, ?_, ?_, h.bold, ?_, ?_⟩
    · intro a j
      have hl := h.armed a j
      simp only [hcb, List.mem_append, List.mem_singleton, Prod.mk.injEq]
      by_cases hj : j = y
      · subst hj
        rw [hy.2] at hl
        simp only [reduceCtorEq, iff_false] at hl
        simp [hl, eq_comm]
      · simp [hj, hl]
    · simp only [List.map_append, List.map_cons, List.map_nil]
      rw [List.nodup_append]
      refine ⟨h.nodup, by simp, ?_⟩
      intro a ha b hb
      simp only [List.mem_singleton] at hb
      obtain ⟨p, hp, rfl⟩ := List.mem_map.1 ha
      have := h.old p hp
      omega
    · intro p hp
      simp only [List.mem_append, List.mem_singleton] at hp
      rcases hp with hp | rfl
      · have := h.old p hp; simp only; omega
      · simp
    · intro j c hj
      simp only [hcb] at hj
      by_cases hjy : j = y
      · subst hjy; exact k5 rfl
      · rw [if_neg hjy] at hj
        exact hidx j c hj
    · have := h.fetch; simp only; omega
    · intro p hp
      have := h.bsize p hp
      simp only [k2]; omega
    · intro p hp c hc
      simp only [hcb] at hc
      by_cases hjy : p.2 = y
      · rw [if_pos hjy] at hc
        cases hc
        right; exact h.fetch
      · rw [if_neg hjy] at hc
        exact h.bcb p hp c hc
    · intro p hp j hj
      simp only [List.mem_append, List.mem_singleton, Prod.mk.injEq] at hj
      rcases hj with hj | ⟨hj, _⟩
      · exact h.bslot p hp j hj
      · have := h.bold p hp
        have := h.fetch
        omega
  | disarm k =>
    cases hk : e.armed[k]? with
    | none => exact ⟨.nothing, e, by simp only [E.step, hk], h, fun a c e => nomatch e⟩
    | some p =>
      obtain ⟨a, i⟩ := p
      refine ⟨.nothing, { e with tab := e.tab.put i, armed := e.armed.eraseIdx k },
        by simp only [E.step, hk], ?_, fun a c e => nomatch e⟩
      have her := armed_erase h hk
      have hmem : (a, i) ∈ e.armed := List.mem_of_getElem? hk
      have hcb := (h.armed a i).1 hmem
      obtain ⟨free, ht⟩ := h.tab
      obtain ⟨p1, p2⟩ := put_inv ht hcb
      refine ⟨⟨_, p1⟩, ?_, ?_, ?_, ?_, h.fetch, h.bsize, h.bold, ?_, ?_⟩
      · intro o j
        have hl := h.armed o j
        simp only [Tab.put, upd_apply]
        rw [her]
        by_cases hj : j = i
        · subst hj
          simp only [if_true, reduceCtorEq, iff_false, not_and, Decidable.not_not]
          intro ho
          have := (h.armed o j).1 ho
          rw [hcb] at this
          cases this; rfl
        · simp only [if_neg hj]
          rw [← hl]
          constructor
          · exact fun h => h.1
          · intro h; exact ⟨h, fun e => hj (Prod.mk.inj e).2⟩
      · exact List.Nodup.sublist (List.Sublist.map _ (List.eraseIdx_sublist ..)) h.nodup
      · intro p hp
        exact h.old p ((her p).1 hp).1
      · intro j c hj
        simp only [Tab.put, upd_apply] at hj ⊢
        by_cases hji : j = i
        · rw [if_pos hji] at hj; cases hj
        · rw [if_neg hji] at hj ⊢
          exact h.mark j c hj
      · intro p hp c hc
        simp only [Tab.put, upd_apply] at hc
        split at hc
        · cases hc
        · exact h.bcb p hp c hc
      · intro p hp j hj
        exact h.bslot p hp j ((her _).1 hj).1
  | fetch p =>
    by_cases hb : e.batch = []
    · refine ⟨.nothing, { e with batch := p.filterMap (fun k => e.armed[k]?), fetched := e.cnt },
        by simp only [E.step]; rw [if_pos hb], ?_, fun a c e => nomatch e⟩
      obtain ⟨free, ht⟩ := h.tab
      have hmem : ∀ q, q ∈ p.filterMap (fun k => e.armed[k]?) → q ∈ e.armed := by
        intro q hq
        obtain ⟨k, _, hk⟩ := List.mem_filterMap.1 hq
        exact List.mem_of_getElem? hk
      have hcbq : ∀ q, q ∈ p.filterMap (fun k => e.armed[k]?) → e.tab.cb q.2 = some q.1 :=
        fun q hq => (h.armed q.1 q.2).1 (hmem q hq)
      refine ⟨⟨free, ht⟩, h.armed, h.nodup, h.old, h.mark, Nat.le_refl _, ?_, ?_, ?_, ?_⟩
      · intro q hq
        have := hcbq q hq
        by_cases hl : q.2 < e.tab.size
        · exact hl
        · rw [ht.out q.2 (by omega)] at this; cases this
      · intro q hq; exact h.old q (hmem q hq)
      · intro q hq c hc
        left
        have := hcbq q hq
        simp only at hc
        rw [this] at hc
        cases hc; rfl
      · intro q hq j hj
        have h1 := hmem q hq
        obtain ⟨m, hm, hme⟩ := List.mem_iff_getElem.1 h1
        obtain ⟨n, hn, hne⟩ := List.mem_iff_getElem.1 hj
        have : (e.armed.map (·.1))[m]'(by simpa using hm) = (e.armed.map (·.1))[n]'(by simpa using hn) := by
          simp [hme, hne]
        have := (List.getElem_inj h.nodup).1 this
        subst this
        rw [hme] at hne
        rw [hne]
    · exact ⟨.nothing, e, by simp only [E.step]; rw [if_neg hb], h, fun a c e => nomatch e⟩
  | dispatch =>
    cases hb : e.batch with
    | nil => exact ⟨.nothing, e, by simp only [E.step, hb], h, fun a c e => nomatch e⟩
    | cons q rest =>
      obtain ⟨a, i⟩ := q
      have hin : (a, i) ∈ e.batch := by rw [hb]; exact List.mem_cons_self ..
      have hs : i < e.tab.size := h.bsize _ hin
      have hsub : ∀ p ∈ rest, p ∈ e.batch := fun p hp => by rw [hb]; exact List.mem_cons_of_mem _ hp
      refine ⟨.called a (if e.tab.idx i = none then e.tab.cb i else none), { e with batch := rest },
        by simp only [E.step, hb]; rw [if_pos hs], ?_, ?_⟩
      · exact ⟨h.tab, h.armed, h.nodup, h.old, h.mark, h.fetch, fun p hp => h.bsize p (hsub p hp),
          fun p hp => h.bold p (hsub p hp), fun p hp => h.bcb p (hsub p hp),
          fun p hp => h.bslot p (hsub p hp)⟩
      · intro a' c hc
        cases hc
        refine ⟨i, rest, rfl, ?_⟩
        split
        · rfl
        · rename_i hne
          cases hci : e.tab.cb i with
          | none => rfl
          | some c => exact absurd (h.mark i c hci) hne

end Verif.Completion
