import Verif.Mpsc.Model
namespace Verif.Mpsc
open Verif.Common

/-- `b` directly follows `a`. -/
def Adj : List Nat → Nat → Nat → Prop
  | x :: y :: l, a, b => (a = x ∧ b = y) ∨ Adj (y :: l) a b
  | _, _, _ => False

theorem adj_mem : ∀ {l : List Nat} {a b : Nat}, Adj l a b → a ∈ l ∧ b ∈ l.tail
  | [], _, _, h => h.elim
  | [_], _, _, h => h.elim
  | x :: y :: l, a, b, h => by
    rcases h with ⟨rfl, rfl⟩ | h
    · simp
    · have := adj_mem h
      refine ⟨List.mem_cons_of_mem _ this.1, List.mem_of_mem_tail this.2⟩

theorem adj_append : ∀ {l : List Nat} {x a b : Nat}, Adj (l ++ [x]) a b ↔ Adj l a b ∨ (l.getLast? = some a ∧ b = x)
  | [], x, a, b => by simp [Adj]
  | [y], x, a, b => by simp [Adj, eq_comm]
  | y :: z :: l, x, a, b => by
    have ih := @adj_append (z :: l) x a b
    simp only [List.cons_append] at ih ⊢
    simp only [Adj]
    rw [ih, List.getLast?_cons_cons, or_assoc]

theorem adj_unique : ∀ {l : List Nat} {a b b' : Nat}, l.Nodup → Adj l a b → Adj l a b' → b = b'
  | [], _, _, _, _, h, _ => h.elim
  | [_], _, _, _, _, h, _ => h.elim
  | x :: y :: l, a, b, b', hn, h, h' => by
    have hx : x ∉ y :: l := (List.nodup_cons.mp hn).1
    rcases h with ⟨rfl, rfl⟩ | h <;> rcases h' with ⟨h1, rfl⟩ | h'
    · rfl
    · exact absurd (adj_mem h').1 hx
    · subst h1; exact absurd (adj_mem h).1 hx
    · exact adj_unique (List.nodup_cons.mp hn).2 h h'

theorem adj_last : ∀ {l : List Nat} {a b : Nat}, l.Nodup → Adj l a b → l.getLast? ≠ some a
  | [], _, _, _, h => h.elim
  | [_], _, _, _, h => h.elim
  | x :: y :: l, a, b, hn, h => by
    rw [List.getLast?_cons_cons]
    rcases h with ⟨rfl, rfl⟩ | h
    · intro e
      exact (List.nodup_cons.mp hn).1 (List.mem_of_getLast? e)
    · exact adj_last (List.nodup_cons.mp hn).2 h

/-- A push that has exchanged the tail and not yet linked: from `a` to `b`. -/
def Pending (s : State) (a b : Nat) : Prop :=
  (∃ i : Nat, s.th[i]? = some (Pc.link a b)) ∨ (s.cons = .pushLink a ∧ b = 0)

/-- Node a producer is about to append. -/
def fresh : Pc → Option Nat
  | .reset x => some x
  | .swap x => some x
  | _ => none

/-- Guarantees of the consumer's program counter. -/
def CInv (s : State) : Prop :=
  match s.cons with
  | .idle => True
  | .load => True
  | .tailA => s.head = 0
  | .load2 => s.head ≠ 0
  | .tailB => s.head ≠ 0
  | .pushReset => s.head ≠ 0 ∧ 0 ∉ s.chain
  | .pushSwap => s.head ≠ 0 ∧ 0 ∉ s.chain ∧ s.next 0 = none
  | .pushLink _ => s.head ≠ 0
  | .load3 => s.head ≠ 0

structure Inv (s : State) : Prop where
  nodup : s.chain.Nodup
  hd : s.chain.head? = some s.head
  tl : s.chain.getLast? = some s.tail
  tlnext : s.next s.tail = none
  link : ∀ a b, Adj s.chain a b → s.next a = some b ∨ (s.next a = none ∧ Pending s a b)
  pend : ∀ a b, Pending s a b → Adj s.chain a b ∧ s.next a = none
  fresh : ∀ (i : Nat) (pc : Pc) (x : Nat), s.th[i]? = some pc → fresh pc = some x →
    x ≠ 0 ∧ x ∉ s.chain ∧ s.client x = false
  swap : ∀ (i x : Nat), s.th[i]? = some (.swap x) → s.next x = none
  uniq : ∀ (i j : Nat) (pi pj : Pc) (x : Nat), s.th[i]? = some pi → s.th[j]? = some pj → Mpsc.fresh pi = some x →
    Mpsc.fresh pj = some x → i = j
  uniqL : ∀ (i j a b a' : Nat), s.th[i]? = some (.link a b) → s.th[j]? = some (.link a' b) → i = j
  lnz : ∀ (i a b : Nat), s.th[i]? = some (.link a b) → b ≠ 0
  own : ∀ x ∈ s.chain, x ≠ 0 → s.client x = false
  log : s.pushed = s.popped ++ s.chain.filter (fun x => decide (x ≠ 0))
  con : CInv s
  bad : s.bad = false

theorem head_mem {s : State} (h : Inv s) : s.head ∈ s.chain := List.mem_of_head? h.hd

theorem tail_mem {s : State} (h : Inv s) : s.tail ∈ s.chain := List.mem_of_getLast? h.tl

theorem clash_chain {s : State} (h : Inv s) {x : Nat} (hx : x ∈ s.chain) : s.clash x = false := by
  unfold State.clash
  rw [h.bad]
  by_cases e : x = 0
  · simp [e]
  · simp [h.own x hx e]

/-- The chain as head and rest, when the head's link is set. -/
theorem chain_next {s : State} (h : Inv s) {n : Nat} (hn : s.next s.head = some n) :
    ∃ l, s.chain = s.head :: n :: l := by
  have hh := h.hd
  cases hc : s.chain with
  | nil => rw [hc] at hh; simp at hh
  | cons a l =>
    rw [hc] at hh
    simp only [List.head?_cons, Option.some.injEq] at hh
    subst hh
    cases l with
    | nil =>
      have ht := h.tl
      rw [hc] at ht
      simp only [List.getLast?_singleton, Option.some.injEq] at ht
      have := h.tlnext
      rw [← ht] at this; rw [this] at hn; simp at hn
    | cons b l =>
      have hadj : Adj s.chain s.head b := by rw [hc]; exact Or.inl ⟨rfl, rfl⟩
      rcases h.link _ _ hadj with e | ⟨e, _⟩
      · rw [e] at hn
        simp only [Option.some.injEq] at hn
        subst hn; exact ⟨l, rfl⟩
      · rw [e] at hn; simp at hn

theorem pend_congr {s s' : State} (h1 : s'.th = s.th) (h2 : ∀ a, s'.cons = .pushLink a ↔ s.cons = .pushLink a)
    (a b : Nat) : Pending s' a b ↔ Pending s a b := by
  simp [Pending, h1, h2]

/-- Changes of the consumer's own bookkeeping only. -/
theorem inv_cons {s : State} (h : Inv s) (pc : CPc) (ev : Event) (str : Bool) (h0 : ∀ a, s.cons ≠ .pushLink a)
    (h1 : ∀ a, pc ≠ .pushLink a) (hc : CInv { s with cons := pc, ev := ev, strong := str }) :
    Inv { s with cons := pc, ev := ev, strong := str } := by
  have hp : ∀ a b, Pending { s with cons := pc, ev := ev, strong := str } a b ↔ Pending s a b :=
    pend_congr rfl (fun a => ⟨fun e => absurd e (h1 a), fun e => absurd e (h0 a)⟩)
  obtain ⟨nodup, hd, tl, tlnext, link, pend, fr, sw, uniq, uniqL, lnz, own, log, con, bad⟩ := h
  exact ⟨nodup, hd, tl, tlnext, fun a b hab => by rw [hp]; exact link a b hab, fun a b hab => pend a b ((hp a b).mp hab),
    fr, sw, uniq, uniqL, lnz, own, log, hc, bad⟩

/-- Moving the head over its linked successor. -/
theorem inv_advance {s : State} (h : Inv s) {n : Nat} (hn : s.next s.head = some n) (pc : CPc) (ev : Event)
    (h0 : ∀ a, s.cons ≠ .pushLink a) (h1 : ∀ a, pc ≠ .pushLink a) (cl : Nat → Bool) (pop : List Nat)
    (hcl : ∀ x, x ≠ s.head → cl x = s.client x)
    (hpop : pop = if s.head = 0 then s.popped else s.popped ++ [s.head])
    (hc : CInv { s with head := n, cons := pc, ev := ev, client := cl, popped := pop, chain := s.chain.tail }) :
    Inv { s with head := n, cons := pc, ev := ev, client := cl, popped := pop, chain := s.chain.tail } := by
  obtain ⟨l, hl⟩ := chain_next h hn
  have hp : ∀ a b, Pending { s with head := n, cons := pc, ev := ev, client := cl, popped := pop, chain := s.chain.tail } a b ↔ Pending s a b :=
    pend_congr rfl (fun a => ⟨fun e => absurd e (h1 a), fun e => absurd e (h0 a)⟩)
  obtain ⟨nodup, hd, tl, tlnext, link, pend, fr, sw, uniq, uniqL, lnz, own, log, con, bad⟩ := h
  rw [hl] at nodup hd tl link pend fr own log hc
  have hnh := List.nodup_cons.mp nodup
  refine ⟨by rw [hl]; exact hnh.2, by rw [hl]; rfl, by rw [hl]; rw [List.getLast?_cons_cons] at tl; exact tl, tlnext,
    ?_, ?_, ?_, sw, uniq, uniqL, lnz, ?_, ?_, by rw [hl]; exact hc, bad⟩
  · intro a b hab
    rw [hp]
    rw [hl] at hab
    exact link a b (Or.inr hab)
  · intro a b hab
    rw [hp] at hab
    rw [hl]
    obtain ⟨e1, e2⟩ := pend a b hab
    rcases e1 with ⟨rfl, rfl⟩ | e1
    · rw [hn] at e2; simp at e2
    · exact ⟨e1, e2⟩
  · intro i pci x hi hx
    obtain ⟨a1, a2, a3⟩ := fr i pci x hi hx
    rw [List.mem_cons, not_or] at a2
    exact ⟨a1, by rw [hl]; exact a2.2, by simp only; rw [hcl x a2.1]; exact a3⟩
  · intro x hx h0x
    rw [hl] at hx
    simp only [List.tail_cons] at hx
    simp only
    rw [hcl x (fun e => hnh.1 (e ▸ hx))]
    exact own x (List.mem_cons_of_mem _ hx) h0x
  · simp only [hl, List.tail_cons]
    rw [log, hpop]
    by_cases e : s.head = 0
    · simp [e]
    · simp [e]

theorem inv_deliver {s : State} (h : Inv s) {n : Nat} (hn : s.next s.head = some n) (hz : s.head ≠ 0)
    (h0 : ∀ a, s.cons ≠ .pushLink a) : Inv (s.deliver n) :=
  inv_advance h hn .idle (.item s.head) h0 (by simp) (upd s.client s.head true) (s.popped ++ [s.head])
    (fun x hx => upd_ne _ _ hx) (by simp [hz]) trivial

theorem inv_retry {s : State} (h : Inv s) (h0 : ∀ a, s.cons ≠ .pushLink a) : Inv s.retry := by
  unfold State.retry
  split
  · exact inv_cons h .load .none s.strong h0 (by simp) trivial
  · exact inv_cons h .idle (.null false) s.strong h0 (by simp) trivial

/-- Exchanging the tail (59), for a producer or for the consumer pushing the stub. -/
theorem chain_swap {s : State} (h : Inv s) {x : Nat} (hx : x ∉ s.chain) :
    (s.chain ++ [x]).Nodup ∧ (s.chain ++ [x]).head? = some s.head ∧ (s.chain ++ [x]).getLast? = some x ∧
    (∀ a b, Adj (s.chain ++ [x]) a b ↔ Adj s.chain a b ∨ (a = s.tail ∧ b = x)) := by
  refine ⟨?_, ?_, by simp, ?_⟩
  · rw [List.nodup_append]
    refine ⟨h.nodup, by simp, ?_⟩
    intro a ha b hb
    simp only [List.mem_singleton] at hb
    subst hb
    rintro rfl
    exact hx ha
  · have := h.hd
    cases hc : s.chain with
    | nil => rw [hc] at this; simp at this
    | cons a l => rw [hc] at this; simpa using this
  · intro a b
    rw [adj_append, h.tl]
    simp [eq_comm]

theorem inv_stepP {s s' : State} {t : Nat} {pc : Pc} (h : Inv s) (ht : s.th[t]? = some pc)
    (hs : stepP s t pc = some s') : Inv s' := by
  have hinv := h
  cases pc with
  | idle => simp [stepP] at hs
  | reset x =>
    simp only [stepP, Option.some.injEq] at hs; subst hs
    obtain ⟨x0, xc, xf⟩ := h.fresh t _ x ht rfl
    have hp : ∀ a b, Pending { s with next := upd s.next x none, th := s.th.set t (.swap x), ev := .none,
                                      bad := s.clash x } a b ↔ Pending s a b := by
      intro a b
      unfold Pending
      refine or_congr ⟨?_, ?_⟩ Iff.rfl
      · rintro ⟨i, hi⟩
        rcases get_set hi with ⟨_, e⟩ | ⟨_, hi⟩
        · simp at e
        · exact ⟨i, hi⟩
      · rintro ⟨i, hi⟩
        refine ⟨i, ?_⟩
        simp only
        rw [List.getElem?_set_ne]
        · exact hi
        · rintro rfl; rw [ht] at hi; simp at hi
    have hne : ∀ a ∈ s.chain, upd s.next x none a = s.next a :=
      fun a ha => upd_ne _ _ (fun e => xc (e ▸ ha))
    obtain ⟨nodup, hd, tl, tlnext, link, pend, fr, sw, uniq, uniqL, lnz, own, log, con, bad⟩ := h
    refine ⟨nodup, hd, tl, by simp only; rw [hne _ (tail_mem hinv)]; exact tlnext, ?_, ?_, ?_, ?_, ?_, ?_, ?_, own,
      log, ?_, ?_⟩
    · intro a b hab
      rw [hp]
      simp only; rw [hne a (adj_mem hab).1]
      exact link a b hab
    · intro a b hab
      obtain ⟨e1, e2⟩ := pend a b ((hp a b).mp hab)
      exact ⟨e1, by simp only; rw [hne a (adj_mem e1).1]; exact e2⟩
    · intro i pci y hi hy
      rcases get_set hi with ⟨_, rfl⟩ | ⟨_, hi⟩
      · simp only [Mpsc.fresh, Option.some.injEq] at hy; subst hy; exact ⟨x0, xc, xf⟩
      · exact fr i pci y hi hy
    · intro i y hi
      rcases get_set hi with ⟨_, e⟩ | ⟨_, hi⟩
      · simp only [Pc.swap.injEq] at e; subst e; simp
      · simp only
        by_cases e : y = x
        · subst e; simp
        · rw [upd_ne _ _ e]; exact sw i y hi
    · intro i j pi pj y hi hj h1 h2
      rcases get_set hi with ⟨e1, e2⟩ | ⟨_, hi'⟩ <;> rcases get_set hj with ⟨e3, e4⟩ | ⟨_, hj'⟩
      · omega
      · subst e1 e2; exact uniq _ _ _ _ y ht hj' h1 h2
      · subst e3 e4; exact uniq _ _ _ _ y hi' ht h1 h2
      · exact uniq _ _ _ _ y hi' hj' h1 h2
    · intro i j a b a' hi hj
      rcases get_set hi with ⟨_, e⟩ | ⟨_, hi⟩
      · simp at e
      · rcases get_set hj with ⟨_, e⟩ | ⟨_, hj⟩
        · simp at e
        · exact uniqL _ _ _ _ _ hi hj
    · intro i a b hi
      rcases get_set hi with ⟨_, e⟩ | ⟨_, hi⟩
      · simp at e
      · exact lnz _ _ _ hi
    · unfold CInv at con ⊢
      simp only
      cases hcc : s.cons <;> simp only [hcc] at con ⊢ <;> try exact con
      refine ⟨con.1, con.2.1, ?_⟩
      rw [upd_ne _ _ (fun e => x0 e.symm)]; exact con.2.2
    · simp [State.clash, bad, xf]
  | swap x =>
    simp only [stepP, Option.some.injEq] at hs; subst hs
    obtain ⟨x0, xc, xf⟩ := h.fresh t _ x ht rfl
    have xn := h.swap t x ht
    obtain ⟨c1, c2, c3, c4⟩ := chain_swap h xc
    obtain ⟨nodup, hd, tl, tlnext, link, pend, fr, sw, uniq, uniqL, lnz, own, log, con, bad⟩ := h
    have hp : ∀ a b, Pending s a b →
        Pending { s with tail := x, th := s.th.set t (.link s.tail x), ev := .none, pushed := s.pushed ++ [x], chain := s.chain ++ [x] } a b := by
      rintro a b (⟨i, hi⟩ | e)
      · refine Or.inl ⟨i, ?_⟩
        simp only
        rw [List.getElem?_set_ne]
        · exact hi
        · rintro rfl; rw [ht] at hi; simp at hi
      · exact Or.inr e
    refine ⟨c1, c2, c3, xn, ?_, ?_, ?_, ?_, ?_, ?_, ?_, ?_, ?_, ?_, bad⟩
    · intro a b hab
      rcases (c4 a b).mp hab with e | ⟨rfl, rfl⟩
      · rcases link a b e with e | ⟨e1, e2⟩
        · exact Or.inl e
        · exact Or.inr ⟨e1, hp a b e2⟩
      · exact Or.inr ⟨tlnext, Or.inl ⟨t, List.getElem?_set_self (lt_of_get ht)⟩⟩
    · rintro a b (⟨i, hi⟩ | e)
      · rcases get_set hi with ⟨_, e⟩ | ⟨_, hi⟩
        · simp only [Pc.link.injEq] at e
          exact ⟨(c4 a b).mpr (Or.inr e), by simp only; rw [e.1]; exact tlnext⟩
        · have := pend a b (Or.inl ⟨i, hi⟩)
          exact ⟨(c4 a b).mpr (Or.inl this.1), this.2⟩
      · have := pend a b (Or.inr e)
        exact ⟨(c4 a b).mpr (Or.inl this.1), this.2⟩
    · intro i pci y hi hy
      rcases get_set hi with ⟨_, rfl⟩ | ⟨hne, hi'⟩
      · simp [Mpsc.fresh] at hy
      ·
        obtain ⟨a1, a2, a3⟩ := fr i pci y hi' hy
        refine ⟨a1, ?_, a3⟩
        simp only [List.mem_append, List.mem_singleton, not_or]
        refine ⟨a2, ?_⟩
        rintro rfl
        exact hne (uniq _ _ _ _ y hi' ht hy rfl)
    · intro i y hi
      rcases get_set hi with ⟨_, e⟩ | ⟨_, hi⟩
      · simp at e
      · exact sw i y hi
    · intro i j pi pj y hi hj h1 h2
      rcases get_set hi with ⟨_, rfl⟩ | ⟨_, hi⟩
      · simp [Mpsc.fresh] at h1
      · rcases get_set hj with ⟨_, rfl⟩ | ⟨_, hj⟩
        · simp [Mpsc.fresh] at h2
        · exact uniq _ _ _ _ y hi hj h1 h2
    · have key : ∀ (i a b : Nat), s.th[i]? = some (.link a b) → b ≠ x := by
        rintro i a b hi rfl
        have := (pend a b (Or.inl ⟨i, hi⟩)).1
        exact xc (List.mem_of_mem_tail (adj_mem this).2)
      intro i j a b a' hi hj
      rcases get_set hi with ⟨e1, e⟩ | ⟨_, hi⟩
      · rcases get_set hj with ⟨e2, e'⟩ | ⟨_, hj⟩
        · omega
        · simp only [Pc.link.injEq] at e; exact absurd e.2 (key _ _ _ hj)
      · rcases get_set hj with ⟨_, e⟩ | ⟨_, hj⟩
        · simp only [Pc.link.injEq] at e; exact absurd e.2 (key _ _ _ hi)
        · exact uniqL _ _ _ _ _ hi hj
    · intro i a b hi
      rcases get_set hi with ⟨_, e⟩ | ⟨_, hi⟩
      · simp only [Pc.link.injEq] at e; rw [e.2]; exact x0
      · exact lnz _ _ _ hi
    · intro y hy y0
      simp only [List.mem_append, List.mem_singleton] at hy
      rcases hy with hy | rfl
      · exact own y hy y0
      · exact xf
    · simp only [List.filter_append, log, List.append_assoc]
      simp [x0]
    · have : ∀ l : List Nat, 0 ∉ l → 0 ∉ l ++ [x] := by
        intro l hl
        simp only [List.mem_append, List.mem_singleton, not_or]
        exact ⟨hl, fun e => x0 e.symm⟩
      unfold CInv at con ⊢
      simp only
      cases hcc : s.cons <;> simp only [hcc] at con ⊢ <;> try exact con
      · exact ⟨con.1, this _ con.2⟩
      · exact ⟨con.1, this _ con.2.1, con.2.2⟩
  | link prev x =>
    simp only [stepP, Option.some.injEq] at hs; subst hs
    obtain ⟨p1, p2⟩ := h.pend prev x (Or.inl ⟨t, ht⟩)
    have pm := adj_mem p1
    have hcl := clash_chain h pm.1
    have xnz := h.lnz _ _ _ ht
    have hlast : s.tail ≠ prev := by
      rintro rfl
      exact adj_last h.nodup p1 h.tl
    have hp : ∀ a b, a ≠ prev → 
        (Pending { s with next := upd s.next prev (some x), th := s.th.set t .idle, ev := .none, bad := s.clash prev } a b ↔
          Pending s a b) := by
      intro a b hne
      unfold Pending
      refine or_congr ⟨?_, ?_⟩ Iff.rfl
      · rintro ⟨i, hi⟩
        rcases get_set hi with ⟨_, e⟩ | ⟨_, hi⟩
        · simp at e
        · exact ⟨i, hi⟩
      · rintro ⟨i, hi⟩
        refine ⟨i, ?_⟩
        simp only
        rw [List.getElem?_set_ne]
        · exact hi
        · rintro rfl; rw [ht] at hi; simp only [Option.some.injEq, Pc.link.injEq] at hi; exact hne hi.1.symm
    obtain ⟨nodup, hd, tl, tlnext, link, pend, fr, sw, uniq, uniqL, lnz, own, log, con, bad⟩ := h
    refine ⟨nodup, hd, tl, by simp only; rw [upd_ne _ _ hlast]; exact tlnext, ?_, ?_, ?_, ?_, ?_, ?_, ?_, own, log, ?_, hcl⟩
    · intro a b hab
      by_cases e : a = prev
      · subst e
        left
        simp only [upd_same, Option.some.injEq]
        exact adj_unique nodup p1 hab
      · rw [hp a b e]
        simp only; rw [upd_ne _ _ e]
        exact link a b hab
    · intro a b hab
      by_cases e : a = prev
      · exfalso
        subst e
        rcases hab with ⟨i, hi⟩ | ⟨e1, e2⟩
        · rcases get_set hi with ⟨_, e⟩ | ⟨hne, hi⟩
          · simp at e
          · have := adj_unique nodup p1 (pend a b (Or.inl ⟨i, hi⟩)).1
            subst this
            exact hne (uniqL _ _ _ _ _ hi ht)
        · have := adj_unique nodup p1 (pend a b (Or.inr ⟨e1, e2⟩)).1
          exact xnz (this.trans e2)
      · obtain ⟨e1, e2⟩ := pend a b ((hp a b e).mp hab)
        exact ⟨e1, by simp only; rw [upd_ne _ _ e]; exact e2⟩
    · intro i pci y hi hy
      rcases get_set hi with ⟨_, rfl⟩ | ⟨hne, hi⟩
      · simp [Mpsc.fresh] at hy
      · exact fr i pci y hi hy
    · intro i y hi
      rcases get_set hi with ⟨_, e⟩ | ⟨_, hi'⟩
      · simp at e
      · simp only
        rw [upd_ne]
        · exact sw i y hi'
        · rintro rfl
          exact (fr i _ y hi' rfl).2.1 pm.1
    · intro i j pi pj y hi hj h1 h2
      rcases get_set hi with ⟨_, rfl⟩ | ⟨_, hi⟩
      · simp [Mpsc.fresh] at h1
      · rcases get_set hj with ⟨_, rfl⟩ | ⟨_, hj⟩
        · simp [Mpsc.fresh] at h2
        · exact uniq _ _ _ _ y hi hj h1 h2
    · intro i j a b a' hi hj
      rcases get_set hi with ⟨_, e⟩ | ⟨_, hi⟩
      · simp at e
      · rcases get_set hj with ⟨_, e⟩ | ⟨_, hj⟩
        · simp at e
        · exact uniqL _ _ _ _ _ hi hj
    · intro i a b hi
      rcases get_set hi with ⟨_, e⟩ | ⟨_, hi⟩
      · simp at e
      · exact lnz _ _ _ hi
    · unfold CInv at con ⊢
      simp only
      cases hcc : s.cons <;> simp only [hcc] at con ⊢ <;> try exact con
      refine ⟨con.1, con.2.1, ?_⟩
      rw [upd_ne]
      · exact con.2.2
      · rintro rfl; exact con.2.1 pm.1

theorem inv_stepC {s s' : State} (h : Inv s) (hs : stepC s s.cons = some s') : Inv s' := by
  have hcl := clash_chain h (head_mem h)
  have hbad : s.touch s.head = { s with ev := .none } := by
    unfold State.touch; rw [hcl, ← h.bad]
  have hev : Inv { s with ev := .none } :=
    ⟨h.nodup, h.hd, h.tl, h.tlnext, h.link, h.pend, h.fresh, h.swap, h.uniq, h.uniqL, h.lnz, h.own, h.log, h.con, h.bad⟩
  have con := h.con
  unfold CInv at con
  cases hcc : s.cons with
  | idle => simp [hcc, stepC] at hs
  | load =>
    have h0 : ∀ a, s.cons ≠ .pushLink a := by simp [hcc]
    rw [hcc] at hs; simp only [stepC, hbad] at hs
    split at hs
    · split at hs <;> simp only [Option.some.injEq] at hs <;> subst hs
      · rename_i hz; exact inv_cons h .tailA .none s.strong h0 (by simp) (by simpa [CInv] using hz)
      · rename_i hz; exact inv_cons h .tailB .none s.strong h0 (by simp) (by simpa [CInv] using hz)
    · rename_i n hn
      split at hs <;> simp only [Option.some.injEq] at hs <;> subst hs
      · rename_i hz
        obtain ⟨l, hl⟩ := chain_next h hn
        have hnz : n ≠ 0 := by
          rintro rfl
          have := h.nodup
          rw [hl, hz] at this
          simp at this
        exact inv_advance h hn .load2 .none h0 (by simp) s.client s.popped (fun _ _ => rfl)
          (by simp [hz]) (by simpa [CInv] using hnz)
      · rename_i hz
        exact inv_deliver (s := { s with ev := .none }) hev hn hz h0
  | tailA =>
    have h0 : ∀ a, s.cons ≠ .pushLink a := by simp [hcc]
    rw [hcc] at hs; simp only [stepC] at hs
    split at hs <;> simp only [Option.some.injEq] at hs <;> subst hs
    · exact inv_cons h .idle (.null true) s.strong h0 (by simp) trivial
    · exact inv_retry h h0
  | load2 =>
    have h0 : ∀ a, s.cons ≠ .pushLink a := by simp [hcc]
    simp only [hcc] at con
    rw [hcc] at hs; simp only [stepC, hbad] at hs
    split at hs <;> simp only [Option.some.injEq] at hs <;> subst hs
    · exact inv_cons h .tailB .none s.strong h0 (by simp) (by simpa [CInv] using con)
    · rename_i n hn
      exact inv_deliver (s := { s with ev := .none }) hev hn con h0
  | tailB =>
    have h0 : ∀ a, s.cons ≠ .pushLink a := by simp [hcc]
    simp only [hcc] at con
    rw [hcc] at hs; simp only [stepC] at hs
    split at hs <;> simp only [Option.some.injEq] at hs <;> subst hs
    · rename_i hth
      refine inv_cons h .pushReset .none s.strong h0 (by simp) ?_
      have hl : s.chain = [s.head] := by
        have h1 := h.hd
        have h2 := h.tl
        have h3 := h.nodup
        rw [hth] at h2
        cases hc : s.chain with
        | nil => rw [hc] at h1; simp at h1
        | cons a l =>
          rw [hc] at h1 h2 h3
          simp only [List.head?_cons, Option.some.injEq] at h1
          subst h1
          cases l with
          | nil => rfl
          | cons b l =>
            rw [List.getLast?_cons_cons] at h2
            exact absurd (List.mem_of_getLast? h2) (List.nodup_cons.mp h3).1
      refine ⟨con, ?_⟩
      simp only
      rw [hl]
      simp only [List.mem_singleton]
      exact fun e => con e.symm
    · exact inv_retry h h0
  | pushReset =>
    simp only [hcc] at con
    rw [hcc] at hs; simp only [stepC, Option.some.injEq] at hs; subst hs
    have h0 : ∀ a, s.cons ≠ .pushLink a := by simp [hcc]
    have hp : ∀ a b, Pending { s with next := upd s.next 0 none, cons := .pushSwap, ev := .none } a b ↔ Pending s a b :=
      pend_congr rfl (fun a => by simp [hcc])
    have hinv := h
    obtain ⟨nodup, hd, tl, tlnext, link, pend, fr, sw, uniq, uniqL, lnz, own, log, _, bad⟩ := h
    have hne : ∀ a ∈ s.chain, upd s.next 0 none a = s.next a :=
      fun a ha => upd_ne _ _ (fun e => con.2 (e ▸ ha))
    refine ⟨nodup, hd, tl, by simp only; rw [hne _ (tail_mem hinv)]; exact tlnext, ?_, ?_, fr, ?_, uniq, uniqL, lnz, own, log,
      ⟨con.1, con.2, by simp⟩, bad⟩
    · intro a b hab
      rw [hp]
      simp only; rw [hne a (adj_mem hab).1]
      exact link a b hab
    · intro a b hab
      obtain ⟨e1, e2⟩ := pend a b ((hp a b).mp hab)
      exact ⟨e1, by simp only; rw [hne a (adj_mem e1).1]; exact e2⟩
    · intro i y hi
      simp only
      rw [upd_ne _ _ (fr i _ y hi rfl).1]; exact sw i y hi
  | pushSwap =>
    simp only [hcc] at con
    rw [hcc] at hs; simp only [stepC, Option.some.injEq] at hs; subst hs
    obtain ⟨c1, c2, c3, c4⟩ := chain_swap h con.2.1
    obtain ⟨nodup, hd, tl, tlnext, link, pend, fr, sw, uniq, uniqL, lnz, own, log, _, bad⟩ := h
    refine ⟨c1, c2, c3, con.2.2, ?_, ?_, ?_, sw, uniq, uniqL, lnz, ?_, ?_, con.1, bad⟩
    · intro a b hab
      rcases (c4 a b).mp hab with e | ⟨rfl, rfl⟩
      · rcases link a b e with e | ⟨e1, e2⟩
        · exact Or.inl e
        · refine Or.inr ⟨e1, ?_⟩
          rcases e2 with e2 | ⟨e2, _⟩
          · exact Or.inl e2
          · rw [hcc] at e2; simp at e2
      · exact Or.inr ⟨tlnext, Or.inr ⟨rfl, rfl⟩⟩
    · rintro a b (hi | ⟨e1, e2⟩)
      · have := pend a b (Or.inl hi)
        exact ⟨(c4 a b).mpr (Or.inl this.1), this.2⟩
      · simp only [CPc.pushLink.injEq] at e1
        exact ⟨(c4 a b).mpr (Or.inr ⟨e1.symm, e2⟩), by simp only; rw [← e1]; exact tlnext⟩
    · intro i pci y hi hy
      obtain ⟨a1, a2, a3⟩ := fr i pci y hi hy
      refine ⟨a1, ?_, a3⟩
      simp only [List.mem_append, List.mem_singleton, not_or]
      exact ⟨a2, a1⟩
    · intro y hy y0
      simp only [List.mem_append, List.mem_singleton] at hy
      rcases hy with hy | rfl
      · exact own y hy y0
      · exact absurd rfl y0
    · simp only [List.filter_append, log]
      simp
  | pushLink prev =>
    simp only [hcc] at con
    rw [hcc] at hs; simp only [stepC, Option.some.injEq] at hs; subst hs
    obtain ⟨p1, p2⟩ := h.pend prev 0 (Or.inr ⟨hcc, rfl⟩)
    have pm := adj_mem p1
    have hcl := clash_chain h pm.1
    have hlast : s.tail ≠ prev := by
      rintro rfl
      exact adj_last h.nodup p1 h.tl
    obtain ⟨nodup, hd, tl, tlnext, link, pend, fr, sw, uniq, uniqL, lnz, own, log, _, bad⟩ := h
    refine ⟨nodup, hd, tl, by simp only; rw [upd_ne _ _ hlast]; exact tlnext, ?_, ?_, fr, ?_, uniq, uniqL, lnz, own, log,
      con, hcl⟩
    · intro a b hab
      by_cases e : a = prev
      · subst e
        left
        simp only [upd_same, Option.some.injEq]
        exact adj_unique nodup p1 hab
      · simp only; rw [upd_ne _ _ e]
        rcases link a b hab with e' | ⟨e1, e2⟩
        · exact Or.inl e'
        · refine Or.inr ⟨e1, ?_⟩
          rcases e2 with e2 | ⟨e2, _⟩
          · exact Or.inl e2
          · rw [hcc] at e2; simp only [CPc.pushLink.injEq] at e2; exact absurd e2.symm e
    · rintro a b (⟨i, hi⟩ | ⟨e1, _⟩)
      · obtain ⟨q1, q2⟩ := pend a b (Or.inl ⟨i, hi⟩)
        refine ⟨q1, ?_⟩
        simp only
        rw [upd_ne]
        · exact q2
        · rintro rfl
          exact lnz _ _ _ hi (adj_unique nodup q1 p1)
      · simp at e1
    · intro i y hi
      simp only
      rw [upd_ne]
      · exact sw i y hi
      · rintro rfl
        exact (fr i _ y hi rfl).2.1 pm.1
  | load3 =>
    have h0 : ∀ a, s.cons ≠ .pushLink a := by simp [hcc]
    simp only [hcc] at con
    rw [hcc] at hs; simp only [stepC, hbad] at hs
    split at hs <;> simp only [Option.some.injEq] at hs <;> subst hs
    · exact inv_retry hev h0
    · rename_i n hn
      exact inv_deliver (s := { s with ev := .none }) hev hn con h0

theorem inv_step {s s' : State} {a : Act} (h : Inv s) (hs : step s a = some s') : Inv s' := by
  cases a with
  | push t x =>
    unfold step at hs; simp only at hs
    split at hs
    · rename_i hx
      split at hs
      · rename_i ht
        simp only [Option.some.injEq] at hs; subst hs
        have hp : ∀ a b, Pending { s with th := s.th.set t (.reset x), client := upd s.client x false, ev := .none } a b ↔
            Pending s a b := by
          intro a b
          unfold Pending
          refine or_congr ⟨?_, ?_⟩ Iff.rfl
          · rintro ⟨i, hi⟩
            rcases get_set hi with ⟨_, e⟩ | ⟨_, hi⟩
            · simp at e
            · exact ⟨i, hi⟩
          · rintro ⟨i, hi⟩
            refine ⟨i, ?_⟩
            simp only
            rw [List.getElem?_set_ne]
            · exact hi
            · rintro rfl; rw [ht] at hi; simp at hi
        obtain ⟨nodup, hd, tl, tlnext, link, pend, fr, sw, uniq, uniqL, lnz, own, log, con, bad⟩ := h
        have hcl : ∀ y, s.client y = false → upd s.client x false y = false := by
          intro y hy
          by_cases e : y = x
          · subst e; simp
          · rw [upd_ne _ _ e]; exact hy
        have hxc : x ∉ s.chain := by
          intro hm
          have := own x hm hx.1
          rw [hx.2] at this; simp at this
        refine ⟨nodup, hd, tl, tlnext, fun a b hab => by rw [hp]; exact link a b hab,
          fun a b hab => pend a b ((hp a b).mp hab), ?_, ?_, ?_, ?_, ?_, fun y hy y0 => hcl y (own y hy y0), log, con, bad⟩
        · intro i pci y hi hy
          rcases get_set hi with ⟨_, rfl⟩ | ⟨hne, hi⟩
          · simp only [Mpsc.fresh, Option.some.injEq] at hy; subst hy
            exact ⟨hx.1, hxc, by simp⟩
          · have := fr i pci y hi hy
            exact ⟨this.1, this.2.1, hcl y this.2.2⟩
        · intro i y hi
          rcases get_set hi with ⟨_, e⟩ | ⟨_, hi⟩
          · simp at e
          · exact sw i y hi
        · have key : ∀ (i : Nat) (pc : Pc), s.th[i]? = some pc → Mpsc.fresh pc ≠ some x := by
            intro i pc hi e
            have := (fr i pc x hi e).2.2
            rw [hx.2] at this; simp at this
          intro i j pi pj y hi hj h1 h2
          rcases get_set hi with ⟨e1, e2⟩ | ⟨_, hi'⟩ <;> rcases get_set hj with ⟨e3, e4⟩ | ⟨_, hj'⟩
          · omega
          · subst e2; simp only [Mpsc.fresh, Option.some.injEq] at h1; subst h1; exact absurd h2 (key _ _ hj')
          · subst e4; simp only [Mpsc.fresh, Option.some.injEq] at h2; subst h2; exact absurd h1 (key _ _ hi')
          · exact uniq _ _ _ _ y hi' hj' h1 h2
        · intro i j a b a' hi hj
          rcases get_set hi with ⟨_, e⟩ | ⟨_, hi⟩
          · simp at e
          · rcases get_set hj with ⟨_, e⟩ | ⟨_, hj⟩
            · simp at e
            · exact uniqL _ _ _ _ _ hi hj
        · intro i a b hi
          rcases get_set hi with ⟨_, e⟩ | ⟨_, hi⟩
          · simp at e
          · exact lnz _ _ _ hi
      · simp at hs
    · simp at hs
  | go t =>
    unfold step at hs; simp only at hs
    split at hs
    · rename_i pc ht; exact inv_stepP h ht hs
    · simp at hs
  | pop str =>
    unfold step at hs; simp only at hs
    split at hs
    · rename_i hcc
      simp only [Option.some.injEq] at hs; subst hs
      exact inv_cons h .load .none str (by simp [hcc]) (by simp) trivial
    · simp at hs
  | c => exact inv_stepC h hs
  | scribble x v =>
    unfold step at hs; simp only at hs
    split at hs
    · rename_i hx
      simp only [Option.some.injEq] at hs; subst hs
      have hinv := h
      obtain ⟨nodup, hd, tl, tlnext, link, pend, fr, sw, uniq, uniqL, lnz, own, log, con, bad⟩ := h
      have hxc : x ∉ s.chain := by
        intro hm
        have := own x hm hx.1
        rw [hx.2] at this; simp at this
      have hne : ∀ a ∈ s.chain, upd s.next x v a = s.next a :=
        fun a ha => upd_ne _ _ (fun e => hxc (e ▸ ha))
      refine ⟨nodup, hd, tl, by simp only; rw [hne _ (tail_mem hinv)]; exact tlnext, ?_, ?_, fr, ?_, uniq, uniqL, lnz, own, log,
        ?_, bad⟩
      · intro a b hab
        simp only; rw [hne a (adj_mem hab).1]
        exact link a b hab
      · intro a b hab
        obtain ⟨e1, e2⟩ := pend a b hab
        exact ⟨e1, by simp only; rw [hne a (adj_mem e1).1]; exact e2⟩
      · intro i y hi
        simp only
        rw [upd_ne]
        · exact sw i y hi
        · rintro rfl
          have := (fr i _ y hi rfl).2.2
          rw [hx.2] at this; simp at this
      · unfold CInv at con ⊢
        simp only
        cases hcc : s.cons <;> simp only [hcc] at con ⊢ <;> try exact con
        refine ⟨con.1, con.2.1, ?_⟩
        rw [upd_ne _ _ (fun e => hx.1 e.symm)]; exact con.2.2
    · simp at hs

theorem replicate_get {n i : Nat} {pc : Pc} (h : (List.replicate n Pc.idle)[i]? = some pc) : pc = .idle := by
  rw [List.getElem?_replicate] at h
  split at h
  · simpa using h.symm
  · simp at h

theorem inv_init {s : State} (h : Init s) : Inv s := by
  obtain ⟨n, f, hf, rfl⟩ := h
  refine ⟨by simp, rfl, rfl, hf, fun a b h => h.elim, ?_, ?_, ?_, ?_, ?_, ?_, ?_, by simp, trivial, rfl⟩
  · rintro a b (⟨i, hi⟩ | ⟨e, _⟩)
    · have := replicate_get hi; simp at this
    · simp at e
  · intro i pc x hi hx; rw [replicate_get hi] at hx; simp [Mpsc.fresh] at hx
  · intro i x hi; have := replicate_get hi; simp at this
  · intro i j pi pj x hi _ hx; rw [replicate_get hi] at hx; simp [Mpsc.fresh] at hx
  · intro i j a b a' hi; have := replicate_get hi; simp at this
  · intro i a b hi; have := replicate_get hi; simp at this
  · intro x hx h0; simp at hx; exact absurd hx h0

theorem inv_reach {s : State} (h : Reachable Init step s) : Inv s :=
  Reachable.invariant Inv (fun _ hi => inv_init hi) (fun _ _ _ hI hs => inv_step hI hs) h

end Verif.Mpsc
