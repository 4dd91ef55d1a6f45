import Verif.MpscRA.Steps
/-! Every step keeps the invariant, with release stores of the links. -/
namespace Verif.MpscRA
open Verif.Common Verif.RelAcq
open Verif.Mpsc (Adj Pc CPc)

theorem touch_log (m : Mem Loc) (t : Nat) (l k : Loc) : (m.touch t l).log k = if k = l then m.log l + 1 else m.log k := rfl

theorem touch_mono (m : Mem Loc) (t u : Nat) (l k : Loc) : m.cur u k ≤ (m.touch t l).cur u k := by
  unfold Mem.touch
  simp only
  by_cases h : u = t
  · subst h; rw [upd_same]; exact le_join_left _ _ _
  · rw [upd_ne _ _ h]; exact Nat.le_refl _

theorem touch_self (m : Mem Loc) (t : Nat) (l : Loc) : (m.touch t l).log l ≤ (m.touch t l).cur t l := by
  rw [touch_log, if_pos rfl]
  unfold Mem.touch
  simp only [upd_same]
  have := le_join_right (m.cur t) (single l (m.log l + 1)) l
  rwa [single_same] at this

theorem take_mono (s : State) (u x v : Nat) (l : Loc) : s.m.cur v l ≤ (take s u x).cur v l := by
  unfold take
  simp only
  by_cases h : v = u
  · subst h; rw [upd_same]; exact le_join_left _ _ _
  · rw [upd_ne _ _ h]; exact Nat.le_refl _

theorem take_own (s : State) (u x : Nat) (l : Loc) : s.own x l ≤ (take s u x).cur u l := by
  unfold take
  simp only [upd_same]
  exact le_join_right _ _ _

theorem RI.flag {s : State} (h : RI s) (b : Bool) : RI { s with race := b } := by
  obtain ⟨⟨a1, a2, a3, a4, a5, a6⟩, ⟨b1, b2, b3, b4⟩, hp, hc, hh, hs, hm, hd⟩ := h
  refine ⟨⟨a1, a2, a3, a4, a5, a6⟩, ⟨b1, b2, b3, ?_⟩, ?_, hc, ⟨hh.next, hh.data, hh.tail⟩, hs, hm, hd⟩
  · intro x b hx hb
    obtain ⟨k1, k2, z, k3, k4, k5⟩ := b4 x b hx hb
    exact ⟨k1, k2, z, k3, k4, ⟨k5.next, k5.data, k5.tail⟩⟩
  · intro u
    exact (hp u).keep (fun _ => Nat.le_refl _) (fun _ _ => ⟨rfl, rfl, rfl⟩) (fun _ _ => rfl) (fun _ _ => rfl)

theorem inv_push {s : State} (h : RInv s) {t x : Nat} {q : Mpsc.State} (hst : Mpsc.step s.q (.push t x) = some q) : RInv (doPush s t x q) := by
  have hq := Mpsc.inv_step h.q hst
  simp only [Mpsc.step] at hst
  split at hst
  · rename_i hx
    split at hst
    · rename_i ht
      cases hst
      obtain ⟨h1, h2⟩ := h.r.client x hx.1 hx.2
      have hclear : (take s (t + 1) x).clear (t + 1) (.data x) = true := by
        unfold Mem.clear
        exact decide_eq_true (Nat.le_trans h2 (take_own s (t + 1) x _))
      refine ⟨hq, by simp [doPush, h.race, hclear], ?_⟩
      obtain ⟨p1, p2⟩ := pcOf_set (pc' := .reset x) ht { s.q with th := s.q.th.set t (.reset x), client := upd s.q.client x false, ev := .none } rfl rfl
      refine RI.flag (RI.push (m' := (take s (t + 1) x).touch (t + 1) (.data x)) (q' := { s.q with th := s.q.th.set t (.reset x), client := upd s.q.client x false, ev := .none }) h.q h.r hx.1 hx.2 (t := t) ?_ rfl rfl rfl rfl rfl rfl rfl ?_ ?_ p2 p1 ?_ (touch_self _ _ _)) _
      · simp only [pcOf, ht, Option.getD_some]
      · intro l hl; rw [touch_log, if_neg hl]; rfl
      · intro u l; exact Nat.le_trans (take_mono s (t + 1) x u l) (touch_mono _ _ _ _ _)
      · exact Nat.le_trans (take_own s (t + 1) x _) (touch_mono _ _ _ _ _)
    · cases hst
  · cases hst

theorem rmw_tail {s : State} (h : RInv s) {u ts v : Nat} {f : Nat → Nat} {a r : Bool} {m : Mem Loc} (hm : s.m.rmw u .tail f a r ts = some (v, m)) :
    ts = s.tix s.q.tail ∧ v = s.q.tail := by
  obtain ⟨y, w, L, hv⟩ := rmw_facts hm
  have h1 := h.r.t.le ts y L.src
  have hts : ts = s.tix s.q.tail := by
    rcases Nat.eq_or_lt_of_le h1 with e | hlt
    · exact e
    · exact absurd L.free (h.r.t.all (ts + 1) hlt)
  obtain ⟨_, z, k2, k3, _⟩ := h.r.t.val _ (Mpsc.tail_mem h.q)
  rw [← hts, L.src] at k2; cases k2
  exact ⟨hts, by omega⟩

/-- The three accesses of `Push`, by any thread. -/
theorem inv_reset {s s' : State} (h : RInv s) {u x ts : Nat} {q' : Mpsc.State} (hu : pcOf s.q u = .reset x) (hst : doReset repaired s u x ts q' = some s') (hq : Mpsc.Inv q')
    (hch : q'.chain = s.q.chain) (hnx : q'.next = upd s.q.next x none) (htl : q'.tail = s.q.tail) (hhd : q'.head = s.q.head) (hpo : q'.popped = s.q.popped)
    (hcl : q'.client = s.q.client) (hpc : ∀ u', u' ≠ u → pcOf q' u' = pcOf s.q u') (hpcu : pcOf q' u = .swap x) : RInv s' := by
  unfold doReset at hst
  split at hst
  · cases hst
  · rename_i m hm
    obtain ⟨w, L⟩ := store_facts hm
    cases hst
    obtain ⟨hout, hx0, _, hxc⟩ := fresh_out h.q (Or.inl hu)
    have hpk := h.r.pcs u
    rw [hu] at hpk
    obtain ⟨p1, p2⟩ := hpk
    have habove := L.above
    refine ⟨hq, h.race, RI.free h.q h.r hout (by omega) L.new L.old L.log L.mono L.ge hch hnx htl hhd hpo hcl (fun y hy => upd_ne _ _ hy) (fun _ _ => rfl) hx0
      (fun u' hu' => ⟨hpc u' hu', fun hf => hu' (fresh_uniq h.q (Or.inl hu) hf)⟩) ?_ (fun h0 hc => by rw [hxc h0] at hc; cases hc)⟩
    rw [hpcu]
    refine ⟨?_, ?_, ?_, ⟨0, w⟩, ?_, rfl⟩
    · show (upd s.nTop x ts) x = (upd s.rst x ts) x; rw [upd_same, upd_same]
    · show (upd s.rst x ts) x ≤ _; rw [upd_same]; exact L.ge
    · show m.log _ ≤ _; rw [L.log]; exact Nat.le_trans p2 (L.mono u _)
    · show m.msg _ ((upd s.rst x ts) x) = _; rw [upd_same]; exact L.new

theorem inv_swap {s s' : State} (h : RInv s) {u x ts : Nat} {q' : Nat → Mpsc.State} (hu : pcOf s.q u = .swap x) (hnone : s.q.next x = none)
    (hst : doSwap repaired s u x ts q' = some s') (hq : Mpsc.Inv (q' s.q.tail))
    (hch : (q' s.q.tail).chain = s.q.chain ++ [x]) (hnx : (q' s.q.tail).next = s.q.next) (htl : (q' s.q.tail).tail = x) (hhd : (q' s.q.tail).head = s.q.head)
    (hpo : (q' s.q.tail).popped = s.q.popped) (hcl : (q' s.q.tail).client = s.q.client) (hpc : ∀ u', u' ≠ u → pcOf (q' s.q.tail) u' = pcOf s.q u')
    (hpcu : pcOf (q' s.q.tail) u = .link s.q.tail x) : RInv s' := by
  unfold doSwap at hst
  split at hst
  · cases hst
  · rename_i v m hm
    obtain ⟨hts, hv⟩ := rmw_tail h hm
    obtain ⟨y, w, L, _⟩ := rmw_facts hm
    cases hst
    rw [hv]
    exact ⟨hq, h.race, RI.swap h.q h.r hu hnone L hts hch hnx htl hhd hpo hcl hpc hpcu⟩

theorem inv_link {s s' : State} (h : RInv s) {u a b ts : Nat} {q' : Mpsc.State} (hu : pcOf s.q u = .link a b) (hst : doLink repaired s u a b ts q' = some s') (hq : Mpsc.Inv q')
    (hch : q'.chain = s.q.chain) (hnx : q'.next = upd s.q.next a (some b)) (htl : q'.tail = s.q.tail) (hhd : q'.head = s.q.head) (hpo : q'.popped = s.q.popped)
    (hcl : q'.client = s.q.client) (hpc : ∀ u', u' ≠ u → pcOf q' u' = pcOf s.q u') (hpcu : pcOf q' u = .idle) : RInv s' := by
  unfold doLink at hst
  split at hst
  · cases hst
  · rename_i m hm
    obtain ⟨w, L⟩ := store_facts hm
    cases hst
    exact ⟨hq, h.race, RI.link h.q h.r hu L hch hnx htl hhd hpo hcl hpc hpcu⟩

theorem inv_stepP {s s' : State} (h : RInv s) {t ts : Nat} {pc : Pc} (ht : s.q.th[t]? = some pc) (hst : stepP repaired s t ts pc = some s') : RInv s' := by
  have hpc0 : pcOf s.q (t + 1) = pc := by simp only [pcOf, ht, Option.getD_some]
  have sc : ∀ q', Mpsc.stepP s.q t pc = some q' → Mpsc.Inv q' := fun q' hs => Mpsc.inv_stepP h.q ht hs
  cases pc with
  | idle => cases hst
  | reset x =>
    have hq := sc _ rfl
    have e := pcOf_set (pc' := .swap x) ht { s.q with next := upd s.q.next x none, th := s.q.th.set t (.swap x), ev := .none, bad := s.q.clash x } rfl rfl
    exact inv_reset h hpc0 hst hq rfl rfl rfl rfl rfl rfl e.2 e.1
  | swap x =>
    have hq := sc _ rfl
    have e := pcOf_set (pc' := .link s.q.tail x) ht
      { s.q with tail := x, th := s.q.th.set t (.link s.q.tail x), ev := .none, pushed := s.q.pushed ++ [x], chain := s.q.chain ++ [x] } rfl rfl
    exact inv_swap h hpc0 (h.q.swap t x ht) hst hq rfl rfl rfl rfl rfl rfl e.2 e.1
  | link a b =>
    have hq := sc _ rfl
    have e := pcOf_set (pc' := .idle) ht { s.q with next := upd s.q.next a (some b), th := s.q.th.set t .idle, ev := .none, bad := s.q.clash a } rfl rfl
    exact inv_link h hpc0 hst hq rfl rfl rfl rfl rfl rfl e.2 e.1

/-- What the consumer reads in the link of the head. -/
theorem read_next {s : State} (h : RInv s) {m : Mem Loc} {ts : Nat} {y : Msg Loc} (L : Loaded s.m m 0 (.next s.q.head) true ts y) {n : Nat} (hn : dec y.val = some n) :
    s.q.next s.q.head = some n ∧ Knows s (m.cur 0) n ∧ s.nTop s.q.head ≤ m.cur 0 (.next s.q.head) := by
  have hin := Mpsc.head_mem h.q
  have hts : s.rst s.q.head ≤ ts := Nat.le_trans h.r.head.next L.may
  have hle := h.r.n.le _ _ _ L.src
  have hv : y.val = n + 1 := by
    cases hy : y.val with
    | zero => rw [hy] at hn; cases hn
    | succ k => rw [hy] at hn; cases hn; rfl
  have hne : ts ≠ s.rst s.q.head := by
    intro e
    obtain ⟨z, k1, k2⟩ := h.r.n.rst _ hin
    rw [← e, L.src] at k1; cases k1
    omega
  cases hnx : s.q.next s.q.head with
  | none => have := h.r.n.non _ hin hnx; omega
  | some b =>
    obtain ⟨k1, k2, z, k3, k4, k5⟩ := h.r.n.som _ b hin hnx
    have htop : ts = s.nTop s.q.head := by
      rcases Nat.eq_or_lt_of_le hle with e | hlt
      · exact e
      · have := k2 ts (by omega) hlt
        rw [L.src] at this; cases this
    rw [← htop, L.src] at k3; cases k3
    have : b = n := by omega
    subst this
    refine ⟨rfl, k5.mono rfl rfl rfl (fun l => L.acq rfl l), ?_⟩
    rw [← htop, L.cur]
    have h1 := le_join_right (s.m.cur 0) (single (Loc.next s.q.head) ts) (.next s.q.head)
    have h2 := le_join_left (join (s.m.cur 0) (single (Loc.next s.q.head) ts)) (if true then y.view else zero) (.next s.q.head)
    rw [single_same] at h1
    exact Nat.le_trans h1 h2

theorem touch_q {q : Mpsc.State} (h : Mpsc.Inv q) : q.touch q.head = { q with ev := .none } := by
  unfold Mpsc.State.touch
  rw [Mpsc.clash_chain h (Mpsc.head_mem h), ← h.bad]

theorem inv_deliver {s : State} (h : RInv s) {m : Mem Loc} {ts : Nat} {y : Msg Loc} (L : Loaded s.m m 0 (.next s.q.head) true ts y) {n : Nat} (hn : dec y.val = some n)
    (hz : s.q.head ≠ 0) (hc : ∀ a, s.q.cons ≠ .pushLink a) : RInv (deliver { s with m := m } n) := by
  obtain ⟨h1, h2, h3⟩ := read_next h L hn
  have hclear : m.clear 0 (.data s.q.head) = true := by
    unfold Mem.clear
    rw [L.log]
    exact decide_eq_true (Nat.le_trans h.r.head.data (L.mono 0 _))
  have hq : Mpsc.Inv ((s.q.touch s.q.head).deliver n) := by
    rw [touch_q h.q]
    have h' : Mpsc.Inv { s.q with ev := .none } := Mpsc.inv_cons h.q s.q.cons .none s.q.strong hc hc h.q.con
    exact Mpsc.inv_deliver h' h1 hz hc
  refine ⟨hq, by simp [deliver, h.race, hclear], ?_⟩
  refine RI.flag (RI.advance (q' := (s.q.touch s.q.head).deliver n) (m' := m.touch 0 (.data s.q.head)) (own' := upd s.own s.q.head ((m.touch 0 (.data s.q.head)).cur 0)) h.q h.r h1 rfl rfl rfl rfl (by rw [if_neg hz]; rfl)
    (fun x hx => upd_ne _ _ hx) (fun x hx => upd_ne _ _ hx) ?_ ?_ (fun e => absurd e hz) ?_ (pcOf_cons _ rfl) rfl ?_ ?_ ?_) _
  · exact L.msg
  · intro l hl; rw [touch_log, if_neg hl, L.log]
  · intro u l; exact Nat.le_trans (L.mono u l) (touch_mono _ _ _ _ _)
  · intro _
    rw [upd_same]
    exact ⟨Nat.le_trans h3 (touch_mono _ _ _ _ _), touch_self _ _ _⟩
  · exact h2.mono rfl rfl rfl (fun l => touch_mono _ _ _ _ _)
  · exact Nat.le_trans h3 (touch_mono _ _ _ _ _)

/-- The consumer moves on after a load. -/
theorem inv_move {s : State} (h : RInv s) {m : Mem Loc} {l : Loc} {a : Bool} {ts : Nat} {y : Msg Loc} (L : Loaded s.m m 0 l a ts y) {pc : CPc} {ev : Mpsc.Event}
    (hc : ∀ a, s.q.cons ≠ .pushLink a) (hc' : ∀ a, pc ≠ .pushLink a) (hcon : Mpsc.CInv { s.q with cons := pc, ev := ev })
    (hk : PcKnows { s with m := m, q := { s.q with cons := pc, ev := ev } } 0 (consPc pc)) :
    RInv { s with m := m, q := { s.q with cons := pc, ev := ev } } := by
  refine ⟨Mpsc.inv_cons h.q pc ev s.q.strong hc hc' hcon, h.race, ?_⟩
  refine RI.quiet h.r rfl rfl rfl rfl rfl rfl L.msg L.log L.mono (fun u => ?_)
  cases u with
  | zero => exact Or.inr hk
  | succ t => exact Or.inl rfl

theorem inv_retry {s : State} (h : RInv s) {m : Mem Loc} {l : Loc} {a : Bool} {ts : Nat} {y : Msg Loc} (L : Loaded s.m m 0 l a ts y) {ev : Mpsc.Event}
    (hc : ∀ a, s.q.cons ≠ .pushLink a) : RInv { s with m := m, q := Mpsc.State.retry { s.q with ev := ev } } := by
  unfold Mpsc.State.retry
  split
  · exact inv_move h L hc (pc := .load) (ev := .none) nofun trivial trivial
  · exact inv_move h L hc (pc := .idle) (ev := .null false) nofun trivial trivial

theorem inv_stepC {s s' : State} (h : RInv s) {ts : Nat} (hst : stepC repaired s ts s.q.cons = some s') : RInv s' := by
  have hcon := h.q.con
  unfold Mpsc.CInv at hcon
  have hin := Mpsc.head_mem h.q
  have etq := touch_q h.q
  cases hc : s.q.cons with
  | idle => rw [hc] at hst; cases hst
  | load =>
    rw [hc] at hst
    have hnl : ∀ a, s.q.cons ≠ .pushLink a := by rw [hc]; nofun
    simp only [stepC, loadNext] at hst
    split at hst
    · cases hst
    · rename_i v m hl
      obtain ⟨y, L, rfl⟩ := load_facts hl
      cases hst
      cases hd : dec y.val with
      | none =>
        simp only [afterLoad]
        rw [etq]
        by_cases e : s.q.head = 0
        · rw [if_pos e]; exact inv_move h L hnl (pc := .tailA) nofun e trivial
        · rw [if_neg e]; exact inv_move h L hnl (pc := .tailB) nofun e trivial
      | some n =>
        simp only [afterLoad]
        by_cases e : s.q.head = 0
        · rw [if_pos e, etq]
          obtain ⟨h1, h2, h3⟩ := read_next h L hd
          have hq : Mpsc.Inv { s.q with head := n, chain := s.q.chain.tail, cons := .load2, ev := .none } := by
            refine Mpsc.inv_stepC h.q ?_
            rw [hc]
            simp only [Mpsc.stepC, h1]
            rw [if_pos e, etq]
          refine ⟨hq, h.race, ?_⟩
          refine RI.advance (own' := s.own) h.q h.r h1 rfl rfl rfl rfl (by rw [if_pos e]) (fun _ _ => rfl) (fun _ _ => rfl) L.msg
            (fun l _ => by rw [L.log]) (fun _ => L.log) L.mono (pcOf_cons _ rfl) rfl (fun e' => absurd e e') h2 h3
        · rw [if_neg e]
          exact inv_deliver h L hd e hnl
  | load2 =>
    rw [hc] at hst
    simp only [hc] at hcon
    have hnl : ∀ a, s.q.cons ≠ .pushLink a := by rw [hc]; nofun
    simp only [stepC, loadNext] at hst
    split at hst
    · cases hst
    · rename_i v m hl
      obtain ⟨y, L, rfl⟩ := load_facts hl
      cases hst
      cases hd : dec y.val with
      | none =>
        simp only [afterLoad2]
        rw [etq]
        exact inv_move h L hnl (pc := .tailB) nofun hcon trivial
      | some n => exact inv_deliver h L hd hcon hnl
  | load3 =>
    rw [hc] at hst
    simp only [hc] at hcon
    have hnl : ∀ a, s.q.cons ≠ .pushLink a := by rw [hc]; nofun
    simp only [stepC, loadNext] at hst
    split at hst
    · cases hst
    · rename_i v m hl
      obtain ⟨y, L, rfl⟩ := load_facts hl
      cases hst
      cases hd : dec y.val with
      | none =>
        simp only [afterLoad3]
        rw [etq]
        exact inv_retry h L hnl
      | some n => exact inv_deliver h L hd hcon hnl
  | tailA =>
    rw [hc] at hst
    have hnl : ∀ a, s.q.cons ≠ .pushLink a := by rw [hc]; nofun
    simp only [stepC, loadTail] at hst
    split at hst
    · cases hst
    · rename_i v m hl
      obtain ⟨y, L, rfl⟩ := load_facts hl
      cases hst
      unfold afterTailA
      split
      · exact inv_move h L hnl (pc := .idle) nofun trivial trivial
      · exact inv_retry (ev := s.q.ev) h L hnl
  | tailB =>
    rw [hc] at hst
    simp only [hc] at hcon
    have hnl : ∀ a, s.q.cons ≠ .pushLink a := by rw [hc]; nofun
    simp only [stepC, loadTail] at hst
    split at hst
    · cases hst
    · rename_i v m hl
      obtain ⟨y, L, rfl⟩ := load_facts hl
      cases hst
      unfold afterTailB
      split
      · rename_i e
        have h1 := h.r.t.inv ts y L.src (Nat.le_trans h.r.head.tail L.may)
        have e : y.val = s.q.head := e
        rw [e] at h1
        have hno : 0 ∉ s.q.chain := by
          intro h0
          have h2 := h.r.stub h0
          have h3 := L.may
          obtain ⟨h4, z, h5, h6, _⟩ := h.r.t.val 0 h0
          have h7 : s.tix 0 = ts := by omega
          rw [h7, L.src] at h5; cases h5
          exact hcon (by rw [← e, h6])
        refine inv_move h L hnl (pc := .pushReset) nofun ⟨hcon, hno⟩ ⟨?_, ?_⟩
        · exact Nat.le_trans (h.r.mine hno) (L.mono 0 _)
        · show m.log _ ≤ _; rw [L.log, h.r.data0]; exact Nat.zero_le _
      · exact inv_retry (ev := s.q.ev) h L hnl
  | pushReset =>
    rw [hc] at hst
    have hu : pcOf s.q 0 = .reset 0 := by simp only [pcOf, hc, consPc]
    have hq : Mpsc.Inv { s.q with next := upd s.q.next 0 none, cons := .pushSwap, ev := .none } := Mpsc.inv_stepC h.q (by rw [hc]; rfl)
    exact inv_reset h hu hst hq rfl rfl rfl rfl rfl rfl (pcOf_cons _ rfl) rfl
  | pushSwap =>
    rw [hc] at hst
    simp only [hc] at hcon
    have hu : pcOf s.q 0 = .swap 0 := by simp only [pcOf, hc, consPc]
    have hq : Mpsc.Inv { s.q with tail := 0, cons := .pushLink s.q.tail, ev := .none, chain := s.q.chain ++ [0] } := Mpsc.inv_stepC h.q (by rw [hc]; rfl)
    exact inv_swap h hu hcon.2.2 hst hq rfl rfl rfl rfl rfl rfl (pcOf_cons _ rfl) rfl
  | pushLink a =>
    rw [hc] at hst
    have hu : pcOf s.q 0 = .link a 0 := by simp only [pcOf, hc, consPc]
    have hq : Mpsc.Inv { s.q with next := upd s.q.next a (some 0), cons := .load3, ev := .none, bad := s.q.clash a } := Mpsc.inv_stepC h.q (by rw [hc]; rfl)
    exact inv_link h hu hst hq rfl rfl rfl rfl rfl rfl (pcOf_cons _ rfl) rfl

theorem inv_scribble {s s' : State} (h : RInv s) {u x ts : Nat} {v : Option Nat} (hx : x ≠ 0 ∧ s.q.client x = true) (hst : doScribble s u x v ts = some s') : RInv s' := by
  have hq : Mpsc.Inv { s.q with next := upd s.q.next x v, ev := .none } := Mpsc.inv_step (a := .scribble x v) h.q (by simp only [Mpsc.step]; rw [if_pos hx])
  unfold doScribble at hst
  split at hst
  · cases hst
  · rename_i m hm
    obtain ⟨w, L⟩ := store_facts hm
    cases hst
    have hout := client_out h.q hx.1 hx.2
    obtain ⟨h1, h2⟩ := h.r.client x hx.1 hx.2
    have habove := L.above
    have hmono : ∀ u' l, s.m.cur u' l ≤ m.cur u' l := fun u' l => Nat.le_trans (take_mono s u x u' l) (L.mono u' l)
    have hto := take_own s u x (.next x)
    have hnf : ∀ u', ¬ (pcOf s.q u' = .reset x ∨ pcOf s.q u' = .swap x) := by
      intro u' hf
      have := (fresh_out h.q hf).2.2.2 hx.1
      rw [hx.2] at this; cases this
    refine ⟨hq, h.race, RI.free (u := u) h.q h.r hout (by omega) L.new L.old L.log hmono L.ge rfl rfl rfl rfl rfl rfl (fun _ _ => rfl) (fun y hy => upd_ne _ _ hy)
      (fun e => absurd e hx.1) (fun u' _ => ⟨rfl, hnf u'⟩) ?_ ?_⟩
    · refine PcKnows.keep (s := s) (h.r.pcs u) (hmono u) (fun y _ => ⟨rfl, by show m.log _ = _; rw [L.log]; rfl, rfl⟩) (fun y hy => ?_) (fun y hy => ?_)
      · show (upd s.nTop x ts) y = _
        exact upd_ne _ _ (by rintro rfl; exact hnf u hy)
      · show m.msg _ _ = _
        rw [L.old _ _ (by rintro ⟨e, _⟩; exact hnf u (Or.inr (Loc.next.inj e ▸ hy)))]; rfl
    · intro _ _
      rw [upd_same]
      exact ⟨L.ge, Nat.le_trans h2 (Nat.le_trans (take_own s u x _) (L.mono u _))⟩

theorem inv_step (s : State) (a : Act) (s' : State) (h : RInv s) (hst : step repaired s a = some s') : RInv s' := by
  cases a with
  | push t x =>
    simp only [step] at hst
    split at hst
    · cases hst
    · cases hst; exact inv_push h ‹_›
  | go t ts =>
    simp only [step] at hst
    split at hst
    · exact inv_stepP h ‹_› hst
    · cases hst
  | pop strong =>
    simp only [step] at hst
    split at hst
    · cases hst
    · rename_i q hq
      cases hst
      have hi := Mpsc.inv_step h.q hq
      simp only [Mpsc.step] at hq
      split at hq
      · cases hq
        refine ⟨hi, h.race, RI.quiet h.r rfl rfl rfl rfl rfl rfl rfl rfl (fun _ _ => Nat.le_refl _) (fun u => ?_)⟩
        cases u with
        | zero => exact Or.inr trivial
        | succ t => exact Or.inl rfl
      · cases hq
  | c ts => exact inv_stepC h hst
  | scribble u x v ts =>
    simp only [step] at hst
    split at hst
    · exact inv_scribble h ‹_› hst
    · cases hst

theorem inv_init (s : State) (h : Init s) : RInv s := by
  obtain ⟨n, f, hf, rfl⟩ := h
  have hm : ∀ (l : Loc) ts x, (Mem.start (first f)).msg l ts = some x → ts = 0 ∧ x = ⟨first f l, zero⟩ := by
    intro l ts x hx
    unfold Mem.start at hx
    simp only at hx
    split at hx
    · cases hx; exact ⟨‹_›, rfl⟩
    · cases hx
  have h0 : ∀ l, (Mem.start (first f)).msg l 0 = some ⟨first f l, zero⟩ := fun l => rfl
  have hz : ∀ x, x ∈ [0] → x = 0 := fun x hx => by simpa using hx
  refine ⟨Mpsc.inv_init ⟨n, f, hf, rfl⟩, rfl, ⟨?_, ?_, ?_, ?_, ?_, ?_⟩, ⟨?_, ?_, ?_, ?_⟩, ?_, ?_, ?_, ?_, ?_, rfl⟩
  · intro ts hts
    have : ts = 0 := Nat.le_zero.1 hts
    subst this; show (Mem.start (first f)).msg .tail 0 ≠ none; rw [h0]; nofun
  · intro ts y hy; rw [(hm _ _ _ hy).1]; exact Nat.zero_le _
  · intro x hx
    have := hz x hx; subst this
    exact ⟨Nat.le_refl _, _, h0 _, rfl, Nat.zero_le _⟩
  · intro ts y hy _
    obtain ⟨rfl, rfl⟩ := hm _ _ _ hy
    exact ⟨List.mem_cons_self, rfl⟩
  · intro a b hab; exact hab.elim
  · rfl
  · intro x ts y hy; rw [(hm _ _ _ hy).1]; exact Nat.zero_le _
  · intro x hx
    have := hz x hx; subst this
    refine ⟨_, h0 _, ?_⟩
    show enc (f 0) = 0
    rw [hf]; rfl
  · intro x _ _; rfl
  · intro x b hx hb
    have := hz x hx; subst this
    have hb : f 0 = some b := hb
    rw [hf] at hb; cases hb
  · intro u
    have : pcOf ({ next := f, th := List.replicate n .idle } : Mpsc.State) u = .idle := by
      cases u with
      | zero => rfl
      | succ t =>
        simp only [pcOf]
        cases ht : (List.replicate n Pc.idle)[t]? with
        | none => rfl
        | some pc => rw [Mpsc.replicate_get ht]; rfl
    show PcKnows _ u (pcOf ({ next := f, th := List.replicate n .idle } : Mpsc.State) u)
    rw [this]; trivial
  · intro x _ _; exact ⟨Nat.zero_le _, Nat.zero_le _⟩
  · exact ⟨Nat.zero_le _, Nat.zero_le _, Nat.zero_le _⟩
  · intro _; exact Nat.zero_le _
  · intro _; exact Nat.zero_le _

theorem inv_reach {s : State} (h : Reached repaired s) : RInv s := Reachable.invariant RInv inv_init inv_step h

end Verif.MpscRA
