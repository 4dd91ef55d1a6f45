import Verif.MpscRA.Lemmas
/-! What each kind of step does to the invariant. -/
namespace Verif.MpscRA
open Verif.Common Verif.RelAcq
open Verif.Mpsc (Adj Pc CPc)

theorem adj_in {q : Mpsc.State} {a b : Nat} (h : Adj q.chain a b) : a ∈ q.chain ∧ b ∈ q.chain :=
  ⟨(Mpsc.adj_mem h).1, List.mem_of_mem_tail (Mpsc.adj_mem h).2⟩

theorem som_in {q : Mpsc.State} (h : Mpsc.Inv q) {x b : Nat} (hx : x ∈ q.chain) (hn : q.next x = some b) : Adj q.chain x b := by
  by_cases e : q.chain.getLast? = some x
  · have := h.tl
    rw [e] at this; cases this
    rw [h.tlnext] at hn; cases hn
  · have : ∃ b', Adj q.chain x b' := by
      have key : ∀ l : List Nat, x ∈ l → l.getLast? ≠ some x → ∃ b', Adj l x b' := by
        intro l
        induction l with
        | nil => intro hx; cases hx
        | cons y l ih =>
          intro hx hl
          cases l with
          | nil => simp at hx; subst hx; simp at hl
          | cons z l =>
            rw [List.getLast?_cons_cons] at hl
            rcases List.mem_cons.1 hx with rfl | hx
            · exact ⟨z, Or.inl ⟨rfl, rfl⟩⟩
            · obtain ⟨b', hb⟩ := ih hx hl
              exact ⟨b', Or.inr hb⟩
      exact key _ hx e
    obtain ⟨b', hb⟩ := this
    rcases h.link _ _ hb with e | ⟨e, _⟩
    · rw [e] at hn; cases hn; exact hb
    · rw [e] at hn; cases hn

theorem client_out {q : Mpsc.State} (h : Mpsc.Inv q) {x : Nat} (h0 : x ≠ 0) (hc : q.client x = true) : x ∉ q.chain := by
  intro hx
  rw [h.own x hx h0] at hc; cases hc

/-- The nodes of a push in progress. -/
theorem inPc {q : Mpsc.State} (h : Mpsc.Inv q) {u x : Nat} (hp : pcOf q u = .reset x ∨ pcOf q u = .swap x ∨ (∃ b, pcOf q u = .link x b) ∨ (∃ a, pcOf q u = .link a x)) :
    x ∈ q.chain ∨ (pcOf q u = .reset x ∨ pcOf q u = .swap x) := by
  rcases hp with hp | hp | ⟨b, hp⟩ | ⟨a, hp⟩
  · exact Or.inr (Or.inl hp)
  · exact Or.inr (Or.inr hp)
  · exact Or.inl (adj_in (h.pend _ _ (link_pend hp)).1).1
  · exact Or.inl (adj_in (h.pend _ _ (link_pend hp)).1).2

/-- Steps that only move the consumer, or only read. -/
theorem RI.quiet {s : State} (h : RI s) {q' : Mpsc.State} {m' : Mem Loc} (hch : q'.chain = s.q.chain) (hnx : q'.next = s.q.next) (htl : q'.tail = s.q.tail)
    (hhd : q'.head = s.q.head) (hpo : q'.popped = s.q.popped) (hcl : q'.client = s.q.client) (hmsg : m'.msg = s.m.msg) (hlog : m'.log = s.m.log)
    (hcur : ∀ u l, s.m.cur u l ≤ m'.cur u l) (hpc : ∀ u, pcOf q' u = pcOf s.q u ∨ PcKnows { s with q := q', m := m' } u (pcOf q' u)) :
    RI { s with q := q', m := m' } := by
  obtain ⟨ht, hn, hp, hc, hh, hs, hm, hd⟩ := h
  have kn : ∀ v x, Knows s v x → Knows { s with q := q', m := m' } v x :=
    fun v x k => k.mono rfl (by show m'.log _ = _; rw [hlog]) rfl (fun _ => Nat.le_refl _)
  refine ⟨⟨?_, ?_, ?_, ?_, ?_, ?_⟩, ⟨?_, ?_, ?_, ?_⟩, ?_, ?_, ?_, ?_, ?_, ?_⟩
  · show ∀ ts, ts ≤ s.tix q'.tail → m'.msg .tail ts ≠ none; rw [htl, hmsg]; exact ht.all
  · show ∀ ts y, m'.msg .tail ts = some y → ts ≤ s.tix q'.tail; rw [htl, hmsg]; exact ht.le
  · show ∀ x, x ∈ q'.chain → s.tix q'.head ≤ s.tix x ∧ ∃ y, m'.msg .tail (s.tix x) = some y ∧ y.val = x ∧ s.rst x ≤ y.view (.next x)
    rw [hch, hhd, hmsg]; exact ht.val
  · show ∀ ts y, m'.msg .tail ts = some y → s.tix q'.head ≤ ts → y.val ∈ q'.chain ∧ s.tix y.val = ts
    rw [hch, hhd, hmsg]; exact ht.inv
  · show ∀ a b, Adj q'.chain a b → s.tix b = s.tix a + 1; rw [hch]; exact ht.adj
  · show pushes m' (s.tix q'.head) = q'.popped.length
    rw [hhd, hpo, ← ht.cnt]; exact pushes_congr (fun ts _ => by rw [hmsg])
  · show ∀ x ts y, m'.msg (.next x) ts = some y → ts ≤ s.nTop x; rw [hmsg]; exact hn.le
  · show ∀ x, x ∈ q'.chain → ∃ y, m'.msg (.next x) (s.rst x) = some y ∧ y.val = 0; rw [hmsg, hch]; exact hn.rst
  · show ∀ x, x ∈ q'.chain → q'.next x = none → s.nTop x = s.rst x; rw [hnx, hch]; exact hn.non
  · intro x b hx hb
    have hx : x ∈ q'.chain := hx
    have hb : q'.next x = some b := hb
    rw [hch] at hx; rw [hnx] at hb
    obtain ⟨k1, k2, y, k3, k4, k5⟩ := hn.som x b hx hb
    refine ⟨k1, ?_, y, ?_, k4, kn _ _ k5⟩
    · show ∀ ts, s.rst x < ts → ts < s.nTop x → m'.msg (.next x) ts = none; rw [hmsg]; exact k2
    · show m'.msg _ _ = _; rw [hmsg]; exact k3
  · intro u
    rcases hpc u with e | e
    · show PcKnows _ u (pcOf q' u)
      rw [e]
      exact (hp u).keep (hcur u) (fun x _ => ⟨rfl, by show m'.log _ = _; rw [hlog], rfl⟩) (fun _ _ => rfl) (fun _ _ => by show m'.msg _ _ = _; rw [hmsg])
    · exact e
  · intro x h0 hx
    have hx : q'.client x = true := hx
    rw [hcl] at hx
    show _ ∧ m'.log _ ≤ _
    rw [hlog]; exact hc x h0 hx
  · show Knows _ (m'.cur 0) q'.head
    rw [hhd]; exact hh.mono rfl (by show m'.log _ = _; rw [hlog]) rfl (hcur 0)
  · intro h0
    have h0 : 0 ∈ q'.chain := h0
    rw [hch] at h0
    exact Nat.le_trans (hs h0) (hcur 0 _)
  · intro h0
    have h0 : 0 ∉ q'.chain := h0
    rw [hch] at h0
    exact Nat.le_trans (hm h0) (hcur 0 _)
  · show m'.log _ = 0; rw [hlog]; exact hd

/-- The consumer follows the link of the head. -/
theorem RI.advance {s : State} (hq : Mpsc.Inv s.q) (h : RI s) {n : Nat} (hn : s.q.next s.q.head = some n) {q' : Mpsc.State} {m' : Mem Loc} {own' : Nat → View Loc}
    (hch : q'.chain = s.q.chain.tail) (hnx : q'.next = s.q.next) (htl : q'.tail = s.q.tail) (hhd : q'.head = n)
    (hpo : q'.popped = if s.q.head = 0 then s.q.popped else s.q.popped ++ [s.q.head]) (hcl : ∀ x, x ≠ s.q.head → q'.client x = s.q.client x)
    (how : ∀ x, x ≠ s.q.head → own' x = s.own x) (hmsg : m'.msg = s.m.msg) (hlog : ∀ l, l ≠ Loc.data s.q.head → m'.log l = s.m.log l)
    (hlog0 : s.q.head = 0 → m'.log = s.m.log) (hcur : ∀ u l, s.m.cur u l ≤ m'.cur u l) (hpc : ∀ u, u ≠ 0 → pcOf q' u = pcOf s.q u) (hpc0 : pcOf q' 0 = .idle)
    (hown : s.q.head ≠ 0 → s.nTop s.q.head ≤ own' s.q.head (.next s.q.head) ∧ m'.log (.data s.q.head) ≤ own' s.q.head (.data s.q.head))
    (hk : Knows s (m'.cur 0) n) (htop : s.nTop s.q.head ≤ m'.cur 0 (.next s.q.head)) :
    RI { s with q := q', m := m', own := own' } := by
  obtain ⟨l, hl⟩ := Mpsc.chain_next hq hn
  have hnd := hq.nodup
  have htail : s.q.chain.tail = n :: l := by rw [hl]; rfl
  have hnot : s.q.head ∉ s.q.chain.tail := by rw [hl] at hnd ⊢; exact (List.nodup_cons.1 hnd).1
  have hsub : ∀ x, x ∈ s.q.chain.tail → x ∈ s.q.chain ∧ x ≠ s.q.head := fun x hx => ⟨List.mem_of_mem_tail hx, fun e => hnot (e ▸ hx)⟩
  have hadj : Adj s.q.chain s.q.head n := by rw [hl]; exact Or.inl ⟨rfl, rfl⟩
  obtain ⟨ht, hnn, hp, hc, hh, hs, hm, hd⟩ := h
  have htn : s.tix n = s.tix s.q.head + 1 := ht.adj _ _ hadj
  have hne : ∀ x, x ∈ s.q.chain.tail → s.tix n ≤ s.tix x := by
    intro x hx
    obtain ⟨h1, h2⟩ := hsub x hx
    obtain ⟨k1, y, k2, k3, _⟩ := ht.val x h1
    have : s.tix x ≠ s.tix s.q.head := by
      intro e
      obtain ⟨_, y', k2', k3', _⟩ := ht.val _ (Mpsc.head_mem hq)
      rw [e] at k2; rw [k2] at k2'; cases k2'
      exact h2 (by rw [← k3, k3'])
    omega
  have hld : ∀ x, x ≠ s.q.head → m'.log (.data x) = s.m.log (.data x) := fun x hx => hlog _ (fun e => hx (Loc.data.inj e))
  have kn : ∀ v x, x ≠ s.q.head → Knows s v x → Knows { s with q := q', m := m', own := own' } v x :=
    fun v x hx k => k.mono rfl (hld x hx) rfl (fun _ => Nat.le_refl _)
  have hchadj : ∀ a b, Adj q'.chain a b → Adj s.q.chain a b := by
    intro a b hab
    rw [hch, htail] at hab
    rw [hl]; exact Or.inr hab
  refine ⟨⟨?_, ?_, ?_, ?_, ?_, ?_⟩, ⟨?_, ?_, ?_, ?_⟩, ?_, ?_, ?_, ?_, ?_, ?_⟩
  · show ∀ ts, ts ≤ s.tix q'.tail → m'.msg .tail ts ≠ none; rw [htl, hmsg]; exact ht.all
  · show ∀ ts y, m'.msg .tail ts = some y → ts ≤ s.tix q'.tail; rw [htl, hmsg]; exact ht.le
  · show ∀ x, x ∈ q'.chain → s.tix q'.head ≤ s.tix x ∧ ∃ y, m'.msg .tail (s.tix x) = some y ∧ y.val = x ∧ s.rst x ≤ y.view (.next x)
    rw [hch, hhd, hmsg]
    intro x hx
    exact ⟨hne x hx, (ht.val x (hsub x hx).1).2⟩
  · show ∀ ts y, m'.msg .tail ts = some y → s.tix q'.head ≤ ts → y.val ∈ q'.chain ∧ s.tix y.val = ts
    rw [hch, hhd, hmsg]
    intro ts y hy hts
    obtain ⟨k1, k2⟩ := ht.inv ts y hy (by omega)
    refine ⟨?_, k2⟩
    rw [hl] at k1
    rcases List.mem_cons.1 k1 with e | k1
    · rw [e] at k2; omega
    · rw [hl]; exact k1
  · show ∀ a b, Adj q'.chain a b → s.tix b = s.tix a + 1
    intro a b hab; exact ht.adj a b (hchadj a b hab)
  · show pushes m' (s.tix q'.head) = q'.popped.length
    rw [hhd, hpo, htn]
    have e1 : pushes m' (s.tix s.q.head + 1) = pushes s.m (s.tix s.q.head + 1) := pushes_congr (fun ts _ => by rw [hmsg])
    rw [e1, pushes_succ, ht.cnt]
    obtain ⟨_, y, k2, k3, _⟩ := ht.val _ (Mpsc.head_mem hq)
    unfold isPush
    rw [k2]
    by_cases e : s.q.head = 0
    · rw [if_pos e]; simp [k3, e]
    · rw [if_neg e]; simp [k3, e]
  · show ∀ x ts y, m'.msg (.next x) ts = some y → ts ≤ s.nTop x; rw [hmsg]; exact hnn.le
  · show ∀ x, x ∈ q'.chain → ∃ y, m'.msg (.next x) (s.rst x) = some y ∧ y.val = 0
    rw [hmsg, hch]; intro x hx; exact hnn.rst x (hsub x hx).1
  · show ∀ x, x ∈ q'.chain → q'.next x = none → s.nTop x = s.rst x
    rw [hnx, hch]; intro x hx; exact hnn.non x (hsub x hx).1
  · intro x b hx hb
    have hx : x ∈ q'.chain := hx
    have hb : q'.next x = some b := hb
    rw [hch] at hx; rw [hnx] at hb
    obtain ⟨k1, k2, y, k3, k4, k5⟩ := hnn.som x b (hsub x hx).1 hb
    have hbh : b ≠ s.q.head := fun e => hnot (e ▸ (Mpsc.adj_mem (som_in hq (hsub x hx).1 hb)).2)
    refine ⟨k1, ?_, y, ?_, k4, kn _ _ hbh k5⟩
    · show ∀ ts, s.rst x < ts → ts < s.nTop x → m'.msg (.next x) ts = none; rw [hmsg]; exact k2
    · show m'.msg _ _ = _; rw [hmsg]; exact k3
  · intro u
    by_cases hu : u = 0
    · subst hu
      show PcKnows _ 0 (pcOf q' 0)
      rw [hpc0]; trivial
    · show PcKnows _ u (pcOf q' u)
      rw [hpc u hu]
      refine (hp u).keep (hcur u) (fun x hx => ⟨rfl, hld x ?_, rfl⟩) (fun _ _ => rfl) (fun _ _ => by show m'.msg _ _ = _; rw [hmsg])
      rintro rfl
      rcases hx with hx | hx | ⟨b, hx⟩ | ⟨a, hx⟩
      · exact (fresh_out hq (Or.inl hx)).1 (Mpsc.head_mem hq)
      · exact (fresh_out hq (Or.inr hx)).1 (Mpsc.head_mem hq)
      · have := (hq.pend _ _ (link_pend hx)).2
        rw [hn] at this; cases this
      · exact hnot (Mpsc.adj_mem (hq.pend _ _ (link_pend hx)).1).2
  · intro x h0 hx
    have hx : q'.client x = true := hx
    show s.nTop x ≤ own' x _ ∧ m'.log _ ≤ own' x _
    by_cases e : x = s.q.head
    · subst e; exact hown h0
    · rw [how x e, hld x e]
      rw [hcl x e] at hx
      exact hc x h0 hx
  · show Knows _ (m'.cur 0) q'.head
    rw [hhd]; exact kn _ _ (hsub n (by rw [htail]; exact List.mem_cons_self)).2 hk
  · intro h0
    have h0 : 0 ∈ q'.chain := h0
    rw [hch] at h0
    exact Nat.le_trans (hs (hsub 0 h0).1) (hcur 0 _)
  · intro h0
    have h0 : 0 ∉ q'.chain := h0
    rw [hch] at h0
    by_cases e : s.q.head = 0
    · show s.nTop 0 ≤ m'.cur 0 (.next 0)
      rw [e] at htop; exact htop
    · refine Nat.le_trans (hm (fun hx => ?_)) (hcur 0 _)
      rw [hl] at hx
      rcases List.mem_cons.1 hx with e' | hx
      · exact e e'.symm
      · exact h0 (by rw [hl]; exact hx)
  · show m'.log _ = 0
    by_cases e : s.q.head = 0
    · rw [hlog0 e]; exact hd
    · rw [hld 0 (fun e' => e e'.symm)]; exact hd

/-- A push begins. -/
theorem RI.push {s : State} (hq : Mpsc.Inv s.q) (h : RI s) {t x : Nat} (h0 : x ≠ 0) (hcx : s.q.client x = true) (hidle : pcOf s.q (t + 1) = .idle) {q' : Mpsc.State} {m' : Mem Loc}
    (hch : q'.chain = s.q.chain) (hnx : q'.next = s.q.next) (htl : q'.tail = s.q.tail) (hhd : q'.head = s.q.head) (hpo : q'.popped = s.q.popped)
    (hcl : q'.client = upd s.q.client x false) (hmsg : m'.msg = s.m.msg) (hlog : ∀ l, l ≠ Loc.data x → m'.log l = s.m.log l) (hcur : ∀ u l, s.m.cur u l ≤ m'.cur u l)
    (hpc : ∀ u, u ≠ t + 1 → pcOf q' u = pcOf s.q u) (hpct : pcOf q' (t + 1) = .reset x) (hn : s.own x (.next x) ≤ m'.cur (t + 1) (.next x))
    (hd' : m'.log (.data x) ≤ m'.cur (t + 1) (.data x)) : RI { s with q := q', m := m' } := by
  have hout := client_out hq h0 hcx
  have hld : ∀ y, y ≠ x → m'.log (.data y) = s.m.log (.data y) := fun y hy => hlog _ (fun e => hy (Loc.data.inj e))
  have hin : ∀ y, y ∈ s.q.chain → y ≠ x := fun y hy e => hout (e ▸ hy)
  obtain ⟨ht, hnn, hp, hc, hh, hs, hm, hd⟩ := h
  refine ⟨⟨?_, ?_, ?_, ?_, ?_, ?_⟩, ⟨?_, ?_, ?_, ?_⟩, ?_, ?_, ?_, ?_, ?_, ?_⟩
  · show ∀ ts, ts ≤ s.tix q'.tail → m'.msg .tail ts ≠ none; rw [htl, hmsg]; exact ht.all
  · show ∀ ts y, m'.msg .tail ts = some y → ts ≤ s.tix q'.tail; rw [htl, hmsg]; exact ht.le
  · show ∀ x, x ∈ q'.chain → s.tix q'.head ≤ s.tix x ∧ ∃ y, m'.msg .tail (s.tix x) = some y ∧ y.val = x ∧ s.rst x ≤ y.view (.next x)
    rw [hch, hhd, hmsg]; exact ht.val
  · show ∀ ts y, m'.msg .tail ts = some y → s.tix q'.head ≤ ts → y.val ∈ q'.chain ∧ s.tix y.val = ts
    rw [hch, hhd, hmsg]; exact ht.inv
  · show ∀ a b, Adj q'.chain a b → s.tix b = s.tix a + 1; rw [hch]; exact ht.adj
  · show pushes m' (s.tix q'.head) = q'.popped.length
    rw [hhd, hpo, ← ht.cnt]; exact pushes_congr (fun ts _ => by rw [hmsg])
  · show ∀ x ts y, m'.msg (.next x) ts = some y → ts ≤ s.nTop x; rw [hmsg]; exact hnn.le
  · show ∀ x, x ∈ q'.chain → ∃ y, m'.msg (.next x) (s.rst x) = some y ∧ y.val = 0; rw [hmsg, hch]; exact hnn.rst
  · show ∀ x, x ∈ q'.chain → q'.next x = none → s.nTop x = s.rst x; rw [hnx, hch]; exact hnn.non
  · intro y b hy hb
    have hy : y ∈ q'.chain := hy
    have hb : q'.next y = some b := hb
    rw [hch] at hy; rw [hnx] at hb
    obtain ⟨k1, k2, z, k3, k4, k5⟩ := hnn.som y b hy hb
    refine ⟨k1, ?_, z, ?_, k4, k5.mono rfl (hld b (hin b (adj_in (som_in hq hy hb)).2)) rfl (fun _ => Nat.le_refl _)⟩
    · show ∀ ts, s.rst y < ts → ts < s.nTop y → m'.msg (.next y) ts = none; rw [hmsg]; exact k2
    · show m'.msg _ _ = _; rw [hmsg]; exact k3
  · intro u
    show PcKnows _ u (pcOf q' u)
    by_cases hu : u = t + 1
    · subst hu
      rw [hpct]
      exact ⟨Nat.le_trans (hc x h0 hcx).1 hn, hd'⟩
    · rw [hpc u hu]
      refine (hp u).keep (hcur u) (fun y hy => ⟨rfl, hld y ?_, rfl⟩) (fun _ _ => rfl) (fun _ _ => by show m'.msg _ _ = _; rw [hmsg])
      rcases inPc hq hy with hy | hy
      · exact hin y hy
      · rintro rfl
        have := (fresh_out hq hy).2.2.2 h0
        rw [hcx] at this; cases this
  · intro y hy0 hy
    have hy : q'.client y = true := hy
    rw [hcl] at hy
    by_cases e : y = x
    · subst e; rw [upd_same] at hy; cases hy
    · rw [upd_ne _ _ e] at hy
      show _ ∧ m'.log _ ≤ _
      rw [hld y e]; exact hc y hy0 hy
  · show Knows _ (m'.cur 0) q'.head
    rw [hhd]; exact hh.mono rfl (hld _ (hin _ (Mpsc.head_mem hq))) rfl (hcur 0)
  · intro hz
    have hz : 0 ∈ q'.chain := hz
    rw [hch] at hz
    exact Nat.le_trans (hs hz) (hcur 0 _)
  · intro hz
    have hz : 0 ∉ q'.chain := hz
    rw [hch] at hz
    exact Nat.le_trans (hm hz) (hcur 0 _)
  · show m'.log _ = 0; rw [hld 0 (fun e => h0 e.symm)]; exact hd

/-- Stores to the link of a node that is not in the queue: by its pusher (54) or by the client. -/
theorem RI.free {s : State} (hq : Mpsc.Inv s.q) (h : RI s) {u x v ts : Nat} {w : View Loc} {m' : Mem Loc} {q' : Mpsc.State} {rst' : Nat → Nat} {own' : Nat → View Loc} {nv : Option Nat}
    (hout : x ∉ s.q.chain) (htop : s.nTop x < ts)
    (hnew : m'.msg (.next x) ts = some ⟨v, w⟩) (hold : ∀ l k, ¬ (l = Loc.next x ∧ k = ts) → m'.msg l k = s.m.msg l k) (hlog : m'.log = s.m.log)
    (hcur : ∀ u l, s.m.cur u l ≤ m'.cur u l) (hge : ts ≤ m'.cur u (.next x))
    (hch : q'.chain = s.q.chain) (hnx : q'.next = upd s.q.next x nv) (htl : q'.tail = s.q.tail) (hhd : q'.head = s.q.head) (hpo : q'.popped = s.q.popped)
    (hcl : q'.client = s.q.client) (hrst : ∀ y, y ≠ x → rst' y = s.rst y) (how : ∀ y, y ≠ x → own' y = s.own y)
    (hx0 : x = 0 → u = 0) (hpc : ∀ u', u' ≠ u → pcOf q' u' = pcOf s.q u' ∧ ¬ (pcOf s.q u' = .reset x ∨ pcOf s.q u' = .swap x))
    (hpcu : PcKnows { s with q := q', m := m', rst := rst', nTop := upd s.nTop x ts, own := own' } u (pcOf q' u))
    (hown : x ≠ 0 → s.q.client x = true → ts ≤ own' x (.next x) ∧ s.m.log (.data x) ≤ own' x (.data x)) :
    RI { s with q := q', m := m', rst := rst', nTop := upd s.nTop x ts, own := own' } := by
  have hin : ∀ y, y ∈ s.q.chain → y ≠ x := fun y hy e => hout (e ▸ hy)
  obtain ⟨ht, hnn, hp, hc, hh, hs, hm, hd⟩ := h
  have htail : ∀ k, m'.msg .tail k = s.m.msg .tail k := fun k => hold _ _ (by rintro ⟨e, _⟩; cases e)
  have hnext : ∀ y, y ≠ x → ∀ k, m'.msg (.next y) k = s.m.msg (.next y) k := fun y hy k => hold _ _ (by rintro ⟨e, _⟩; exact hy (Loc.next.inj e))
  have hnt : ∀ y, y ≠ x → (upd s.nTop x ts) y = s.nTop y := fun y hy => upd_ne _ _ hy
  have kn : ∀ v y, y ≠ x → Knows s v y → Knows { s with q := q', m := m', rst := rst', nTop := upd s.nTop x ts, own := own' } v y :=
    fun v y hy k => k.mono (hrst y hy) (by show m'.log _ = _; rw [hlog]) rfl (fun _ => Nat.le_refl _)
  refine ⟨⟨?_, ?_, ?_, ?_, ?_, ?_⟩, ⟨?_, ?_, ?_, ?_⟩, ?_, ?_, ?_, ?_, ?_, ?_⟩
  · show ∀ k, k ≤ s.tix q'.tail → m'.msg .tail k ≠ none; rw [htl]; intro k; rw [htail]; exact ht.all k
  · show ∀ k y, m'.msg .tail k = some y → k ≤ s.tix q'.tail; rw [htl]; intro k y; rw [htail]; exact ht.le k y
  · show ∀ y, y ∈ q'.chain → s.tix q'.head ≤ s.tix y ∧ ∃ z, m'.msg .tail (s.tix y) = some z ∧ z.val = y ∧ rst' y ≤ z.view (.next y)
    rw [hch, hhd]; intro y hy; rw [htail, hrst y (hin y hy)]; exact ht.val y hy
  · show ∀ k y, m'.msg .tail k = some y → s.tix q'.head ≤ k → y.val ∈ q'.chain ∧ s.tix y.val = k
    rw [hch, hhd]; intro k y; rw [htail]; exact ht.inv k y
  · show ∀ a b, Adj q'.chain a b → s.tix b = s.tix a + 1; rw [hch]; exact ht.adj
  · show pushes m' (s.tix q'.head) = q'.popped.length
    rw [hhd, hpo, ← ht.cnt]; exact pushes_congr (fun k _ => htail k)
  · intro y k z hz
    have hz : m'.msg (.next y) k = some z := hz
    show k ≤ (upd s.nTop x ts) y
    by_cases e : y = x
    · subst e
      rw [upd_same]
      by_cases ek : k = ts
      · omega
      · rw [hold _ _ (by rintro ⟨_, e⟩; exact ek e)] at hz
        have := hnn.le y k z hz
        omega
    · rw [hnt y e]; rw [hnext y e] at hz; exact hnn.le y k z hz
  · intro y hy
    have hy : y ∈ q'.chain := hy
    rw [hch] at hy
    show ∃ z, m'.msg (.next y) (rst' y) = some z ∧ z.val = 0
    rw [hnext y (hin y hy), hrst y (hin y hy)]; exact hnn.rst y hy
  · intro y hy hn
    have hy : y ∈ q'.chain := hy
    have hn : q'.next y = none := hn
    rw [hch] at hy
    rw [hnx, upd_ne _ _ (hin y hy)] at hn
    show (upd s.nTop x ts) y = rst' y
    rw [hnt y (hin y hy), hrst y (hin y hy)]; exact hnn.non y hy hn
  · intro y b hy hb
    have hy : y ∈ q'.chain := hy
    have hb : q'.next y = some b := hb
    rw [hch] at hy
    rw [hnx, upd_ne _ _ (hin y hy)] at hb
    obtain ⟨k1, k2, z, k3, k4, k5⟩ := hnn.som y b hy hb
    have hyx := hin y hy
    show rst' y < (upd s.nTop x ts) y ∧ (∀ k, rst' y < k → k < (upd s.nTop x ts) y → m'.msg (.next y) k = none) ∧
      ∃ z, m'.msg (.next y) ((upd s.nTop x ts) y) = some z ∧ z.val = b + 1 ∧ Knows _ z.view b
    rw [hnt y hyx, hrst y hyx]
    refine ⟨k1, fun k => by rw [hnext y hyx]; exact k2 k, z, by rw [hnext y hyx]; exact k3, k4, kn _ _ (hin b (adj_in (som_in hq hy hb)).2) k5⟩
  · intro u'
    by_cases hu : u' = u
    · subst hu; exact hpcu
    · show PcKnows _ u' (pcOf q' u')
      obtain ⟨e, hno⟩ := hpc u' hu
      rw [e]
      have hy : ∀ y, (pcOf s.q u' = .reset y ∨ pcOf s.q u' = .swap y) → y ≠ x := by
        rintro y hy rfl; exact hno hy
      refine (hp u').keep (hcur u') (fun y hy' => ⟨hrst y ?_, by show m'.log _ = _; rw [hlog], rfl⟩) (fun y hy' => hnt y (hy y hy')) (fun y hy' => hnext y (hy y (Or.inr hy')) _)
      rcases inPc hq hy' with hy' | hy'
      · exact hin y hy'
      · exact hy y hy'
  · intro y hy0 hy
    have hy2 : q'.client y = true := hy
    rw [hcl] at hy2
    clear hy
    show (upd s.nTop x ts) y ≤ own' y _ ∧ m'.log _ ≤ own' y _
    rw [hlog]
    by_cases e : y = x
    · subst e; rw [upd_same]; exact hown hy0 hy2
    · rw [hnt y e, how y e]; exact hc y hy0 hy2
  · show Knows _ (m'.cur 0) q'.head
    rw [hhd]
    have hhx := hin _ (Mpsc.head_mem hq)
    exact hh.mono (hrst _ hhx) (by show m'.log _ = _; rw [hlog]) rfl (hcur 0)
  · intro hz
    have hz : 0 ∈ q'.chain := hz
    rw [hch] at hz
    exact Nat.le_trans (hs hz) (hcur 0 _)
  · intro hz
    have hz : 0 ∉ q'.chain := hz
    rw [hch] at hz
    show (upd s.nTop x ts) 0 ≤ m'.cur 0 (.next 0)
    by_cases e : 0 = x
    · rw [← e, upd_same]
      have := hx0 e.symm
      subst this; rw [← e] at hge; exact hge
    · rw [hnt 0 e]; exact Nat.le_trans (hm hz) (hcur 0 _)
  · show m'.log _ = 0; rw [hlog]; exact hd

/-- The exchange of the tail. -/
theorem RI.swap {s : State} (hq : Mpsc.Inv s.q) (h : RI s) {u x ts : Nat} {y : Msg Loc} {w : View Loc} {m' : Mem Loc} {q' : Mpsc.State}
    (hu : pcOf s.q u = .swap x) (hnone : s.q.next x = none) (L : Swapped s.m m' u .tail (fun _ => x) true true ts y w) (hts : ts = s.tix s.q.tail)
    (hch : q'.chain = s.q.chain ++ [x]) (hnx : q'.next = s.q.next) (htl : q'.tail = x) (hhd : q'.head = s.q.head) (hpo : q'.popped = s.q.popped)
    (hcl : q'.client = s.q.client) (hpc : ∀ u', u' ≠ u → pcOf q' u' = pcOf s.q u') (hpcu : pcOf q' u = .link s.q.tail x) :
    RI { s with q := q', m := m', tix := upd s.tix x (ts + 1) } := by
  obtain ⟨hout, hx0, hu0, hxc⟩ := fresh_out hq (Or.inr hu)
  have hin : ∀ y, y ∈ s.q.chain → y ≠ x := fun y hy e => hout (e ▸ hy)
  obtain ⟨ht, hnn, hp, hc, hh, hs, hm, hd⟩ := h
  have hpk := hp u
  rw [hu] at hpk
  obtain ⟨p1, p2, p3, p4⟩ := hpk
  have hnext : ∀ y k, m'.msg (.next y) k = s.m.msg (.next y) k := fun y k => L.old _ _ (by rintro ⟨e, _⟩; cases e)
  have htx : ∀ y, y ≠ x → (upd s.tix x (ts + 1)) y = s.tix y := fun y hy => upd_ne _ _ hy
  have hhx := hin _ (Mpsc.head_mem hq)
  have hheadle := (ht.val _ (Mpsc.tail_mem hq)).1
  have kn : ∀ v v' y, y ≠ x → (∀ l, v l ≤ v' l) → Knows s v y → Knows { s with q := q', m := m', tix := upd s.tix x (ts + 1) } v' y :=
    fun v v' y hy hv k => k.mono rfl (by show m'.log _ = _; rw [L.log]) (htx y hy) hv
  have hw : s.rst x ≤ w (.next x) := Nat.le_trans p2 (Nat.le_trans (L.mono u _) (L.pub rfl _))
  refine ⟨⟨?_, ?_, ?_, ?_, ?_, ?_⟩, ⟨?_, ?_, ?_, ?_⟩, ?_, ?_, ?_, ?_, ?_, ?_⟩
  · show ∀ k, k ≤ (upd s.tix x (ts + 1)) q'.tail → m'.msg .tail k ≠ none
    rw [htl, upd_same]
    intro k hk
    by_cases e : k = ts + 1
    · subst e; rw [L.new]; nofun
    · rw [L.old _ _ (by rintro ⟨_, e'⟩; exact e e')]; exact ht.all k (by omega)
  · show ∀ k y, m'.msg .tail k = some y → k ≤ (upd s.tix x (ts + 1)) q'.tail
    rw [htl, upd_same]
    intro k z hz
    by_cases e : k = ts + 1
    · omega
    · rw [L.old _ _ (by rintro ⟨_, e'⟩; exact e e')] at hz
      have := ht.le k z hz; omega
  · show ∀ y, y ∈ q'.chain → (upd s.tix x (ts + 1)) q'.head ≤ (upd s.tix x (ts + 1)) y ∧
      ∃ z, m'.msg .tail ((upd s.tix x (ts + 1)) y) = some z ∧ z.val = y ∧ s.rst y ≤ z.view (.next y)
    rw [hch, hhd, htx _ hhx]
    intro y hy
    rcases List.mem_append.1 hy with hy | hy
    · obtain ⟨k1, z, k2, k3, k4⟩ := ht.val y hy
      rw [htx y (hin y hy)]
      refine ⟨k1, z, ?_, k3, k4⟩
      rw [L.old _ _ (by rintro ⟨_, e⟩; rw [e, L.free] at k2; cases k2)]; exact k2
    · have : y = x := by simpa using hy
      subst this
      rw [upd_same]
      exact ⟨by omega, _, L.new, rfl, hw⟩
  · show ∀ k z, m'.msg .tail k = some z → (upd s.tix x (ts + 1)) q'.head ≤ k → z.val ∈ q'.chain ∧ (upd s.tix x (ts + 1)) z.val = k
    rw [hch, hhd, htx _ hhx]
    intro k z hz hk
    by_cases e : k = ts + 1
    · subst e; rw [L.new] at hz; cases hz
      exact ⟨by simp, upd_same _ _ _⟩
    · rw [L.old _ _ (by rintro ⟨_, e'⟩; exact e e')] at hz
      obtain ⟨k1, k2⟩ := ht.inv k z hz hk
      exact ⟨List.mem_append_left _ k1, by rw [htx _ (hin _ k1)]; exact k2⟩
  · show ∀ a b, Adj q'.chain a b → (upd s.tix x (ts + 1)) b = (upd s.tix x (ts + 1)) a + 1
    rw [hch]
    intro a b hab
    rcases Mpsc.adj_append.1 hab with hab | ⟨e, rfl⟩
    · rw [htx _ (hin _ (adj_in hab).1), htx _ (hin _ (adj_in hab).2)]; exact ht.adj a b hab
    · have := hq.tl
      rw [e] at this; cases this
      rw [upd_same, htx _ (hin _ (Mpsc.tail_mem hq)), hts]
  · show pushes m' ((upd s.tix x (ts + 1)) q'.head) = q'.popped.length
    rw [hhd, hpo, htx _ hhx, ← ht.cnt]
    exact pushes_congr (fun k hk => L.old _ _ (by rintro ⟨_, e⟩; omega))
  · show ∀ y k z, m'.msg (.next y) k = some z → k ≤ s.nTop y
    intro y k z; rw [hnext]; exact hnn.le y k z
  · show ∀ y, y ∈ q'.chain → ∃ z, m'.msg (.next y) (s.rst y) = some z ∧ z.val = 0
    rw [hch]
    intro y hy
    rw [hnext]
    rcases List.mem_append.1 hy with hy | hy
    · exact hnn.rst y hy
    · have : y = x := by simpa using hy
      subst this; exact p4
  · show ∀ y, y ∈ q'.chain → q'.next y = none → s.nTop y = s.rst y
    rw [hch, hnx]
    intro y hy hn
    rcases List.mem_append.1 hy with hy | hy
    · exact hnn.non y hy hn
    · have : y = x := by simpa using hy
      subst this; exact p1
  · intro y b hy hb
    have hy : y ∈ q'.chain := hy
    have hb : q'.next y = some b := hb
    rw [hch] at hy; rw [hnx] at hb
    have hb2 := hb
    rcases List.mem_append.1 hy with hy | hy
    · obtain ⟨k1, k2, z, k3, k4, k5⟩ := hnn.som y b hy hb
      refine ⟨k1, fun k => ?_, z, ?_, k4, kn _ _ _ (hin b (adj_in (som_in hq hy hb)).2) (fun _ => Nat.le_refl _) k5⟩
      · show s.rst y < k → k < s.nTop y → m'.msg _ _ = _; rw [hnext]; exact k2 k
      · show m'.msg _ _ = _; rw [hnext]; exact k3
    · have : y = x := by simpa using hy
      subst this; rw [hnone] at hb2; cases hb2
  · intro u'
    show PcKnows _ u' (pcOf q' u')
    by_cases e : u' = u
    · subst e
      rw [hpcu]
      obtain ⟨_, z, k2, k3, k4⟩ := ht.val _ (Mpsc.tail_mem hq)
      rw [← hts, L.src] at k2; cases k2
      refine ⟨Nat.le_trans k4 (L.acq rfl _), Nat.le_trans p2 (L.mono u' _), ?_, ?_⟩
      · show m'.log _ ≤ _; rw [L.log]; exact Nat.le_trans p3 (L.mono u' _)
      · show (upd s.tix x (ts + 1)) x ≤ _; rw [upd_same]; exact L.ge
    · rw [hpc u' e]
      refine (hp u').keep (L.mono u') (fun y hy => ⟨rfl, by show m'.log _ = _; rw [L.log], htx y ?_⟩) (fun _ _ => rfl) (fun y _ => hnext y _)
      rcases inPc hq hy with hy | hy
      · exact hin y hy
      · rintro rfl; exact e (fresh_uniq hq (Or.inr hu) hy)
  · intro y hy0 hy
    have hy : q'.client y = true := hy
    rw [hcl] at hy
    show _ ∧ m'.log _ ≤ _
    rw [L.log]; exact hc y hy0 hy
  · show Knows _ (m'.cur 0) q'.head
    rw [hhd]; exact kn _ _ _ hhx (L.mono 0) hh
  · intro hz
    have hz : 0 ∈ q'.chain := hz
    rw [hch] at hz
    show (upd s.tix x (ts + 1)) 0 ≤ m'.cur 0 .tail
    rcases List.mem_append.1 hz with hz | hz
    · rw [htx 0 (hin 0 hz)]; exact Nat.le_trans (hs hz) (L.mono 0 _)
    · have e : 0 = x := by simpa using hz
      have := hx0 e.symm
      subst this; rw [← e, upd_same]; exact L.ge
  · intro hz
    have hz : 0 ∉ q'.chain := hz
    rw [hch] at hz
    exact Nat.le_trans (hm (fun h => hz (List.mem_append_left _ h))) (L.mono 0 _)
  · show m'.log _ = 0; rw [L.log]; exact hd

/-- The link is stored. -/
theorem RI.link {s : State} (hq : Mpsc.Inv s.q) (h : RI s) {u a b ts : Nat} {w : View Loc} {m' : Mem Loc} {q' : Mpsc.State}
    (hu : pcOf s.q u = .link a b) (L : Stored s.m m' u (.next a) (b + 1) true ts w)
    (hch : q'.chain = s.q.chain) (hnx : q'.next = upd s.q.next a (some b)) (htl : q'.tail = s.q.tail) (hhd : q'.head = s.q.head) (hpo : q'.popped = s.q.popped)
    (hcl : q'.client = s.q.client) (hpc : ∀ u', u' ≠ u → pcOf q' u' = pcOf s.q u') (hpcu : pcOf q' u = .idle) :
    RI { s with q := q', m := m', nTop := upd s.nTop a ts } := by
  obtain ⟨hadj, hnone⟩ := hq.pend _ _ (link_pend hu)
  obtain ⟨ha, hb⟩ := adj_in hadj
  obtain ⟨ht, hnn, hp, hc, hh, hs, hm, hd⟩ := h
  have hpk := hp u
  rw [hu] at hpk
  obtain ⟨p1, p2⟩ := hpk
  have htop : s.nTop a = s.rst a := hnn.non a ha hnone
  have habove := L.above
  have htail : ∀ k, m'.msg .tail k = s.m.msg .tail k := fun k => L.old _ _ (by rintro ⟨e, _⟩; cases e)
  have hnext : ∀ y, y ≠ a → ∀ k, m'.msg (.next y) k = s.m.msg (.next y) k := fun y hy k => L.old _ _ (by rintro ⟨e, _⟩; exact hy (Loc.next.inj e))
  have hnt : ∀ y, y ≠ a → (upd s.nTop a ts) y = s.nTop y := fun y hy => upd_ne _ _ hy
  have kn : ∀ v v' y, (∀ l, v l ≤ v' l) → Knows s v y → Knows { s with q := q', m := m', nTop := upd s.nTop a ts } v' y :=
    fun v v' y hv k => k.mono rfl (by show m'.log _ = _; rw [L.log]) rfl hv
  refine ⟨⟨?_, ?_, ?_, ?_, ?_, ?_⟩, ⟨?_, ?_, ?_, ?_⟩, ?_, ?_, ?_, ?_, ?_, ?_⟩
  · show ∀ k, k ≤ s.tix q'.tail → m'.msg .tail k ≠ none; rw [htl]; intro k; rw [htail]; exact ht.all k
  · show ∀ k y, m'.msg .tail k = some y → k ≤ s.tix q'.tail; rw [htl]; intro k y; rw [htail]; exact ht.le k y
  · show ∀ y, y ∈ q'.chain → s.tix q'.head ≤ s.tix y ∧ ∃ z, m'.msg .tail (s.tix y) = some z ∧ z.val = y ∧ s.rst y ≤ z.view (.next y)
    rw [hch, hhd]; intro y hy; rw [htail]; exact ht.val y hy
  · show ∀ k y, m'.msg .tail k = some y → s.tix q'.head ≤ k → y.val ∈ q'.chain ∧ s.tix y.val = k
    rw [hch, hhd]; intro k y; rw [htail]; exact ht.inv k y
  · show ∀ a b, Adj q'.chain a b → s.tix b = s.tix a + 1; rw [hch]; exact ht.adj
  · show pushes m' (s.tix q'.head) = q'.popped.length
    rw [hhd, hpo, ← ht.cnt]; exact pushes_congr (fun k _ => htail k)
  · intro y k z hz
    have hz : m'.msg (.next y) k = some z := hz
    show k ≤ (upd s.nTop a ts) y
    by_cases e : y = a
    · subst e
      rw [upd_same]
      by_cases ek : k = ts
      · omega
      · rw [L.old _ _ (by rintro ⟨_, e⟩; exact ek e)] at hz
        have := hnn.le y k z hz
        omega
    · rw [hnt y e]; rw [hnext y e] at hz; exact hnn.le y k z hz
  · intro y hy
    have hy2 : y ∈ q'.chain := hy
    rw [hch] at hy2
    clear hy
    show ∃ z, m'.msg (.next y) (s.rst y) = some z ∧ z.val = 0
    by_cases e : y = a
    · subst e
      rw [L.old _ _ (by rintro ⟨_, e⟩; omega)]; exact hnn.rst y hy2
    · rw [hnext y e]; exact hnn.rst y hy2
  · intro y hy hn
    have hy : y ∈ q'.chain := hy
    have hn : q'.next y = none := hn
    rw [hch] at hy
    rw [hnx] at hn
    by_cases e : y = a
    · subst e; rw [upd_same] at hn; cases hn
    · rw [upd_ne _ _ e] at hn
      show (upd s.nTop a ts) y = s.rst y
      rw [hnt y e]; exact hnn.non y hy hn
  · intro y c hy hc'
    have hy : y ∈ q'.chain := hy
    have hc' : q'.next y = some c := hc'
    rw [hch] at hy
    rw [hnx] at hc'
    show s.rst y < (upd s.nTop a ts) y ∧ (∀ k, s.rst y < k → k < (upd s.nTop a ts) y → m'.msg (.next y) k = none) ∧
      ∃ z, m'.msg (.next y) ((upd s.nTop a ts) y) = some z ∧ z.val = c + 1 ∧ Knows _ z.view c
    by_cases e : y = a
    · subst e
      rw [upd_same] at hc' ⊢
      cases hc'
      refine ⟨by omega, fun k h1 h2 => ?_, _, L.new, rfl, ?_⟩
      · rw [L.old _ _ (by rintro ⟨_, e⟩; omega)]
        cases hz : s.m.msg (.next y) k with
        | none => rfl
        | some z => have := hnn.le y k z hz; omega
      · show Knows _ w b
        rw [L.pub rfl]
        exact kn _ _ _ (L.mono u) p2
    · rw [upd_ne _ _ e] at hc'
      obtain ⟨k1, k2, z, k3, k4, k5⟩ := hnn.som y c hy hc'
      rw [hnt y e]
      exact ⟨k1, fun k => by rw [hnext y e]; exact k2 k, z, by rw [hnext y e]; exact k3, k4, kn _ _ _ (fun _ => Nat.le_refl _) k5⟩
  · intro u'
    show PcKnows _ u' (pcOf q' u')
    by_cases hu' : u' = u
    · subst hu'; rw [hpcu]; trivial
    · rw [hpc u' hu']
      have hy : ∀ y, (pcOf s.q u' = .reset y ∨ pcOf s.q u' = .swap y) → y ≠ a := by
        rintro y hy rfl; exact (fresh_out hq hy).1 ha
      exact (hp u').keep (L.mono u') (fun y _ => ⟨rfl, by show m'.log _ = _; rw [L.log], rfl⟩) (fun y hy' => hnt y (hy y hy')) (fun y hy' => hnext y (hy y (Or.inr hy')) _)
  · intro y hy0 hy
    have hy : q'.client y = true := hy
    rw [hcl] at hy
    show (upd s.nTop a ts) y ≤ _ ∧ m'.log _ ≤ _
    rw [L.log, hnt y (fun e => client_out hq hy0 hy (e ▸ ha))]; exact hc y hy0 hy
  · show Knows _ (m'.cur 0) q'.head
    rw [hhd]; exact kn _ _ _ (L.mono 0) hh
  · intro hz
    have hz : 0 ∈ q'.chain := hz
    rw [hch] at hz
    exact Nat.le_trans (hs hz) (L.mono 0 _)
  · intro hz
    have hz : 0 ∉ q'.chain := hz
    rw [hch] at hz
    show (upd s.nTop a ts) 0 ≤ m'.cur 0 (.next 0)
    rw [hnt 0 (fun e => hz (e ▸ ha))]
    exact Nat.le_trans (hm hz) (L.mono 0 _)
  · show m'.log _ = 0; rw [L.log]; exact hd

end Verif.MpscRA
