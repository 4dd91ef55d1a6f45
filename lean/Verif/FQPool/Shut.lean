import Verif.FQPool.Wait
/-! `Shutdown`. -/
namespace Verif.FQPool
open Verif.Common

/-- Whether worker `j` has been told to close. -/
def Phase.closedAt : Phase → Nat → Bool
  | .opn, _ => false
  | .close k, j => j < k
  | .ntf k, j => j ≤ k
  | .join _, _ => true
  | .down, _ => true

structure InvC (s : S) : Prop where
  cl : ∀ (k : Nat) (w : W), s.ws[k]? = some w → w.closed = s.phase.closedAt k
  gone : ∀ (k : Nat) (w : W), s.ws[k]? = some w → w.pc = .gone → w.closed = true
  joined : ∀ (k j : Nat) (w : W), s.phase = .join k → j < k → s.ws[j]? = some w → w.pc = .gone
  down : ∀ (j : Nat) (w : W), s.phase = .down → s.ws[j]? = some w → w.pc = .gone
  out : s.phase ≠ .opn → ∀ (c : Nat) (pc : CPc), s.cs[c]? = some pc → pc.out = true
  slc : ∀ (k e : Nat) (w : W), s.ws[k]? = some w → w.pc = .sleep e → w.closed = true → w.pullE = e → s.phase = .ntf k
  kn : ∀ k : Nat, s.phase = .ntf k → k < s.ws.length

/-- A worker moves: its flag stays. -/
theorem InvC.w {s s' : S} (hi : InvC s) {k} {w w' : W} (hw : s.ws[k]? = some w) (hws : s'.ws = s.ws.set k w') (hn : w.pc ≠ .gone) (h0 : w'.closed = w.closed)
    (h1 : w'.pc = .gone → w.closed = true) (h2 : ∀ e, w'.pc ≠ .sleep e ∨ w'.closed = false)
    (hcs : s'.cs = s.cs) (hp : s'.phase = s.phase) : InvC s' where
  cl := by
    rw [hws, hp]
    intro j v hj
    rcases get_set hj with ⟨rfl, rfl⟩ | ⟨_, h⟩
    · rw [h0]; exact hi.cl _ _ hw
    · exact hi.cl _ _ h
  gone := by
    rw [hws]
    intro j v hj hg
    rcases get_set hj with ⟨rfl, rfl⟩ | ⟨_, h⟩
    · rw [h0]; exact h1 hg
    · exact hi.gone _ _ h hg
  joined := by
    rw [hws, hp]
    intro j i v hj hlt hv
    rcases get_set hv with ⟨rfl, rfl⟩ | ⟨_, h⟩
    · exact absurd (hi.joined _ _ _ hj hlt hw) hn
    · exact hi.joined _ _ _ hj hlt h
  down := by
    rw [hws, hp]
    intro i v hj hv
    rcases get_set hv with ⟨rfl, rfl⟩ | ⟨_, h⟩
    · exact absurd (hi.down _ _ hj hw) hn
    · exact hi.down _ _ hj h
  out := by rw [hp, hcs]; exact hi.out
  slc := by
    rw [hws, hp]
    intro j e v hj h3 h4 h5
    rcases get_set hj with ⟨rfl, rfl⟩ | ⟨_, h⟩
    · rcases h2 e with h | h
      · exact absurd h3 h
      · rw [h] at h4; cases h4
    · exact hi.slc _ _ _ h h3 h4 h5
  kn := by rw [hws, hp, List.length_set]; exact hi.kn

/-- A caller inside `Add` moves: the pool is open. -/
theorem InvC.c {s s' : S} (hi : InvC s) {c : Nat} {pc : CPc} (hc : s.cs[c]? = some pc) (ho : pc.out = false)
    (hws : ∀ (k : Nat) (w' : W), s'.ws[k]? = some w' → ∃ w, s.ws[k]? = some w ∧ w'.closed = w.closed ∧ w'.pc = w.pc)
    (hp : s'.phase = s.phase) : InvC s' := by
  have hopn : s.phase = .opn := by
    apply Classical.byContradiction
    intro h
    have := hi.out h _ _ hc
    rw [ho] at this; cases this
  refine ⟨?_, ?_, ?_, ?_, ?_, ?_, by intro k h; rw [hp, hopn] at h; cases h⟩
  · intro k w' hk
    obtain ⟨w, h1, h2, _⟩ := hws k w' hk
    rw [hp, h2]; exact hi.cl _ _ h1
  · intro k w' hk hg
    obtain ⟨w, h1, h2, h3⟩ := hws k w' hk
    rw [h2]; exact hi.gone _ _ h1 (h3 ▸ hg)
  · intro k j w h; rw [hp, hopn] at h; cases h
  · intro j w h; rw [hp, hopn] at h; cases h
  · intro h; rw [hp, hopn] at h; exact absurd rfl h
  · intro k e w' hk hg hcl
    obtain ⟨w, h1, h2, h3⟩ := hws k w' hk
    have := hi.cl _ _ h1
    rw [hopn, ← h2, hcl] at this; cases this

theorem same_ws {l : List W} : ∀ (k : Nat) (w' : W), l[k]? = some w' → ∃ w, l[k]? = some w ∧ w'.closed = w.closed ∧ w'.pc = w.pc :=
  fun _ w' h => ⟨w', h, rfl, rfl⟩

theorem set_ws {l : List W} {i : Nat} {w v : W} (hw : l[i]? = some w) (h1 : v.closed = w.closed) (h2 : v.pc = w.pc) :
    ∀ (k : Nat) (w' : W), (l.set i v)[k]? = some w' → ∃ w, l[k]? = some w ∧ w'.closed = w.closed ∧ w'.pc = w.pc := by
  intro k w' h
  rcases get_set h with ⟨rfl, rfl⟩ | ⟨_, h⟩
  · exact ⟨w, hw, h1, h2⟩
  · exact ⟨w', h, rfl, rfl⟩

theorem InvC.callNew {s s' : S} (hi : InvC s) (hopn : s.phase = .opn) (hws : s'.ws = s.ws) (hp : s'.phase = s.phase) : InvC s' where
  cl := by rw [hws, hp]; exact hi.cl
  gone := by rw [hws]; exact hi.gone
  joined := by intro k j w h; rw [hp, hopn] at h; cases h
  down := by intro j w h; rw [hp, hopn] at h; cases h
  out := by intro h; rw [hp, hopn] at h; exact absurd rfl h
  slc := by rw [hws, hp]; exact hi.slc
  kn := by rw [hws, hp]; exact hi.kn

theorem invC_init {s : S} (h : Init s) : InvC s := by
  obtain ⟨n, cap, m, hn, hc, rfl⟩ := h
  have hw : ∀ (k : Nat) (w : W), (S.new n cap m).ws[k]? = some w → w = ⟨[], false, 0, 0, .try0⟩ := by
    intro k w hk
    exact List.eq_of_mem_replicate (List.mem_of_getElem? hk)
  refine ⟨?_, ?_, ?_, ?_, ?_, ?_, by intro k h; cases h⟩
  · intro k w hk; rw [hw k w hk]; rfl
  · intro k w hk hg; rw [hw k w hk] at hg; cases hg
  · intro k j w h; cases h
  · intro j w h; cases h
  · intro h; exact absurd rfl h
  · intro k e w hk hg; rw [hw k w hk] at hg; cases hg

theorem invC_mv {s s' : S} (hb : InvB s) (hi : InvC s) (h : Mv s s') : InvC s' := by
  cases h with
  | add h => exact hi.callNew h rfl rfl
  | addTo h => exact hi.callNew h rfl rfl
  | prep hc => exact hi.c hc rfl same_ws rfl
  | enq hc hw => exact hi.c hc rfl (set_ws hw rfl rfl) rfl
  | nxt hc => exact hi.c hc rfl same_ws rfl
  | slp hc => exact hi.c hc rfl same_ws rfl
  | retry hc => exact hi.c hc rfl same_ws rfl
  | cntf hc hw => exact hi.c hc rfl (set_ws hw rfl rfl) rfl
  | wake hc => exact hi.c hc rfl same_ws rfl
  | @done c x hc =>
    refine ⟨hi.cl, hi.gone, hi.joined, hi.down, ?_, hi.slc, hi.kn⟩
    intro h d v hd
    rcases get_set (show (s.cs.set c _)[d]? = some v from hd) with ⟨rfl, rfl⟩ | ⟨_, h'⟩
    · rfl
    · exact hi.out h d v h'
  | take hw hq hp =>
    refine hi.w hw rfl ?_ rfl (fun h => by cases h) (fun e => .inl (fun h => by cases h)) rfl rfl
    rcases hp with hp | ⟨e, hp⟩ | ⟨e, hp, _⟩ <;> rw [hp] <;> exact WPc.noConfusion
  | empty0 hw hp =>
    exact hi.w hw rfl (by rw [hp]; exact WPc.noConfusion) rfl (fun h => by cases h) (fun e => .inl (fun h => by cases h)) rfl rfl
  | empty1 hw hp =>
    exact hi.w hw rfl (by rw [hp]; exact WPc.noConfusion) rfl (fun h => by cases h) (fun e => .inl (fun h => by cases h)) rfl rfl
  | exit hw hp hc =>
    refine hi.w hw rfl ?_ rfl (fun _ => hc) (fun e => .inl (fun h => by cases h)) rfl rfl
    rcases hp with hp | ⟨e, hp⟩ <;> rw [hp] <;> exact WPc.noConfusion
  | stay hw hp =>
    exact hi.w hw rfl (by rw [hp]; exact WPc.noConfusion) rfl (fun h => by cases h) (fun e => .inl (fun h => by cases h)) rfl rfl
  | wslp hw hp hc =>
    exact hi.w hw rfl (by rw [hp]; exact WPc.noConfusion) rfl (fun h => by cases h) (fun e => .inr hc) rfl rfl
  | wprep hw hp =>
    exact hi.w hw rfl (by rw [hp]; exact WPc.noConfusion) rfl (fun h => by cases h) (fun e => .inl (fun h => by cases h)) rfl rfl
  | wwake hw hp =>
    exact hi.w hw rfl (by rw [hp]; exact WPc.noConfusion) rfl (fun h => by cases h) (fun e => .inl (fun h => by cases h)) rfl rfl
  | full hw hp =>
    exact hi.w hw rfl (by rw [hp]; exact WPc.noConfusion) rfl (fun h => by cases h) (fun e => .inl (fun h => by cases h)) rfl rfl
  | wntf hw hp =>
    exact hi.w hw rfl (by rw [hp]; exact WPc.noConfusion) rfl (fun h => by cases h) (fun e => .inl (fun h => by cases h)) rfl rfl
  | @run k w x ts hw hp =>
    exact hi.w (w' := { w with pc := .exec ts }) hw rfl (by rw [hp]; exact WPc.noConfusion) rfl (fun h => by cases h)
      (fun e => .inl (fun h => by cases h)) rfl rfl
  | again hw hp =>
    exact hi.w hw rfl (by rw [hp]; exact WPc.noConfusion) rfl (fun h => by cases h) (fun e => .inl (fun h => by cases h)) rfl rfl
  | shutdown hp ho =>
    refine ⟨?_, hi.gone, ?_, ?_, ?_, ?_, by intro k h; cases h⟩
    · intro k w hk
      have := hi.cl k w hk
      rw [hp] at this; rw [this]; simp [Phase.closedAt]
    · intro k j w h; cases h
    · intro j w h; cases h
    · intro _ c pc hc
      exact List.all_eq_true.1 ho _ (List.mem_of_getElem? hc)
    · intro k e w hk h1 h2 h3
      have := hi.cl k w hk
      rw [hp, h2] at this; cases this
  | @close k w hp hw =>
    refine ⟨?_, ?_, ?_, ?_, ?_, ?_, by intro j h; cases h; show k < (s.ws.set k _).length; rw [List.length_set]; exact lt_of_get hw⟩
    · intro j v hj
      rcases get_set (show (s.ws.set k _)[j]? = some v from hj) with ⟨rfl, rfl⟩ | ⟨hne, h⟩
      · simp [Phase.closedAt]
      · have := hi.cl j v h
        rw [hp] at this
        rw [this]
        simp only [Phase.closedAt, decide_eq_decide]
        omega
    · intro j v hj hg
      rcases get_set (show (s.ws.set k _)[j]? = some v from hj) with ⟨rfl, rfl⟩ | ⟨hne, h⟩
      · rfl
      · exact hi.gone j v h hg
    · intro k j w h; cases h
    · intro j w h; cases h
    · intro _; exact hi.out (by rw [hp]; exact Phase.noConfusion)
    · intro j e v hj h1 h2 h3
      rcases get_set (show (s.ws.set k _)[j]? = some v from hj) with ⟨rfl, rfl⟩ | ⟨hne, h⟩
      · rfl
      · have := hi.slc j e v h h1 h2 h3
        rw [hp] at this; cases this
  | @closed k hp hn =>
    refine ⟨?_, hi.gone, ?_, ?_, ?_, ?_, by intro k h; cases h⟩
    · intro j v hj
      have h1 := hi.cl j v hj
      have h2 := lt_of_get hj
      have h3 := List.getElem?_eq_none_iff.1 hn
      have h4 : j < k := Nat.lt_of_lt_of_le h2 h3
      rw [hp] at h1
      rw [h1]
      simp [Phase.closedAt, h4]
    · intro k j w h hlt; cases h; exact absurd hlt (Nat.not_lt_zero _)
    · intro j w h; cases h
    · intro _; exact hi.out (by rw [hp]; exact Phase.noConfusion)
    · intro j e v hj h1 h2 h3
      have := hi.slc j e v hj h1 h2 h3
      rw [hp] at this; cases this
  | @sntf k w hp hw =>
    refine ⟨?_, ?_, ?_, ?_, ?_, ?_, by intro k h; cases h⟩
    · intro j v hj
      have key : ∀ u : W, s.ws[j]? = some u → u.closed = (Phase.close (k + 1)).closedAt j := by
        intro u hu
        have := hi.cl j u hu
        rw [hp] at this
        rw [this]
        simp only [Phase.closedAt, decide_eq_decide]
        omega
      rcases get_set (show (s.ws.set k _)[j]? = some v from hj) with ⟨rfl, rfl⟩ | ⟨hne, h⟩
      · exact key w hw
      · exact key v h
    · intro j v hj hg
      rcases get_set (show (s.ws.set k _)[j]? = some v from hj) with ⟨rfl, rfl⟩ | ⟨hne, h⟩
      · have := hi.gone _ _ hw hg; exact this
      · exact hi.gone j v h hg
    · intro k j w h; cases h
    · intro j w h; cases h
    · intro _; exact hi.out (by rw [hp]; exact Phase.noConfusion)
    · intro j e v hj h1 h2 h3
      exfalso
      rcases get_set (show (s.ws.set k _)[j]? = some v from hj) with ⟨rfl, rfl⟩ | ⟨hne, h⟩
      · have h4 := (hb.wok _ _ hw).1 e (by rw [show w.pc = .sleep e from h1]; rfl)
        have h5 : w.pullE + 1 = e := h3
        omega
      · have := hi.slc j e v h h1 h2 h3
        rw [hp] at this; cases this; exact hne rfl
  | @join k w hp hw hg =>
    refine ⟨?_, hi.gone, ?_, ?_, ?_, ?_, by intro k h; cases h⟩
    · intro j v hj
      have h1 := hi.cl j v hj
      rw [hp] at h1; exact h1
    · intro k' j v h hlt hv
      cases h
      rcases Nat.lt_succ_iff_lt_or_eq.1 hlt with h1 | h1
      · exact hi.joined k j v hp h1 hv
      · subst h1; rw [hw] at hv; cases hv; exact hg
    · intro j w h; cases h
    · intro _; exact hi.out (by rw [hp]; exact Phase.noConfusion)
    · intro j e v hj h1 h2 h3
      have := hi.slc j e v hj h1 h2 h3
      rw [hp] at this; cases this
  | @down k hp hn =>
    refine ⟨?_, hi.gone, ?_, ?_, ?_, ?_, by intro k h; cases h⟩
    · intro j v hj
      have h1 := hi.cl j v hj
      rw [hp] at h1; exact h1
    · intro k j w h; cases h
    · intro j v _ hv
      have h2 := lt_of_get hv
      have h3 := List.getElem?_eq_none_iff.1 hn
      exact hi.joined k j v hp (Nat.lt_of_lt_of_le h2 h3) hv
    · intro _; exact hi.out (by rw [hp]; exact Phase.noConfusion)
    · intro j e v hj h1 h2 h3
      have := hi.slc j e v hj h1 h2 h3
      rw [hp] at this; cases this

theorem inv {s : S} (h : Reachable Init step s) : InvA s ∧ InvB s ∧ InvC s :=
  Reachable.invariant (fun s => InvA s ∧ InvB s ∧ InvC s) (fun _ h => ⟨invA_init h, invB_init h, invC_init h⟩)
    (fun _ _ _ hi h => ⟨invA_mv hi.1 (step_mv h), invB_mv hi.1 hi.2.1 (step_mv h), invC_mv hi.2.1 hi.2.2 (step_mv h)⟩) h

/-- No worker that was told to close has found its queue empty and got a task since. -/
def Calm (s : S) : Prop := ∀ (k : Nat) (w : W), s.ws[k]? = some w → w.closed = true → (w.pc = .cls0 ∨ ∃ e, w.pc = .cls1 e) → w.q = []

def InvD (s : S) : Prop := ∀ (k : Nat) (w : W), s.ws[k]? = some w → w.pc = .gone → w.q = []

theorem invD_w {s : S} (hi : InvD s) {k : Nat} {w' : W} (h : w'.pc = .gone → w'.q = []) : InvD (s.setW k w') := by
  intro j v hj
  rcases get_set (show (s.ws.set k _)[j]? = some v from hj) with ⟨rfl, rfl⟩ | ⟨_, h'⟩
  · exact h
  · exact hi j v h'

theorem invD_mv {s s' : S} (hc : InvC s) (hq : Calm s) (hi : InvD s) (h : Mv s s') : InvD s' := by
  cases h with
  | add => exact hi
  | addTo => exact hi
  | prep => exact hi
  | @enq c k i rest x e aw w hk hw =>
    have : InvD (s.setW i { w with q := w.q ++ [x] }) := by
      refine invD_w hi (fun hg => ?_)
      exfalso
      have h1 : w.closed = true := hc.gone _ _ hw hg
      have h2 : s.phase = .opn := by
        apply Classical.byContradiction
        intro h
        have := hc.out h _ _ hk
        cases this
      have h3 := hc.cl _ _ hw
      rw [h2, h1] at h3; cases h3
    exact this
  | nxt => exact hi
  | slp => exact hi
  | retry => exact hi
  | cntf _ hw => exact invD_w hi (by have := hi _ _ hw; exact this)
  | wake => exact hi
  | done => exact hi
  | take => exact invD_w hi (fun h => by cases h)
  | empty0 => exact invD_w hi (fun h => by cases h)
  | empty1 => exact invD_w hi (fun h => by cases h)
  | exit hw hp hcl => exact invD_w hi (fun _ => by have := hq _ _ hw hcl hp; exact this)
  | stay => exact invD_w hi (fun h => by cases h)
  | wslp => exact invD_w hi (fun h => by cases h)
  | wprep => exact invD_w hi (fun h => by cases h)
  | wwake => exact invD_w hi (fun h => by cases h)
  | full => exact invD_w hi (fun h => by cases h)
  | wntf => exact invD_w hi (fun h => by cases h)
  | @run k w x ts => exact invD_w (w' := { w with pc := .exec ts }) hi (fun h => by cases h)
  | again => exact invD_w hi (fun h => by cases h)
  | shutdown => exact hi
  | @close k w _ hw => exact invD_w (w' := { w with closed := true }) hi (by have := hi _ _ hw; exact this)
  | closed => exact hi
  | @sntf k w _ hw => exact invD_w (w' := { w with pullE := w.pullE + 1 }) hi (by have := hi _ _ hw; exact this)
  | join => exact hi
  | down => exact hi

theorem invD {s : S} (h : Reach Init step Calm s) : InvC s ∧ InvD s := by
  have := Reach.invariant (fun s => (InvA s ∧ InvB s ∧ InvC s) ∧ InvD s) ?_ ?_ h
  · exact ⟨this.1.2.2, this.2⟩
  · intro s h0 _
    refine ⟨⟨invA_init h0, invB_init h0, invC_init h0⟩, ?_⟩
    obtain ⟨n, cap, m, hn, hc, rfl⟩ := h0
    intro k w hk
    rw [List.eq_of_mem_replicate (List.mem_of_getElem? (show (List.replicate n (W.mk [] false 0 0 .try0))[k]? = some w from hk))]
    exact fun _ => rfl
  · intro s a s' hi hq hst _
    have hm := step_mv hst
    exact ⟨⟨invA_mv hi.1.1 hm, invB_mv hi.1.1 hi.1.2.1 hm, invC_mv hi.1.2.1 hi.1.2.2 hm⟩, invD_mv hi.1.2.2 hq hi.2 hm⟩

end Verif.FQPool
