import Verif.Listener.Gate
/-! The counters are right in every reachable state. -/
namespace Verif.Listener
open Verif.Common

theorem Gate.fail {s : S} (g : Gate s) (b : Bad) : Gate (s.fail b) := g.same rfl rfl rfl rfl rfl

theorem gate_sdGo {s s1 : S} (g : Gate s) {t : Nat} {i : Option Nat} (h : sdGo s t i = some s1) : Gate s1 := by
  unfold sdGo at h
  split at h
  · cases h
    exact g.same rfl rfl rfl rfl rfl
  · split at h
    · cases h
    · rename_i x hx
      cases h
      exact g.conn (x := x) hx rfl rfl rfl (by simp [Conn.counted, S.setC]) (by simp [Conn.live, S.setC]) id Or.inl

theorem gate_accept {s s1 : S} (g : Gate s) {t : Nat} (h : accept s t = some s1) : Gate s1 := by
  unfold accept at h
  split at h
  · cases h
  split at h
  · cases h; exact g.same rfl rfl rfl rfl rfl
  split at h
  · cases h; exact g.same rfl rfl rfl (dec_inc g.lt) rfl
  split at h
  · cases h
  · rename_i hm _
    cases h
    obtain ⟨a, b, c, d, e, f⟩ := g
    have e1 : inc32 s.opn = s.opn + 1 := by
      unfold inc32
      omega
    refine ⟨?_, b, ?_, ?_, e, ?_⟩
    · simpa [List.countP_append, Conn.counted] using a
    · show inc32 s.opn = _
      rw [e1, c]
      simp [List.countP_append, Conn.live]
    · show inc32 s.opn < 2 ^ 32
      omega
    · simpa [List.countP_append, Conn.passed] using f

theorem gate_pop {s s1 : S} (g : Gate s) {t : Nat} (hq : ∀ c q x, s.queue t = .conn c :: q → s.conns[c]? = some x → x.pc = .queued)
    (h : pop s t = some s1) : Gate s1 := by
  unfold pop at h
  split at h
  · cases h
  split at h
  · cases h
  · rename_i c q e
    split at h
    · cases h
    · rename_i x hx
      split at h
      · cases h; exact g.fail _
      · cases h
        have := hq c q x e hx
        refine g.conn (x := x) (c := c) hx rfl rfl rfl ?_ ?_ ?_ ?_ <;> simp [Conn.counted, Conn.live, Conn.passed, this, S.setC]
  · rename_i q _
    split at h
    · cases h; exact g.fail _
    · exact gate_sdGo (Gate.same (s1 := { s with queue := upd s.queue t q }) g rfl rfl rfl rfl rfl) h
  · split at h
    · cases h; exact g.fail _
    · cases h; exact g.same rfl rfl rfl rfl rfl

theorem gate_enter {s s1 : S} (g : Gate s) {k : Nat} {r : Tr} (hr : s.trs[k]? = some r) (hp : r.pc = .waiting)
    (h0 : s.conns.countP Conn.counted = 0) (h : enter s k r = some s1) : Gate s1 := by
  unfold enter at h
  split at h
  · cases h; exact g.fail _
  split at h
  · cases h
    refine g.trav (r := r) hr rfl rfl rfl rfl ?_ ?_ ?_ <;> simp [Tr.counted, Tr.visits, hp, h0, S.setT]
  split at h
  · cases h
    refine g.trav (r := r) hr rfl rfl rfl rfl ?_ ?_ ?_ <;> simp [Tr.counted, Tr.visits, hp, h0, S.setT]
  · cases h; exact g.fail _

/-- Entering the loop directly, counted at the same time. -/
theorem gate_enter' {s s1 : S} (g : Gate s) {k : Nat} {r : Tr} (hr : s.trs[k]? = some r) (hp : r.pc = .idle)
    (hn : s.trs.countP Tr.counted + 1 < 2 ^ 32)
    (h0 : s.conns.countP Conn.counted = 0) (h : enter { s with word := add64 s.word 1 } k r = some s1) :
    Gate s1 ∨ s1.bad.isSome = true := by
  unfold enter at h
  split at h
  · cases h; exact Or.inr rfl
  split at h
  · cases h
    refine Or.inl (g.trav (r := r) hr rfl rfl rfl rfl ?_ ?_ ?_) <;> simp [Tr.counted, Tr.visits, hp, h0, S.setT]
    exact hn
  split at h
  · cases h
    refine Or.inl (g.trav (r := r) hr rfl rfl rfl rfl ?_ ?_ ?_) <;> simp [Tr.counted, Tr.visits, hp, h0, S.setT]
    exact hn
  · cases h; exact Or.inr rfl

theorem gate_step {s s1 : S} (g : Gate s)
    (hq : ∀ t c q x, s.queue t = .conn c :: q → s.conns[c]? = some x → x.pc = .queued) {a : Act} (h : stepA s a = some s1) :
    Gate s1 ∨ s1.bad.isSome = true := by
  cases a with
  | setMax m =>
    simp only [stepA] at h
    split at h
    · rename_i hm
      cases h
      obtain ⟨a, b, c, d, e, f⟩ := g
      exact Or.inl ⟨a, b, c, d, hm.1, f⟩
    · cases h
  | setPause b =>
    simp only [stepA] at h
    split at h
    · cases h; exact Or.inl (g.same rfl rfl rfl rfl rfl)
    · cases h
  | accept t => exact Or.inl (gate_accept g h)
  | pop t =>
    simp only [stepA] at h
    split at h
    · exact Or.inl (gate_pop g (hq t) h)
    · cases h
  | migBegin c d =>
    simp only [stepA, migBegin] at h
    split at h
    · cases h
    rename_i x hx
    split at h
    · cases h
    rename_i hc
    split at h
    · cases h; exact Or.inl (g.fail _)
    split at h
    · cases h; exact Or.inl g
    · cases h
      have hp : x.pc = .running := Classical.byContradiction fun hn => hc (Or.inl hn)
      refine Or.inl (g.conn (x := x) hx rfl rfl rfl ?_ ?_ ?_ ?_) <;> simp [Conn.counted, Conn.live, Conn.passed, hp, S.setC]
  | migAdd c =>
    simp only [stepA, migAdd] at h
    split at h
    · cases h
    rename_i x hx
    split at h
    · rename_i d hp
      split at h
      · cases h
      split at h
      · cases h; exact Or.inl (g.fail _)
      · cases h
        have gl := gate_low g
        refine Or.inl (g.conn (x := x) hx rfl rfl rfl ?_ ?_ ?_ ?_)
        · by_cases hw : s.word % 2 ^ 32 = 0
          · simp [Conn.counted, hp, if_pos hw]
          · simp [Conn.counted, hp, if_neg hw]
        · by_cases hw : s.word % 2 ^ 32 = 0
          · simp [Conn.live, hp, if_pos hw, S.setC]
          · simp [Conn.live, hp, if_neg hw, S.setC]
        · simp [Conn.live, hp]
        · by_cases hw : s.word % 2 ^ 32 = 0
          · exact fun _ => Or.inr (gl.1 hw)
          · simp [Conn.passed, if_neg hw]
    · cases h
  | migBack c =>
    simp only [stepA, migBack] at h
    split at h
    · cases h
    rename_i x hx
    split at h
    · rename_i d hp
      split at h
      · cases h
      split at h
      · cases h; exact Or.inl (g.fail _)
      · cases h
        refine Or.inl (g.conn (x := x) hx rfl rfl rfl ?_ ?_ ?_ ?_) <;> simp [Conn.counted, Conn.live, Conn.passed, hp, S.setC]
    · cases h
  | migUnlink c =>
    simp only [stepA, migUnlink] at h
    split at h
    · cases h
    rename_i x hx
    split at h
    · rename_i d hp
      split at h
      · cases h
      split at h
      · cases h
        refine Or.inl (g.conn (x := x) hx rfl rfl rfl ?_ ?_ ?_ ?_) <;> simp [Conn.counted, Conn.live, Conn.passed, hp, S.setC]
      · cases h; exact Or.inl (g.fail _)
      · cases h; exact Or.inl (g.fail _)
    · cases h
  | migArrive c =>
    simp only [stepA, migArrive] at h
    split at h
    · cases h
    rename_i x hx
    split at h
    · rename_i d hp
      split at h
      · cases h
      split at h
      · cases h
        refine Or.inl (g.conn (x := x) hx rfl rfl rfl ?_ ?_ ?_ ?_) <;> simp [Conn.counted, Conn.live, Conn.passed, hp, S.setC]
      · cases h
        refine Or.inl (g.conn (x := x) hx rfl rfl rfl ?_ ?_ ?_ ?_) <;> simp [Conn.counted, Conn.live, Conn.passed, hp, S.setC]
    · cases h
  | migRelease c =>
    simp only [stepA, migRelease] at h
    split at h
    · cases h
    rename_i x hx
    split at h
    · rename_i hp
      split at h
      · cases h
      split at h
      · cases h; exact Or.inl (g.fail _)
      · cases h
        refine Or.inl (g.conn (x := x) hx rfl rfl rfl ?_ ?_ ?_ ?_) <;> simp [Conn.counted, Conn.live, Conn.passed, hp, S.setC]
    · cases h
  | finish c =>
    simp only [stepA, finish] at h
    split at h
    · cases h
    rename_i x hx
    split at h
    · rename_i hp
      split at h
      · cases h
      split at h
      · cases h; exact Or.inl (g.fail _)
      · cases h
        refine Or.inl (g.conn (x := x) hx rfl rfl rfl ?_ ?_ ?_ ?_) <;> simp [Conn.counted, Conn.live, Conn.passed, hp, S.setC]
    · cases h
  | close c =>
    simp only [stepA, close] at h
    split at h
    · cases h
    rename_i x hx
    split at h
    · rename_i hp
      split at h
      · cases h
      split at h
      · cases h; exact Or.inl (g.fail _)
      split at h
      · cases h
        refine Or.inl (g.conn (x := x) hx rfl rfl rfl ?_ ?_ ?_ ?_) <;> simp [Conn.counted, Conn.live, Conn.passed, hp, S.setC]
      split at h
      · cases h; exact Or.inl (g.fail _)
      · cases h
        refine Or.inl (g.conn (x := x) hx rfl rfl rfl ?_ ?_ ?_ ?_) <;> simp [Conn.counted, Conn.live, Conn.passed, hp, S.setC]
    · cases h
  | callAll =>
    simp only [stepA, callAll] at h
    split at h
    · cases h
    · cases h
      obtain ⟨a, b, c, d, e, f⟩ := g
      have z : ∀ (p : Tr → Bool), (∀ t l, p ⟨t, l, none, .idle, []⟩ = false) →
          ((List.range s.n).map fun t => (⟨t, 2 ^ 32 - 1, none, .idle, []⟩ : Tr)).countP p = 0 := by
        intro p hp
        rw [List.countP_eq_zero]
        intro r hr
        rw [List.mem_map] at hr
        obtain ⟨t, _, rfl⟩ := hr
        rw [hp]
        simp
      refine Or.inl ⟨?_, ?_, c, d, e, ?_⟩
      · show s.word = _
        rw [List.countP_append, z _ (fun _ _ => rfl), Nat.add_zero]
        exact a
      · show List.countP _ _ < _
        rw [List.countP_append, z _ (fun _ _ => rfl), Nat.add_zero]
        exact b
      · show 0 < List.countP _ _ → _
        rw [List.countP_append, z _ (fun _ _ => rfl), Nat.add_zero]
        exact f
  | callOne t l fr =>
    simp only [stepA, callOne] at h
    split at h
    · cases h
    · cases h
      obtain ⟨a, b, c, d, e, f⟩ := g
      refine Or.inl ⟨?_, ?_, c, d, e, ?_⟩
      · show s.word = _
        rw [List.countP_append]
        exact a
      · show List.countP _ _ < _
        rw [List.countP_append]
        exact b
      · show 0 < List.countP _ _ → _
        rw [List.countP_append]
        exact f
  | trAdd k =>
    simp only [stepA, trAdd] at h
    split at h
    · cases h
    rename_i r hr
    split at h
    · cases h
    rename_i hc
    have hp : r.pc = .idle := Classical.byContradiction fun hn => hc (Or.inl hn)
    have hn : s.trs.countP Tr.counted + 1 < 2 ^ 32 := by
      have : ¬ s.trs.countP Tr.counted + 1 ≥ 2 ^ 32 := fun hn => hc (Or.inr (Or.inr hn))
      omega
    split at h
    · cases h; exact Or.inl (g.fail _)
    split at h
    · cases h
      refine Or.inl (g.trav (r := r) hr rfl rfl rfl rfl ?_ ?_ ?_) <;> simp [Tr.counted, Tr.visits, hp, S.setT]
    · split at h
      · rename_i hw
        exact gate_enter' g hr hp hn ((gate_high g).1 hw) h
      · cases h
        refine Or.inl (g.trav (r := r) hr rfl rfl rfl rfl ?_ ?_ ?_) <;> simp [Tr.counted, Tr.visits, hp, S.setT]
        exact hn
  | trCheck k =>
    simp only [stepA, trCheck] at h
    split at h
    · cases h
    rename_i r hr
    split at h
    · cases h
    rename_i hc
    have hp : r.pc = .waiting := Classical.byContradiction fun hn => hc (Or.inl hn)
    split at h
    · cases h; exact Or.inl (g.fail _)
    split at h
    · rename_i hw
      exact Or.inl (gate_enter g hr hp ((gate_high g).1 hw) h)
    · cases h; exact Or.inl g
  | trVisit k =>
    simp only [stepA, trVisit] at h
    split at h
    · cases h
    rename_i r hr
    split at h
    · rename_i cur hp
      split at h
      · split at h
        · cases h
          refine Or.inl (g.trav (r := r) hr rfl rfl rfl rfl ?_ ?_ ?_) <;> simp [Tr.counted, Tr.visits, hp, S.setT]
        · cases h
          refine Or.inl (g.trav (r := r) hr rfl rfl rfl rfl ?_ ?_ ?_) <;> simp [Tr.counted, Tr.visits, hp, S.setT]
      · cases h
        refine Or.inl (g.trav (r := r) hr rfl rfl rfl rfl ?_ ?_ ?_) <;> simp [Tr.counted, Tr.visits, hp, S.setT]
    · cases h
  | stop =>
    simp only [stepA, stop] at h
    split at h
    · cases h
    · cases h; exact Or.inl (g.same rfl rfl rfl rfl rfl)
  | sdNext t =>
    simp only [stepA, sdNext] at h
    split at h
    · cases h
    split at h
    · split at h
      · split at h
        · exact Or.inl (gate_sdGo g h)
        · split at h
          · exact Or.inl (gate_sdGo g h)
          · cases h; exact Or.inl (g.fail _)
      · cases h
    · cases h
  | stop2 =>
    simp only [stepA, stop2] at h
    split at h
    · cases h; exact Or.inl (g.same rfl rfl rfl rfl rfl)
    · cases h
  | emptied t =>
    simp only [stepA, emptied] at h
    split at h
    · cases h
    split at h
    · cases h; exact Or.inl (g.same rfl rfl rfl rfl rfl)
    · cases h
  | post =>
    simp only [stepA, post] at h
    split at h
    · cases h; exact Or.inl (g.same rfl rfl rfl rfl rfl)
    · cases h
  | destroy =>
    simp only [stepA, destroy] at h
    split at h
    · cases h; exact Or.inl (g.same rfl rfl rfl rfl rfl)
    · cases h

end Verif.Listener
