import Verif.Listener.All
/-! What a step can do to the number of open connections and to the connections behind the gate. -/
namespace Verif.Listener
open Verif.Common

theorem open_eq (s : S) : s.open = s.conns.countP Conn.live := rfl

theorem moving_iff {x : Conn} : x.moving ↔ x.passed = true := by
  unfold Conn.moving Conn.passed
  cases x.pc <;> simp

theorem gate_iff {x : Conn} : x.atGate ↔ x.counted = true := by
  unfold Conn.atGate Conn.moving Conn.counted
  cases x.pc <;> simp

/-- Between two places, or linked on its own thread. -/
def Conn.placed (x : Conn) : Prop := x.pc = .queued ∨ x.pc = .gone ∨ (∃ d, x.pc = .transit d) ∨ x.hook = some x.th

/-- What a step does to the connections. -/
def CShape (s s1 : S) (a : Act) : Prop :=
  s1.conns = s.conns ∨
  (∃ (c : Nat) (x y : Conn), s.conns[c]? = some x ∧ s1.conns = s.conns.set c y ∧ x.pc ≠ .gone ∧
    (y.passed = true → x.passed = true ∨ s.word % 2 ^ 32 = 0) ∧
    (y.placed ∨ (y.hook = x.hook ∧ y.th = x.th ∧ x.pc ≠ .queued ∧ x.pc ≠ .gone ∧ ∀ d, x.pc ≠ .transit d) ∨
      (s.phase ≠ .accepting ∧ s.phase ≠ .stop1))) ∨
  (∃ t, a = .accept t ∧ s.opn < s.max ∧ s.pause = false ∧ s1.conns = s.conns ++ [⟨t, .queued, none, false⟩])

theorem sdGo_conns {s s0 s1 : S} (st : Str s) {t : Nat} {l : List Nat} {i : Option Nat} {a : Act} (hc : s0.conns = s.conns)
    (hl : s.lists t = some l) (hi : ∀ c, i = some c → c ∈ l) (h : sdGo s0 t i = some s1) : CShape s s1 a := by
  unfold sdGo at h
  split at h
  · cases h; exact Or.inl hc
  · rename_i c
    split at h
    · cases h
    · rename_i x hx
      cases h
      rw [hc] at hx
      obtain ⟨z, hz, hh⟩ := (st.l.mem t l c hl).1 (hi c rfl)
      rw [hx] at hz
      cases hz
      have hk := (st.c c x hx).hook t hh
      exact Or.inr (Or.inl ⟨c, x, { x with shut := true }, hx, by simp [S.setC, hc], hk.2.2.1, fun h => Or.inl h,
        Or.inr (Or.inl ⟨rfl, rfl, hk.2⟩)⟩)

theorem enter_conns {s s1 : S} {k : Nat} {r : Tr} (h : enter s k r = some s1) : s1.conns = s.conns := by
  unfold enter at h
  repeat' split at h
  all_goals first | (cases h; done) | (cases h; rfl)

theorem head_mem {l : List Nat} {c : Nat} (h : l.head? = some c) : c ∈ l := by
  cases l with
  | nil => cases h
  | cons a l => simp at h; simp [h]

theorem after_mem {l : List Nat} {b c : Nat} (h : after l b = some c) : c ∈ l := by
  unfold after at h
  have := head_mem h
  exact (List.dropWhile_sublist _).subset (List.mem_of_mem_tail this)

theorem conns_shape {s s1 : S} (st : Str s) {a : Act} (h : stepA s a = some s1) : CShape s s1 a := by
  cases a with
  | setMax m =>
    simp only [stepA] at h
    split at h <;> cases h
    exact Or.inl rfl
  | setPause b =>
    simp only [stepA] at h
    split at h <;> cases h
    exact Or.inl rfl
  | accept t =>
    simp only [stepA, accept] at h
    split at h
    · cases h
    split at h
    · cases h; exact Or.inl rfl
    rename_i hpz
    split at h
    · cases h; exact Or.inl rfl
    rename_i hlt
    split at h
    · cases h
    · cases h
      exact Or.inr (Or.inr ⟨t, rfl, by omega, by simpa using hpz, rfl⟩)
  | pop t =>
    simp only [stepA, pop] at h
    split at h
    · split at h
      · cases h
      split at h
      · cases h
      · rename_i c q e
        obtain ⟨x, hx, hp, hq1⟩ := st.q1 t c (by rw [e]; simp [mem_qc])
        rw [hx] at h
        simp only at h
        split at h
        · cases h; exact Or.inl rfl
        · cases h
          have hth : x.th = t := by assumption
          exact Or.inr (Or.inl ⟨c, x, { x with pc := .running, hook := some t }, hx, rfl, by simp [hp], by simp [Conn.passed],
            Or.inl (Or.inr (Or.inr (Or.inr (by rw [hth]))))⟩)
      · split at h
        · cases h; exact Or.inl rfl
        · rename_i l hl
          exact sdGo_conns (l := l) st (by rfl) hl (fun c hc => head_mem hc) h
      · split at h
        · cases h; exact Or.inl rfl
        · cases h; exact Or.inl rfl
    · cases h
  | migBegin c d =>
    simp only [stepA, migBegin] at h
    split at h
    · cases h
    rename_i x hx
    split at h
    · cases h
    rename_i hc
    have hp : x.pc = .running := Classical.byContradiction fun hn => hc (Or.inl hn)
    split at h
    · cases h; exact Or.inl rfl
    split at h
    · cases h; exact Or.inl rfl
    · cases h
      exact Or.inr (Or.inl ⟨c, x, _, hx, rfl, by simp [hp], by simp [Conn.passed], Or.inr (Or.inl ⟨rfl, rfl, by simp [hp], by simp [hp], by simp [hp]⟩)⟩)
  | migAdd c =>
    simp only [stepA, migAdd] at h
    split at h
    · cases h
    rename_i x hx
    split at h
    · rename_i d hp
      split at h
      · cases h
      split at h
      · cases h; exact Or.inl rfl
      · cases h
        refine Or.inr (Or.inl ⟨c, x, _, hx, rfl, by simp [hp], fun hy => ?_, Or.inr (Or.inl ⟨rfl, rfl, by simp [hp], by simp [hp], by simp [hp]⟩)⟩)
        by_cases hw : s.word % 2 ^ 32 = 0
        · exact Or.inr hw
        · rw [if_neg hw] at hy
          simp [Conn.passed] at hy
    · cases h
  | migBack c =>
    simp only [stepA, migBack] at h
    split at h
    · cases h
    rename_i x hx
    split at h
    · rename_i d hp
      split at h
      · cases h
      split at h
      · cases h; exact Or.inl rfl
      · cases h
        exact Or.inr (Or.inl ⟨c, x, _, hx, rfl, by simp [hp], by simp [Conn.passed], Or.inr (Or.inl ⟨rfl, rfl, by simp [hp], by simp [hp], by simp [hp]⟩)⟩)
    · cases h
  | migUnlink c =>
    simp only [stepA, migUnlink] at h
    split at h
    · cases h
    rename_i x hx
    split at h
    · rename_i d hp
      split at h
      · cases h
      split at h
      · cases h
        exact Or.inr (Or.inl ⟨c, x, _, hx, rfl, by simp [hp], fun _ => Or.inl (by simp [Conn.passed, hp]), Or.inl (Or.inr (Or.inr (Or.inl ⟨d, rfl⟩)))⟩)
      · cases h; exact Or.inl rfl
      · cases h; exact Or.inl rfl
    · cases h
  | migArrive c =>
    simp only [stepA, migArrive] at h
    split at h
    · cases h
    rename_i x hx
    split at h
    · rename_i d hp
      split at h
      · cases h
      split at h
      · cases h
        rename_i hn
        refine Or.inr (Or.inl ⟨c, x, _, hx, rfl, by simp [hp], fun _ => Or.inl (by simp [Conn.passed, hp]), Or.inr (Or.inr ?_)⟩)
        have sh := st.sh d ((st.c c x hx).dest d (by simp [hp]))
        unfold Shape at sh
        constructor
        · intro hph; rw [hph, hn] at sh; simp at sh
        · intro hph; rw [hph, hn] at sh; simp at sh
      · cases h
        exact Or.inr (Or.inl ⟨c, x, _, hx, rfl, by simp [hp], fun _ => Or.inl (by simp [Conn.passed, hp]), Or.inl (Or.inr (Or.inr (Or.inr rfl)))⟩)
    · cases h
  | migRelease c =>
    simp only [stepA, migRelease] at h
    split at h
    · cases h
    rename_i x hx
    split at h
    · rename_i hp
      split at h
      · cases h
      split at h
      · cases h; exact Or.inl rfl
      · cases h
        exact Or.inr (Or.inl ⟨c, x, _, hx, rfl, by simp [hp], by simp [Conn.passed], Or.inr (Or.inl ⟨rfl, rfl, by simp [hp], by simp [hp], by simp [hp]⟩)⟩)
    · cases h
  | finish c =>
    simp only [stepA, finish] at h
    split at h
    · cases h
    rename_i x hx
    split at h
    · rename_i hp
      split at h
      · cases h
      split at h
      · cases h; exact Or.inl rfl
      · cases h
        exact Or.inr (Or.inl ⟨c, x, _, hx, rfl, by simp [hp], by simp [Conn.passed], Or.inr (Or.inl ⟨rfl, rfl, by simp [hp], by simp [hp], by simp [hp]⟩)⟩)
    · cases h
  | close c =>
    simp only [stepA, close] at h
    split at h
    · cases h
    rename_i x hx
    split at h
    · rename_i hp
      split at h
      · cases h
      split at h
      · cases h; exact Or.inl rfl
      split at h
      · cases h
        exact Or.inr (Or.inl ⟨c, x, _, hx, rfl, by simp [hp], by simp [Conn.passed], Or.inl (Or.inr (Or.inl rfl))⟩)
      split at h
      · cases h; exact Or.inl rfl
      · cases h
        exact Or.inr (Or.inl ⟨c, x, _, hx, rfl, by simp [hp], by simp [Conn.passed], Or.inl (Or.inr (Or.inl rfl))⟩)
    · cases h
  | callAll =>
    simp only [stepA, callAll] at h
    split at h <;> cases h
    exact Or.inl rfl
  | callOne t l fr =>
    simp only [stepA, callOne] at h
    split at h <;> cases h
    exact Or.inl rfl
  | trAdd k =>
    simp only [stepA, trAdd] at h
    repeat' split at h
    all_goals first | (cases h; done) | exact Or.inl (by have h1 := enter_conns h; exact h1) | (cases h; exact Or.inl rfl)
  | trCheck k =>
    simp only [stepA, trCheck] at h
    repeat' split at h
    all_goals first | (cases h; done) | exact Or.inl (by have h1 := enter_conns h; exact h1) | (cases h; exact Or.inl rfl)
  | trVisit k =>
    simp only [stepA, trVisit] at h
    repeat' split at h
    all_goals first | (cases h; done) | (cases h; exact Or.inl rfl)
  | stop =>
    simp only [stepA, stop] at h
    split at h <;> cases h
    exact Or.inl rfl
  | sdNext t =>
    simp only [stepA, sdNext] at h
    split at h
    · cases h
    split at h
    · split at h
      · rename_i x l hx hl
        split at h
        · exact sdGo_conns (l := l) st rfl hl (fun c hc => head_mem hc) h
        · split at h
          · exact sdGo_conns (l := l) st rfl hl (fun c hc => after_mem hc) h
          · cases h; exact Or.inl rfl
      · cases h
    · cases h
  | stop2 =>
    simp only [stepA, stop2] at h
    split at h <;> cases h
    exact Or.inl rfl
  | emptied t =>
    simp only [stepA, emptied] at h
    repeat' split at h
    all_goals first | (cases h; done) | (cases h; exact Or.inl rfl)
  | post =>
    simp only [stepA, post] at h
    split at h <;> cases h
    exact Or.inl rfl
  | destroy =>
    simp only [stepA, destroy] at h
    split at h <;> cases h
    exact Or.inl rfl

theorem open_step {s s1 : S} (st : Str s) (g : Gate s) {a : Act} (h : stepA s a = some s1) :
    s1.open ≤ s.open ∨ (s1.open = s.open + 1 ∧ s.open < s.max) := by
  rcases conns_shape st h with e | ⟨c, x, y, hx, e, hp, _, _⟩ | ⟨t, _, ho, _, e⟩
  · left; rw [open_eq, open_eq, e]; exact Nat.le_refl _
  · left
    have := countP_set (p := Conn.live) y hx
    have hl : x.live = true := by simp [Conn.live, hp]
    rw [hl] at this
    rw [open_eq, open_eq, e]
    simp only [if_true] at this
    split at this <;> omega
  · right
    rw [g.opn] at ho
    refine ⟨?_, ho⟩
    rw [open_eq, open_eq, e, List.countP_append]
    simp [Conn.live]

theorem moving_step {s s1 : S} (st : Str s) {a : Act} (h : stepA s a = some s1) {c : Nat} {y : Conn}
    (hy : s1.conns[c]? = some y) (hm : y.passed = true) :
    (∃ x, s.conns[c]? = some x ∧ x.passed = true) ∨ s.word % 2 ^ 32 = 0 := by
  rcases conns_shape st h with e | ⟨c', x, y', hx, e, _, hp, _⟩ | ⟨t, _, _, _, e⟩
  · left; rw [e] at hy; exact ⟨y, hy, hm⟩
  · rw [e] at hy
    rcases get_set hy with ⟨rfl, rfl⟩ | ⟨_, hy⟩
    · rcases hp hm with hp | hp
      · exact Or.inl ⟨x, hx, hp⟩
      · exact Or.inr hp
    · exact Or.inl ⟨y, hy, hm⟩
  · rw [e] at hy
    rcases get_append_one hy with hy | ⟨_, rfl⟩
    · exact Or.inl ⟨y, hy, hm⟩
    · simp [Conn.passed] at hm

theorem phase_step {s s1 : S} {a : Act} (h : stepA s a = some s1) (hp : s1.phase = .accepting ∨ s1.phase = .stop1) :
    s.phase = .accepting ∨ s.phase = .stop1 := by
  cases a <;> simp only [stepA, accept, pop, migBegin, migAdd, migBack, migUnlink, migArrive, migRelease, finish, close,
    callAll, callOne, trAdd, trCheck, trVisit, stop, sdNext, stop2, emptied, post, destroy, enter, sdGo] at h <;>
  repeat' split at h
  all_goals first
    | (cases h; done)
    | (cases h; exact hp)
    | (cases h; simp only [S.setC, S.setT, S.fail] at hp; exact hp)
    | (cases h; simp at hp; done)
    | (cases h; simp_all; done)

theorem placed_of {s : S} (h : Reachable Init step s) :
    (s.phase = .accepting ∨ s.phase = .stop1) → ∀ (c : Nat) (x : Conn), s.conns[c]? = some x → x.placed := by
  refine (Reachable.invariant (fun s => Str s ∧ ((s.phase = .accepting ∨ s.phase = .stop1) →
    ∀ (c : Nat) (x : Conn), s.conns[c]? = some x → x.placed)) (fun s hi => ⟨(inv_init hi).t, ?_⟩) (fun s a s' hI hst => ?_) h).2
  · obtain ⟨n, max, _, _, rfl⟩ := hi
    simp [S.init]
  · obtain ⟨_, hst⟩ := step_eq hst
    refine ⟨str_step hI.1 hst, fun hp c x hx => ?_⟩
    have hp0 := phase_step hst hp
    have old := hI.2 hp0
    rcases conns_shape hI.1 hst with e | ⟨c', x', y, hx', e, _, _, hk⟩ | ⟨t, _, _, _, e⟩
    · rw [e] at hx; exact old c x hx
    · rw [e] at hx
      rcases get_set hx with ⟨rfl, rfl⟩ | ⟨_, hx⟩
      · rcases hk with hk | ⟨h1, h2, h3, h4, h5⟩ | ⟨h1, h2⟩
        · exact hk
        · rcases old _ x' hx' with h | h | ⟨d, h⟩ | h
          · exact absurd h h3
          · exact absurd h h4
          · exact absurd h (h5 d)
          · exact Or.inr (Or.inr (Or.inr (by rw [h1, h2]; exact h)))
        · rcases hp0 with h | h
          · exact absurd h h1
          · exact absurd h h2
      · exact old c x hx
    · rw [e] at hx
      rcases get_append_one hx with hx | ⟨_, rfl⟩
      · exact old c x hx
      · exact Or.inl rfl

end Verif.Listener
