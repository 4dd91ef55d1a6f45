import Verif.Share.Model
/-!
# Invariants of the sharing of a thread's time
-/
namespace Verif.Share
open Verif.Common

/-- Queues hold fibers of their priority, and a round runs fibers of its priority. -/
structure Q (p : Par) (s : S) : Prop where
  rb : ∀ f ∈ s.rb, p.prio f = .background
  rn : ∀ f ∈ s.rn, p.prio f ≠ .background
  out : s.pc = .out → s.act = 0
  act : ∀ c bg, s.pc = .round c bg → s.act ≠ 0 → (p.prio s.act = .background ↔ bg = true)

/-- The clock. -/
structure T (p : Par) (s : S) : Prop where
  le : s.last ≤ s.now
  st : ∀ c bg, s.pc = .round c bg → s.start ≤ s.last ∧ s.took = s.last - s.start ∧ s.now ≤ s.last + p.D
  nr : ∀ c, s.pc = .round c false → s.now ≤ s.start + p.R
  bg : ∀ c, s.pc = .round c true → s.last ≤ s.start + s.budget + p.D
  on : ∀ c, s.pc = .round c true → s.act ≠ 0 → s.last ≤ s.start + s.budget

/-- How long background fibers have waited. -/
def W (p : Par) (s : S) : Prop :=
  match s.pc with
  | .out => (s.waited ≤ s.rtN ∨ s.rtN = 0 ∧ s.rtB = 0) ∧ 2 * s.waited ≤ 5 * p.slice + 2 * p.R
  | .round _ false => s.waited ≤ s.rtN ∧ 2 * s.waited ≤ 5 * p.slice ∨
      s.rtN = 0 ∧ s.rtB = 0 ∧ 2 * s.waited ≤ 5 * p.slice + 2 * p.R
  | .round _ true => s.waited = 0

/-- A background round of a busy thread takes at most that long. -/
def longest (p : Par) (c : Config) : Nat := p.fromUs (c.budgetBackground / 1000) + p.D

/-- The share of background fibers on a busy thread. -/
structure H (p : Par) (c0 : Config) (s : S) : Prop where
  cfg : s.busy = true → s.cfg = c0
  bud : s.busy = true → ∀ c, s.pc = .round c true → c = false ∧ s.budget = p.fromUs (c0.budgetBackground / 1000)
  cur : s.busy = true → 100 * s.rtB ≤ c0.warrantPct * (s.rtN + s.rtB) + (if ∃ c, s.pc = .round c true then 0 else 100 * longest p c0)
  old : s.busy = true → ∃ oN oB, s.totN = oN + s.rtN ∧ s.totB = oB + s.rtB ∧
    100 * oB ≤ c0.warrantPct * (oN + oB) + 100 * (s.resets * longest p c0) ∧ s.resets * p.slice ≤ oN + oB

structure Inv (p : Par) (c0 : Config) (s : S) : Prop where
  q : Q p s
  t : T p s
  w : W p s
  h : H p c0 s

variable {p : Par} {c0 : Config} {s : S}

/-- What holds between the restart of the count and the first switch. -/
structure Pre (p : Par) (c0 : Config) (s : S) : Prop where
  rb : ∀ f ∈ s.rb, p.prio f = .background
  rn : ∀ f ∈ s.rn, p.prio f ≠ .background
  act : s.act = 0
  le : s.last ≤ s.now
  w : s.waited ≤ s.rtN ∧ 2 * s.waited ≤ 5 * p.slice ∨ s.rtN = 0 ∧ s.rtB = 0 ∧ 2 * s.waited ≤ 5 * p.slice + 2 * p.R
  cfg : s.busy = true → s.cfg = c0
  cur : s.busy = true → 100 * s.rtB ≤ c0.warrantPct * (s.rtN + s.rtB) + 100 * longest p c0
  old : s.busy = true → ∃ oN oB, s.totN = oN + s.rtN ∧ s.totB = oB + s.rtB ∧
    100 * oB ≤ c0.warrantPct * (oN + oB) + 100 * (s.resets * longest p c0) ∧ s.resets * p.slice ≤ oN + oB

theorem pre_reset (h : Inv p c0 s) (ho : s.pc = .out) : Pre p c0 (resetCount p s) := by
  obtain ⟨hq, ht, hw, hh⟩ := h
  have hcur := hh.cur
  simp only [W, ho] at hw
  simp only [ho, reduceCtorEq, exists_false, if_false] at hcur
  unfold resetCount
  split
  · split
    · rename_i h1 h2
      refine ⟨hq.rb, hq.rn, hq.out ho, ht.le, .inr ⟨rfl, rfl, hw.2⟩, hh.cfg, fun _ => by simp, fun hb => ?_⟩
      obtain ⟨oN, oB, e1, e2, e3, e4⟩ := hh.old hb
      have hc := hcur hb
      refine ⟨s.totN, s.totB, rfl, rfl, ?_, ?_⟩
      · dsimp only
        rw [e1, e2]
        simp only [Nat.mul_add, Nat.add_mul, Nat.one_mul] at *
        omega
      · dsimp only
        rw [e1, e2]
        simp only [Nat.add_mul, Nat.one_mul]
        omega
    · rename_i h1 h2
      refine ⟨hq.rb, hq.rn, hq.out ho, ht.le, ?_, hh.cfg, hcur, hh.old⟩
      rcases hw with ⟨h3 | h3, h4⟩
      · exact .inl ⟨h3, by omega⟩
      · exact .inr ⟨h3.1, h3.2, h4⟩
  · refine ⟨hq.rb, hq.rn, hq.out ho, ht.le, ?_, hh.cfg, hcur, hh.old⟩
    rcases hw with ⟨h3 | h3, h4⟩
    · exact .inl ⟨h3, by omega⟩
    · exact .inr ⟨h3.1, h3.2, h4⟩

/-- The facts about a round do not depend on the queues. -/
theorem inv_begin_bg (callBg : Bool) (h : Pre p c0 s) (hne : s.rb ≠ [])
    (hc : s.busy = true → callBg = false → 100 * s.rtB ≤ c0.warrantPct * (s.rtN + s.rtB)) :
    Inv p c0 (beginRound p callBg true s) := by
  obtain ⟨f, l, hl⟩ := List.exists_cons_of_ne_nil hne
  have hr := h.rb
  rw [hl] at hr
  simp only [beginRound, popSwitch, hl, if_true, Bool.and_true]
  refine ⟨⟨?_, h.rn, ?_, ?_⟩, ⟨Nat.le_refl _, ?_, ?_, ?_, ?_⟩, ?_, ⟨?_, ?_, ?_, ?_⟩⟩
  · exact fun g hg => hr g (List.mem_cons_of_mem _ hg)
  · simp
  · intro c bg hpc _
    cases hpc
    simpa using hr f (List.mem_cons_self ..)
  · intro c bg _; exact ⟨Nat.le_refl _, (Nat.sub_self _).symm, Nat.le_add_right _ _⟩
  · intro c hpc; cases hpc
  · intro c _; dsimp only; omega
  · intro c _ _; dsimp only; omega
  · simp [W]
  · intro hb; simp only [Bool.and_eq_true] at hb; exact h.cfg hb.1
  · intro hb c hpc
    simp only [Bool.and_eq_true, Bool.not_eq_true'] at hb
    cases hpc
    exact ⟨hb.2, by dsimp only; rw [h.cfg hb.1]⟩
  · intro hb
    simp only [Bool.and_eq_true, Bool.not_eq_true'] at hb
    have := hc hb.1 hb.2
    rw [if_pos ⟨_, rfl⟩]; simpa using this
  · intro hb; simp only [Bool.and_eq_true] at hb; exact h.old hb.1

theorem inv_begin_normal (h : Pre p c0 s) (hp : p.prio 0 ≠ .background) (hne : s.rn ≠ []) :
    Inv p c0 (beginRound p false false s) := by
  obtain ⟨f, l, hl⟩ := List.exists_cons_of_ne_nil hne
  have hr := h.rn
  rw [hl] at hr
  simp only [beginRound, popSwitch, hl, Bool.false_eq_true, if_false]
  refine ⟨⟨h.rb, ?_, ?_, ?_⟩, ⟨Nat.le_refl _, ?_, ?_, ?_, ?_⟩, ?_, ⟨?_, ?_, ?_, ?_⟩⟩
  · intro g hg
    simp only [List.mem_append, List.mem_singleton] at hg
    rcases hg with hg | hg
    · exact hr g (List.mem_cons_of_mem _ hg)
    · exact hg ▸ hp
  · simp
  · intro c bg hpc _
    cases hpc
    simpa using hr f (List.mem_cons_self ..)
  · intro c bg _; exact ⟨Nat.le_refl _, (Nat.sub_self _).symm, Nat.le_add_right _ _⟩
  · intro c _; exact Nat.le_add_right _ _
  · intro c hpc; cases hpc
  · intro c hpc; cases hpc
  · simpa [W] using h.w
  · intro hb; exact h.cfg (by simpa using hb)
  · intro hb c hpc; cases hpc
  · intro hb
    have := h.cur (by simpa using hb)
    simpa using this
  · intro hb; exact h.old (by simpa using hb)

theorem inv_ret (callBg : Bool) (h : Pre p c0 s) : Inv p c0 (ret callBg s) := by
  refine ⟨⟨h.rb, h.rn, fun _ => h.act, fun _ _ hpc => (by cases hpc)⟩,
    ⟨h.le, fun _ _ hpc => (by cases hpc), fun _ hpc => (by cases hpc), fun _ hpc => (by cases hpc),
      fun _ hpc => (by cases hpc)⟩, ?_, ⟨h.cfg, fun _ _ hpc => (by cases hpc), ?_, h.old⟩⟩
  · have := h.w
    simp only [W, ret]
    omega
  · intro hb
    have := h.cur hb
    simpa [ret] using this

/-- The same, for a state after the end of a round. -/
structure Post (p : Par) (c0 : Config) (s : S) : Prop where
  rb : ∀ f ∈ s.rb, p.prio f = .background
  rn : ∀ f ∈ s.rn, p.prio f ≠ .background
  act : s.act = 0
  le : s.last ≤ s.now
  w : warranted s = false → (s.waited ≤ s.rtN ∨ s.rtN = 0 ∧ s.rtB = 0) ∧ 2 * s.waited ≤ 5 * p.slice + 2 * p.R
  cfg : s.busy = true → s.cfg = c0
  cur : s.busy = true → 100 * s.rtB ≤ c0.warrantPct * (s.rtN + s.rtB) + 100 * longest p c0
  old : s.busy = true → ∃ oN oB, s.totN = oN + s.rtN ∧ s.totB = oB + s.rtB ∧
    100 * oB ≤ c0.warrantPct * (oN + oB) + 100 * (s.resets * longest p c0) ∧ s.resets * p.slice ≤ oN + oB

theorem Pre.post (h : Pre p c0 s) : Post p c0 s :=
  ⟨h.rb, h.rn, h.act, h.le, fun _ => by have := h.w; omega, h.cfg, h.cur, h.old⟩

theorem inv_after (h : Post p c0 s) : Inv p c0 (afterNormal p s) := by
  unfold afterNormal
  split
  · rename_i hw
    simp only [warranted, Bool.and_eq_true, Bool.not_eq_true', List.isEmpty_eq_false_iff, decide_eq_true_eq] at hw
    -- `beginRound` forgets how long background fibers waited.
    have e : beginRound p false true s = beginRound p false true { s with waited := 0 } := rfl
    rw [e]
    refine inv_begin_bg false ⟨h.rb, h.rn, h.act, h.le, .inl ⟨Nat.zero_le _, by dsimp only; omega⟩, h.cfg, h.cur, h.old⟩ hw.1.1 ?_
    intro hb _
    have h1 := hw.2
    rw [h.cfg hb, Nat.le_div_iff_mul_le (by omega)] at h1
    rw [Nat.mul_comm (c0.warrantPct)]
    dsimp only
    omega
  · rename_i hw
    have hw := h.w (by simpa using hw)
    refine ⟨⟨h.rb, h.rn, fun _ => h.act, fun _ _ hpc => (by cases hpc)⟩,
      ⟨h.le, fun _ _ hpc => (by cases hpc), fun _ hpc => (by cases hpc), fun _ hpc => (by cases hpc),
        fun _ hpc => (by cases hpc)⟩, ?_, ⟨h.cfg, fun _ _ hpc => (by cases hpc), ?_, h.old⟩⟩
    · simpa only [W, ret] using hw
    · intro hb
      have := h.cur hb
      simpa [ret] using this

theorem inv_run (hp : p.prio 0 ≠ .background) (callBg : Bool) (h : Inv p c0 s) (ho : s.pc = .out) :
    Inv p c0 (run p callBg s) := by
  have hpre := pre_reset h ho
  unfold run
  dsimp only
  split
  · rename_i hc
    subst hc
    split
    · exact inv_ret _ hpre
    · rename_i hne
      exact inv_begin_bg true hpre (by simpa using hne) (by simp)
  · split
    · exact inv_after hpre.post
    · rename_i hne
      exact inv_begin_normal hpre hp (by simpa using hne)

theorem inv_back (hp : p.prio 0 ≠ .background) (callBg bg : Bool) (h : Inv p c0 s) (hpc : s.pc = .round callBg bg)
    (ha : s.act = 0) : Inv p c0 (back p callBg bg s) := by
  obtain ⟨hq, ht, hw, hh⟩ := h
  have hst := ht.st _ _ hpc
  unfold back
  split
  · cases bg
    · -- the end of a NORMAL round
      simp only [Bool.false_eq_true, if_false]
      have hnr := ht.nr _ hpc
      have hle := ht.le
      simp only [W, hpc] at hw
      have hcur := hh.cur
      simp only [hpc, Pc.round.injEq, Bool.false_eq_true, and_false, exists_false, if_false] at hcur
      refine inv_after ⟨hq.rb, hq.rn, ha, ht.le, ?_, hh.cfg, ?_, ?_⟩
      · intro hnw
        simp only [account, Bool.false_eq_true, if_false, warranted, Bool.and_eq_false_iff, Bool.not_eq_false',
          decide_eq_false_iff_not] at hnw ⊢
        rcases hw with ⟨h1, h2⟩ | ⟨h1, h2, h3⟩
        · split <;> omega
        · by_cases h0 : s.took = 0
          · split <;> omega
          · rcases hnw with (h4 | h4) | h4
            · rw [if_pos h4]; omega
            · omega
            · rw [h2] at h4; omega
      · intro hb
        have h1 := hcur hb
        simp only [account, Bool.false_eq_true, if_false] at hb ⊢
        simp only [Nat.mul_add] at h1 ⊢
        omega
      · intro hb
        obtain ⟨oN, oB, e1, e2, e3, e4⟩ := hh.old hb
        exact ⟨oN, oB, by simp only [account, Bool.false_eq_true, if_false]; omega, e2, e3, e4⟩
    · -- the end of a background round
      simp only [if_true]
      have hbg := ht.bg _ hpc
      simp only [W, hpc] at hw
      refine inv_ret callBg ⟨hq.rb, hq.rn, ha, ht.le, .inl ?_, hh.cfg, ?_, ?_⟩
      · simp only [account, if_true, hw]; omega
      · intro hb
        have h1 := hh.cur hb
        rw [if_pos ⟨_, hpc⟩] at h1
        have h2 := (hh.bud hb _ hpc).2
        have h3 : s.took ≤ longest p c0 := by unfold longest; omega
        simp only [account, if_true]
        simp only [Nat.mul_add] at h1 ⊢
        omega
      · intro hb
        obtain ⟨oN, oB, e1, e2, e3, e4⟩ := hh.old hb
        exact ⟨oN, oB, e1, by simp only [account, if_true]; omega, e3, e4⟩
  · rename_i hstop
    simp only [stop, Bool.or_eq_true, Bool.and_eq_true, decide_eq_true_eq, not_or] at hstop
    obtain ⟨⟨hb1, -⟩, hb2⟩ := hstop
    cases bg
    · simp only [Bool.false_eq_true, if_false] at hb2
      obtain ⟨f, l, hl⟩ := List.exists_cons_of_ne_nil (by simpa using hb2 : s.rn ≠ [])
      have hr := hq.rn
      rw [hl] at hr
      simp only [popSwitch, hl, Bool.false_eq_true, if_false]
      refine ⟨⟨hq.rb, ?_, ?_, ?_⟩, ⟨ht.le, ht.st, ht.nr, ht.bg, ?_⟩, hw, ⟨hh.cfg, hh.bud, hh.cur, hh.old⟩⟩
      · intro g hg
        simp only [List.mem_append, List.mem_singleton] at hg
        rcases hg with hg | hg
        · exact hr g (List.mem_cons_of_mem _ hg)
        · exact hg ▸ hp
      · intro h; rw [hpc] at h; cases h
      · intro c bg h _
        rw [hpc] at h; cases h
        simpa using hr f (List.mem_cons_self ..)
      · intro c h; rw [hpc] at h; cases h
    · simp only [if_true] at hb2
      obtain ⟨f, l, hl⟩ := List.exists_cons_of_ne_nil (by simpa using hb2 : s.rb ≠ [])
      have hr := hq.rb
      rw [hl] at hr
      simp only [popSwitch, hl, if_true]
      refine ⟨⟨?_, hq.rn, ?_, ?_⟩, ⟨ht.le, ht.st, ht.nr, ht.bg, ?_⟩, hw, ⟨hh.cfg, hh.bud, hh.cur, hh.old⟩⟩
      · exact fun g hg => hr g (List.mem_cons_of_mem _ hg)
      · intro h; rw [hpc] at h; cases h
      · intro c bg h _
        rw [hpc] at h; cases h
        simpa using hr f (List.mem_cons_self ..)
      · intro c _ _; dsimp only; omega

/-- Changes of the queues, the running fiber and the sleepers that keep everything else. -/
theorem inv_frame {s' : S} (h : Inv p c0 s)
    (e : { s' with act := s.act, rn := s.rn, rb := s.rb, sleeping := s.sleeping } = s)
    (hrb : ∀ f ∈ s'.rb, p.prio f = .background) (hrn : ∀ f ∈ s'.rn, p.prio f ≠ .background)
    (hout : s'.pc = .out → s'.act = 0)
    (hact : ∀ c bg, s'.pc = .round c bg → s'.act ≠ 0 → (p.prio s'.act = .background ↔ bg = true))
    (hon : ∀ c, s'.pc = .round c true → s'.act ≠ 0 → s'.last ≤ s'.start + s'.budget) : Inv p c0 s' := by
  obtain ⟨hq, ht, hw, hh⟩ := h
  rw [← e] at ht hw hh
  exact ⟨⟨hrb, hrn, hout, hact⟩, ⟨ht.le, ht.st, ht.nr, ht.bg, hon⟩, hw, ⟨hh.cfg, hh.bud, hh.cur, hh.old⟩⟩

theorem inv_wake (f : Nat) (h : Inv p c0 s) : Inv p c0 (wake p f { s with sleeping := s.sleeping.filter (·.1 ≠ f) }) := by
  unfold wake
  split
  · rename_i hf
    refine inv_frame h rfl ?_ h.q.rn h.q.out h.q.act h.t.on
    intro g hg
    simp only [List.mem_append, List.mem_singleton] at hg
    rcases hg with hg | hg
    · exact h.q.rb g hg
    · exact hg ▸ hf
  · rename_i hf
    refine inv_frame h rfl h.q.rb ?_ h.q.out h.q.act h.t.on
    intro g hg
    simp only [List.mem_cons] at hg
    rcases hg with hg | hg
    · rw [hg, hf]; decide
    · exact h.q.rn g hg
  · rename_i hf
    refine inv_frame h rfl h.q.rb ?_ h.q.out h.q.act h.t.on
    intro g hg
    simp only [List.mem_append, List.mem_singleton] at hg
    rcases hg with hg | hg
    · exact h.q.rn g hg
    · rw [hg, hf]; decide

/-- At a preemption point of a `NORMAL` round everything but the running fiber's budget is kept; of a
background round, the fiber stops running unless it is within the budget. -/
theorem inv_point (y : Bool) (h : Inv p c0 s) (ha : s.act ≠ 0) : Inv p c0 { point y s with act := 0 } := by
  obtain ⟨hq, ht, hw, hh⟩ := h
  cases hpc : s.pc with
  | out => exact absurd (hq.out hpc) ha
  | round c bg =>
    have hst := ht.st _ _ hpc
    have hle := ht.le
    refine ⟨⟨hq.rb, hq.rn, fun _ => rfl, fun _ _ _ h0 => absurd rfl h0⟩, ⟨Nat.le_refl _, ?_, ht.nr, ?_, ?_⟩, hw,
      ⟨hh.cfg, hh.bud, hh.cur, hh.old⟩⟩
    · intro c bg _; dsimp only [point]; omega
    · intro c' h'
      have h1 := ht.on c' h' ha
      dsimp only [point]; omega
    · intro c _ h0; exact absurd rfl h0

theorem inv_next (hp : p.prio 0 ≠ .background) {s' : S} (y : Bool) (h : Inv p c0 s) (ha : s.act ≠ 0) (hn : p.prio s.act ≠ .background)
    {t : S} (ht : { t with rn := s.rn } = point y s) (hrn : ∀ f ∈ t.rn, p.prio f ≠ .background)
    (hs : switchNext t = some s') : Inv p c0 s' := by
  have hi := inv_point y h ha
  rw [← ht] at hi
  have epc : t.pc = s.pc := (congrArg S.pc ht : _ = (point y s).pc)
  unfold switchNext at hs
  split at hs
  · cases hs
  · rename_i f l hl
    cases hs
    rw [hl] at hrn
    have hpc : ∀ c, s.pc ≠ .round c true := fun c h' => hn ((h.q.act c true h' ha).2 rfl)
    refine inv_frame hi rfl hi.q.rb ?_ ?_ ?_ ?_
    · exact fun g hg => hrn g (List.mem_cons_of_mem _ hg)
    · intro h'
      exact absurd (h.q.out (epc ▸ h')) ha
    · intro c bg h' _
      have h' : s.pc = .round c bg := epc ▸ h'
      cases bg with
      | true => exact absurd h' (hpc c)
      | false => simpa using hrn f (List.mem_cons_self ..)
    · intro c h' _
      exact absurd (epc ▸ h') (hpc c)

theorem inv_suspend (hp : p.prio 0 ≠ .background) {s' : S} (h : Inv p c0 s) (ha : s.act ≠ 0) (hs : suspend p s = some s') :
    Inv p c0 s' := by
  unfold suspend at hs
  dsimp only at hs
  split at hs
  · cases hs; exact inv_point false h ha
  · rename_i hn
    exact inv_next hp false h ha hn (t := point false s) rfl h.q.rn hs

theorem inv_yield (hp : p.prio 0 ≠ .background) {s' : S} (h : Inv p c0 s) (ha : s.act ≠ 0) (hs : yield p s = some s') :
    Inv p c0 s' := by
  have hi := inv_point true h ha
  unfold yield at hs
  dsimp only at hs
  split at hs
  · rename_i hbg
    have hbg : p.prio s.act = .background := hbg
    split at hs
    · rename_i hlt
      cases hs
      refine inv_frame hi rfl hi.q.rb hi.q.rn h.q.out h.q.act ?_
      intro c _ _
      simp only [point] at hlt ⊢
      omega
    · cases hs
      unfold bgYield
      split
      · exact inv_frame hi rfl hi.q.rb hi.q.rn (fun _ => rfl) (fun _ _ _ h0 => absurd rfl h0) (fun _ _ h0 => absurd rfl h0)
      · have : addReady p (point true s).act (point true s) = { point true s with rb := s.rb ++ [s.act] } := by
          unfold addReady
          rw [show (point true s).act = s.act from rfl, hbg]
          rfl
        rw [this]
        refine inv_frame hi rfl ?_ hi.q.rn (fun _ => rfl) (fun _ _ _ h0 => absurd rfl h0) (fun _ _ h0 => absurd rfl h0)
        intro g hg
        simp only [List.mem_append, List.mem_singleton] at hg
        rcases hg with hg | hg
        · exact h.q.rb g hg
        · exact hg ▸ hbg
  · rename_i hn
    have hn : p.prio s.act ≠ .background := hn
    have e : addReady p (point true s).act (point true s) = { point true s with rn := s.rn ++ [s.act] } := by
      unfold addReady
      rw [show (point true s).act = s.act from rfl]
      split
      · rename_i h'; exact absurd h' hn
      · rfl
    rw [e] at hs
    refine inv_next hp true h ha hn (t := { point true s with rn := s.rn ++ [s.act] }) rfl ?_ hs
    intro g hg
    simp only [List.mem_append, List.mem_singleton] at hg
    rcases hg with hg | hg
    · exact h.q.rn g hg
    · exact hg ▸ hn

theorem inv_step (hp : p.prio 0 ≠ .background) {s' : S} (a : Act) (h : Inv p c0 s) (hs : step p s a = some s') : Inv p c0 s' := by
  cases a with
  | tick d =>
    simp only [step] at hs
    split at hs
    · rename_i hok
      cases hs
      obtain ⟨hq, ht, hw, hh⟩ := h
      refine ⟨⟨hq.rb, hq.rn, hq.out, hq.act⟩, ⟨?_, ?_, ?_, ht.bg, ht.on⟩, hw, ⟨hh.cfg, hh.bud, hh.cur, hh.old⟩⟩
      · have := ht.le; dsimp only; omega
      · intro c bg hpc
        have hpc : s.pc = .round c bg := hpc
        have := ht.st _ _ hpc
        simp only [tickOk, hpc, Bool.and_eq_true, decide_eq_true_eq] at hok
        exact ⟨this.1, this.2.1, hok.1⟩
      · intro c hpc
        have hpc : s.pc = .round c false := hpc
        simp only [tickOk, hpc, Bool.and_eq_true, decide_eq_true_eq, Bool.false_or] at hok
        exact hok.2
    · cases hs
  | run callBg =>
    simp only [step] at hs
    split at hs
    · rename_i h1; cases hs; exact inv_run hp callBg h h1.1
    · cases hs
  | back =>
    simp only [step] at hs
    split at hs
    · cases hs
    · rename_i hpc
      split at hs
      · rename_i ha; cases hs; exact inv_back hp _ _ h hpc ha
      · cases hs
  | yield =>
    simp only [step] at hs
    split at hs
    · rename_i ha; exact inv_yield hp h ha hs
    · cases hs
  | suspend =>
    simp only [step] at hs
    split at hs
    · rename_i ha; exact inv_suspend hp h ha hs
    · cases hs
  | wake f =>
    simp only [step] at hs
    split at hs
    · cases hs; exact inv_wake f h
    · cases hs
  | config c =>
    simp only [step, Option.some.injEq] at hs
    subst hs
    obtain ⟨hq, ht, hw, hh⟩ := h
    exact ⟨⟨hq.rb, hq.rn, hq.out, hq.act⟩, ⟨ht.le, ht.st, ht.nr, ht.bg, ht.on⟩, hw,
      ⟨by simp, by simp, by simp, by simp⟩⟩

theorem inv_init (t0 : Nat) (c0 : Config) : Inv p c0 (S.init t0 c0) :=
  ⟨⟨by simp [S.init], by simp [S.init], fun _ => rfl, fun _ _ h => by cases h⟩,
    ⟨Nat.zero_le _, fun _ _ h => (by cases h), fun _ h => (by cases h), fun _ h => (by cases h), fun _ h => (by cases h)⟩,
    by simp [W, S.init],
    ⟨fun _ => rfl, fun _ _ h => (by cases h), fun _ => by simp [S.init], fun _ => ⟨0, 0, by simp [S.init]⟩⟩⟩

theorem inv (hp : p.prio 0 ≠ .background) (t0 : Nat) (c0 : Config) (h : Reachable (· = S.init t0 c0) (step p) s) :
    Inv p c0 s :=
  Reachable.invariant (Inv p c0) (fun s (e : s = S.init t0 c0) => e ▸ inv_init t0 c0) (fun _ a _ hi hs => inv_step hp a hi hs) h

end Verif.Share
