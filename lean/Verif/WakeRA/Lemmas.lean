import Verif.WakeRA.Spec
import Verif.RelAcq.Lemmas
/-! The invariant of the wake-up protocol over C++ memory. -/
namespace Verif.WakeRA
open Verif.Common Verif.RelAcq

/-- Value of a message. -/
def valAt (s : State) (ts : Nat) : Option Nat := (s.m.msg .seq ts).map (·.val)

structure Inv (c : Cfg) (s : State) : Prop where
  bt : s.base ≤ s.top
  full : ∀ ts, s.base ≤ ts → ts ≤ s.top → s.m.msg .seq ts ≠ none
  above : ∀ ts, s.top < ts → s.m.msg .seq ts = none
  cview : s.base ≤ s.m.cur 0 .seq
  /-- what follows the last write of the loop are additions -/
  steps : ∀ ts m m', s.m.cur 0 .seq ≤ ts → s.m.msg .seq ts = some m → s.m.msg .seq (ts + 1) = some m' → m'.val = m.val + 2
  rmwBase : c.resetRmw = true → s.base = 0
  /-- cells -/
  cell : ∀ k ts m, s.m.msg (.task k) ts = some m → (ts = 0 ∧ m.val = 0 ∧ m.view = zero) ∨ (0 < ts ∧ m.val = 1 ∧ k < s.next)
  /-- announced tasks are in the views of the messages that follow -/
  pass : ∀ k a ts m, s.addAt k = some a → s.base ≤ a → a ≤ ts → ts ≤ s.top → s.m.msg .seq ts = some m → 1 ≤ m.view (.task k)
  addTop : ∀ k a, s.addAt k = some a → a ≤ s.top
  /-- who has filled a cell knows -/
  own : ∀ t k, s.ppc t = .add k → 1 ≤ s.m.cur t (.task k)
  /-- threads -/
  zeroIdle : s.ppc 0 = .idle
  open' : ∀ k, k < s.next → s.addAt k = none → ∃ t, s.ppc t = .claimed k ∨ s.ppc t = .add k
  fresh : ∀ k, s.next ≤ k → s.addAt k = none
  lt : ∀ t k, s.ppc t = .claimed k ∨ s.ppc t = .add k → k < s.next ∧ s.addAt k = none
  uniq : ∀ t u k, (s.ppc t = .claimed k ∨ s.ppc t = .add k) → (s.ppc u = .claimed k ∨ s.ppc u = .add k) → t = u
  posLe : s.pos ≤ s.next
  /-- the loop since its load -/
  held : s.cpc = .drain ∨ s.cpc = .empty → s.base ≤ s.at0 ∧ s.at0 ≤ s.top ∧
    (∀ ts m, s.at0 ≤ ts → ts ≤ s.top → s.m.msg .seq ts = some m → m.val = s.loc + 2 * (ts - s.at0)) ∧
    (∀ m x, s.m.msg .seq s.at0 = some m → m.view x ≤ s.m.cur 0 x)
  seen0 : s.cpc = .empty → s.m.cur 0 (.task s.pos) = 0
  /-- the wait -/
  waits : s.cpc = .wait → s.wAt ≤ s.top ∧ s.base ≤ s.wAt ∧ (∃ m, s.m.msg .seq s.wAt = some m ∧ m.val = waitVal) ∧
    (∀ a, s.addAt s.pos = some a → s.base ≤ a → s.wAt < a) ∧
    (s.wAt < s.top → 0 < s.tok ∨ ∃ t, s.ppc t = .wake)

theorem inv_start (c : Cfg) : Inv c start where
  bt := Nat.le_refl _
  full := by
    intro ts h1 h2
    have : ts = 0 := Nat.le_zero.1 h2
    subst this
    simp [start, Mem.start]
  above := by
    intro ts h
    have : ts ≠ 0 := by simp only [start] at h; omega
    simp [start, Mem.start, this]
  cview := Nat.zero_le _
  steps := by
    intro ts m m' _ _ h2
    simp [start, Mem.start] at h2
  rmwBase := fun _ => rfl
  cell := by
    intro k ts m h
    simp only [start, Mem.start] at h
    split at h
    · cases h; exact Or.inl ⟨‹_›, rfl, rfl⟩
    · cases h
  pass := by intro k a ts m h; cases h
  addTop := by intro k a h; cases h
  own := by intro t k h; cases h
  zeroIdle := rfl
  open' := by intro k h; simp [start] at h
  fresh := fun _ _ => rfl
  lt := by intro t k h; rcases h with h | h <;> cases h
  uniq := by intro t u k h; rcases h with h | h <;> cases h
  posLe := Nat.le_refl _
  held := by intro h; rcases h with h | h <;> cases h
  seen0 := by intro h; cases h
  waits := by intro h; cases h

def Held (s : State) : Prop := s.base ≤ s.at0 ∧ s.at0 ≤ s.top ∧
    (∀ ts m, s.at0 ≤ ts → ts ≤ s.top → s.m.msg .seq ts = some m → m.val = s.loc + 2 * (ts - s.at0)) ∧
    (∀ m x, s.m.msg .seq s.at0 = some m → m.view x ≤ s.m.cur 0 x)

def Waits (s : State) : Prop := s.wAt ≤ s.top ∧ s.base ≤ s.wAt ∧ (∃ m, s.m.msg .seq s.wAt = some m ∧ m.val = waitVal) ∧
    (∀ a, s.addAt s.pos = some a → s.base ≤ a → s.wAt < a) ∧
    (s.wAt < s.top → 0 < s.tok ∨ ∃ t, s.ppc t = .wake)

/-- Steps of the loop that write nothing. -/
theorem Inv.stay {c : Cfg} {s s' : State} (h : Inv c s) (hmsg : s'.m.msg = s.m.msg) (hcur : ∀ t x, s.m.cur t x ≤ s'.m.cur t x)
    (hp : s'.ppc = s.ppc) (hn : s'.next = s.next) (hb : s'.base = s.base) (ht : s'.top = s.top) (ha : s'.addAt = s.addAt)
    (hpos : s'.pos ≤ s'.next) (h1 : s'.cpc = .drain ∨ s'.cpc = .empty → Held s') (h2 : s'.cpc = .empty → s'.m.cur 0 (.task s'.pos) = 0)
    (h3 : s'.cpc = .wait → Waits s') : Inv c s' where
  bt := by rw [hb, ht]; exact h.bt
  full := by rw [hb, ht, hmsg]; exact h.full
  above := by rw [ht, hmsg]; exact h.above
  cview := by rw [hb]; exact Nat.le_trans h.cview (hcur _ _)
  steps := by rw [hmsg]; exact fun ts m m' h1 h2 h3 => h.steps ts m m' (Nat.le_trans (hcur _ _) h1) h2 h3
  rmwBase := by rw [hb]; exact h.rmwBase
  cell := by rw [hmsg, hn]; exact h.cell
  pass := by rw [hmsg, hb, ht, ha]; exact h.pass
  addTop := by rw [ht, ha]; exact h.addTop
  own := by rw [hp]; exact fun t k hk => Nat.le_trans (h.own t k hk) (hcur _ _)
  zeroIdle := by rw [hp]; exact h.zeroIdle
  open' := by rw [hp, hn, ha]; exact h.open'
  fresh := by rw [hn, ha]; exact h.fresh
  lt := by rw [hp, hn, ha]; exact h.lt
  uniq := by rw [hp]; exact h.uniq
  posLe := hpos
  held := h1
  seen0 := h2
  waits := h3

theorem Held.mono {s : State} (h : Held s) {m : Mem Loc} (hmsg : m.msg = s.m.msg) (hcur : ∀ x, s.m.cur 0 x ≤ m.cur 0 x) (p : CPc) (q : Nat) :
    Held { s with m, cpc := p, pos := q } := by
  refine ⟨h.1, h.2.1, ?_, ?_⟩
  · show ∀ ts m', s.at0 ≤ ts → ts ≤ s.top → m.msg .seq ts = some m' → _
    rw [hmsg]; exact h.2.2.1
  · show ∀ m' x, m.msg .seq s.at0 = some m' → m'.view x ≤ m.cur 0 x
    rw [hmsg]; exact fun m' x hm => Nat.le_trans (h.2.2.2 m' x hm) (hcur x)

theorem Inv.top_of {c : Cfg} {s : State} (h : Inv c s) {ts : Nat} {m : Msg Loc} (h1 : s.m.msg .seq ts = some m) : ts ≤ s.top := by
  rcases Nat.lt_or_ge s.top ts with h3 | h3
  · rw [h.above ts h3] at h1; cases h1
  · exact h3

theorem Inv.vals {c : Cfg} {s : State} (h : Inv c s) {ts : Nat} {m : Msg Loc} (hc : s.m.cur 0 .seq ≤ ts) (h1 : s.m.msg .seq ts = some m) :
    ∀ (d : Nat) (m' : Msg Loc), s.m.msg .seq (ts + d) = some m' → m'.val = m.val + 2 * d := by
  intro d
  induction d with
  | zero => intro m' h2; rw [Nat.add_zero] at h2; rw [h1] at h2; cases h2; rfl
  | succ d ih =>
    intro m' h2
    have hb : s.base ≤ ts + d := by have := h.cview; omega
    have ht : ts + d ≤ s.top := by have := h.top_of h2; omega
    cases hx : s.m.msg .seq (ts + d) with
    | none => exact absurd hx (h.full _ hb ht)
    | some mx =>
      have e1 := ih mx hx
      have e2 := h.steps (ts + d) mx m' (by omega) hx h2
      omega

theorem inv_load {c : Cfg} {s s' : State} {ts : Nat} (h : Inv c s) (hst : doLoad s ts = some s') : Inv c s' := by
  unfold doLoad at hst
  cases hl : s.m.load 0 .seq true ts with
  | none => rw [hl] at hst; cases hst
  | some p =>
    obtain ⟨v, m⟩ := p
    rw [hl] at hst
    cases hst
    obtain ⟨msg, hf, rfl⟩ := load_facts hl
    refine h.stay hf.msg hf.mono rfl rfl rfl rfl rfl h.posLe (fun _ => ?_) (fun e => by cases e) (fun e => by cases e)
    refine ⟨Nat.le_trans h.cview hf.may, h.top_of hf.src, ?_, ?_⟩
    · intro ts' m' h3 h4 h5
      have h3 : ts ≤ ts' := h3
      have h5 : m.msg .seq ts' = some m' := h5
      rw [hf.msg] at h5
      exact h.vals hf.may hf.src (ts' - ts) m' (by rw [Nat.add_sub_cancel' h3]; exact h5)
    · intro m' x h3
      have h3 : m.msg .seq ts = some m' := h3
      rw [hf.msg, hf.src] at h3
      cases h3
      exact hf.acq rfl x

theorem inv_take {c : Cfg} {s s' : State} {ts : Nat} (h : Inv c s) (hp : s.cpc = .drain) (hst : doTake s ts = some s') : Inv c s' := by
  unfold doTake at hst
  cases hl : s.m.load 0 (.task s.pos) true ts with
  | none => rw [hl] at hst; cases hst
  | some p =>
    obtain ⟨v, m⟩ := p
    rw [hl] at hst
    simp only at hst
    split at hst
    · rename_i hv
      cases hst
      obtain ⟨msg, hf, rfl⟩ := load_facts hl
      have hlt : s.pos < s.next := by
        rcases h.cell _ _ _ hf.src with ⟨_, h3, _⟩ | ⟨_, _, h3⟩
        · rw [h3] at hv; cases hv
        · exact h3
      refine h.stay hf.msg hf.mono rfl rfl rfl rfl rfl hlt (fun _ => ?_) (fun e => ?_) (fun e => ?_)
      · exact Held.mono (s := s) (h.held (Or.inl hp)) hf.msg (hf.mono 0) _ _
      · have e : s.cpc = .empty := e
        rw [hp] at e; cases e
      · have e : s.cpc = .wait := e
        rw [hp] at e; cases e
    · cases hst

theorem inv_empty {c : Cfg} {s s' : State} {ts : Nat} (h : Inv c s) (hp : s.cpc = .drain) (hst : doEmpty s ts = some s') : Inv c s' := by
  unfold doEmpty at hst
  cases hl : s.m.load 0 (.task s.pos) true ts with
  | none => rw [hl] at hst; cases hst
  | some p =>
    obtain ⟨v, m⟩ := p
    rw [hl] at hst
    simp only at hst
    split at hst
    · rename_i hv
      cases hst
      obtain ⟨msg, hf, rfl⟩ := load_facts hl
      refine h.stay hf.msg hf.mono rfl rfl rfl rfl rfl h.posLe (fun _ => ?_) (fun _ => ?_) (fun e => by cases e)
      · exact Held.mono (s := s) (h.held (Or.inl hp)) hf.msg (hf.mono 0) _ _
      · show m.cur 0 (.task s.pos) = 0
        have := hf.may
        rcases h.cell _ _ _ hf.src with ⟨h3, _, h4⟩ | ⟨_, h3, _⟩
        · subst h3
          rw [hf.cur, if_pos rfl, h4]
          simp only [join, single_same, zero]
          omega
        · omega
    · cases hst

theorem inv_fail {c : Cfg} {s s' : State} {ts : Nat} {b : Bool} (h : Inv c s) (hst : doFail s ts b = some s') : Inv c s' := by
  unfold doFail at hst
  cases hl : s.m.load 0 .seq false ts with
  | none => rw [hl] at hst; cases hst
  | some p =>
    obtain ⟨v, m⟩ := p
    rw [hl] at hst
    cases hst
    obtain ⟨msg, hf, rfl⟩ := load_facts hl
    refine h.stay hf.msg hf.mono rfl rfl rfl rfl rfl h.posLe ?_ ?_ ?_
    · intro e; cases b <;> rcases e with e | e <;> cases e
    · intro e; cases b <;> cases e
    · intro e; cases b <;> cases e

/-- A read-modify-write of `tq_seq_` reads the last message or one from before the last reset. -/
theorem Inv.rmw_at {c : Cfg} {s : State} (h : Inv c s) {ts : Nat} {m : Msg Loc} (h1 : s.m.msg .seq ts = some m)
    (h2 : s.m.msg .seq (ts + 1) = none) : ts = s.top ∨ (ts ≠ s.top ∧ ts + 1 < s.base) := by
  have ht := h.top_of h1
  rcases Nat.eq_or_lt_of_le ht with h3 | h3
  · exact Or.inl h3
  · refine Or.inr ⟨by omega, ?_⟩
    rcases Nat.lt_or_ge (ts + 1) s.base with h4 | h4
    · exact h4
    · exact absurd h2 (h.full _ h4 h3)

/-- A read-modify-write of the loop goes on top. -/
theorem inv_loop_rmw {c : Cfg} {s s' : State} {f : Nat → Nat} {a r : Bool} {ts v : Nat} (h : Inv c s)
    (hr : s.m.rmw 0 .seq f a r ts = some (v, s'.m))
    (hp : s'.ppc = s.ppc) (hn : s'.next = s.next) (hb : s'.base = s.base) (ht : s'.top = if ts = s.top then ts + 1 else s.top)
    (ha : s'.addAt = s.addAt) (hpos : s'.pos = s.pos) (h1 : s'.cpc ≠ .drain ∧ s'.cpc ≠ .empty) (h3 : s'.cpc = .wait → Waits s') :
    Inv c s' := by
  obtain ⟨msg, w, hf, _⟩ := rmw_facts hr
  have hts : ts = s.top := by
    rcases h.rmw_at hf.src hf.free with h4 | ⟨_, h4⟩
    · exact h4
    · have := h.cview; have := hf.may; omega
  subst hts
  rw [if_pos rfl] at ht
  have hcurs := hf.ge
  have hnew := hf.new
  have e1 := hf.src
  have hold : ∀ u, u ≠ s.top + 1 → s'.m.msg .seq u = s.m.msg .seq u := by
    intro u hu; exact hf.old _ _ (by simp [hu])
  have htask : ∀ k u, s'.m.msg (.task k) u = s.m.msg (.task k) u := by
    intro k u; exact hf.old _ _ (by simp)
  refine { bt := ?_, full := ?_, above := ?_, cview := ?_, steps := ?_, rmwBase := ?_, cell := ?_, pass := ?_, addTop := ?_, own := ?_, zeroIdle := ?_, open' := ?_, fresh := ?_, lt := ?_, uniq := ?_, posLe := ?_, held := ?_, seen0 := ?_, waits := h3 }
  · have := h.bt; omega
  · intro u h4 h5
    by_cases hu : u = s.top + 1
    · subst hu; rw [hnew]; simp
    · rw [hold u hu]; exact h.full u (by omega) (by omega)
  · intro u h4
    rw [hold u (by omega)]; exact h.above u (by omega)
  · have := h.bt; omega
  · intro u m1 m2 h4 h5 h6
    rw [hold (u + 1) (by omega), h.above _ (by omega)] at h6
    cases h6
  · rw [hb]; exact h.rmwBase
  · intro k u m1 h4; rw [htask] at h4; rw [hn]; exact h.cell k u m1 h4
  · intro k x u m1 h4 h5 h6 h7 h8
    rw [ha] at h4
    have hx := h.addTop k x h4
    by_cases hu : u = s.top + 1
    · subst hu
      rw [hnew] at h8
      cases h8
      have := h.pass k x s.top msg h4 (by omega) hx (Nat.le_refl _) e1
      exact Nat.le_trans this (hf.rel _)
    · rw [hold u hu] at h8
      exact h.pass k x u m1 h4 (by omega) h6 (by omega) h8
  · intro k x h4; rw [ha] at h4; have := h.addTop k x h4; omega
  · intro t k h4; rw [hp] at h4; exact Nat.le_trans (h.own t k h4) (hf.mono _ _)
  · rw [hp]; exact h.zeroIdle
  · rw [hp, hn, ha]; exact h.open'
  · rw [hn, ha]; exact h.fresh
  · rw [hp, hn, ha]; exact h.lt
  · rw [hp]; exact h.uniq
  · rw [hpos, hn]; exact h.posLe
  · intro e; rcases e with e | e
    · exact absurd e h1.1
    · exact absurd e h1.2
  · intro e; exact absurd e h1.2

theorem inv_cas {c : Cfg} {s s' : State} {ts : Nat} (h : Inv c s) (hp : s.cpc = .empty) (hst : doCas s ts = some s') : Inv c s' := by
  unfold doCas at hst
  cases hl : s.m.cas 0 .seq s.loc waitVal true false ts with
  | none => rw [hl] at hst; cases hst
  | some m =>
    rw [hl] at hst
    simp only [Option.some.injEq] at hst
    have hr := cas_iff.1 hl
    obtain ⟨msg, w, hf, hv⟩ := rmw_facts hr
    have hts : ts = s.top := by
      rcases h.rmw_at hf.src hf.free with h4 | ⟨_, h4⟩
      · exact h4
      · have := h.cview; have := hf.may; omega
    obtain ⟨g1, g2, g3, g4⟩ := h.held (Or.inr hp)
    have hat : s.at0 = s.top := by
      have := g3 ts msg (by omega) (by omega) hf.src
      omega
    rw [if_pos hts] at hst
    subst hts
    subst hst
    refine inv_loop_rmw h hr rfl rfl rfl (if_pos rfl).symm rfl rfl ⟨(fun e => by cases e), (fun e => by cases e)⟩ (fun _ => ?_)
    refine ⟨Nat.le_refl _, ?_, ⟨_, hf.new, rfl⟩, ?_, ?_⟩
    · show s.base ≤ s.top + 1
      have := h.bt; omega
    · intro a h4 h5
      exfalso
      have h4 : s.addAt s.pos = some a := h4
      have hx := h.addTop _ _ h4
      have := h.pass s.pos a s.top msg h4 h5 hx (Nat.le_refl _) hf.src
      have h6 := g4 msg (.task s.pos) (by rw [hat]; exact hf.src)
      have := h.seen0 hp
      omega
    · intro h4
      exact absurd h4 (Nat.lt_irrefl _)

theorem inv_reset {c : Cfg} {s s' : State} {ts : Nat} (h : Inv c s) (hst : doReset c s ts = some s') : Inv c s' := by
  unfold doReset at hst
  split at hst
  · cases hl : s.m.rmw 0 .seq (fun _ => 0) true true ts with
    | none => rw [hl] at hst; cases hst
    | some p =>
      obtain ⟨v, m⟩ := p
      rw [hl] at hst
      cases hst
      exact inv_loop_rmw (s' := { s with m, cpc := .load, top := if ts = s.top then ts + 1 else s.top }) h hl rfl rfl rfl rfl rfl rfl
        ⟨(fun e => by cases e), (fun e => by cases e)⟩ (fun e => by cases e)
  · rename_i hc
    cases hl : s.m.store 0 .seq 0 true ts with
    | none => rw [hl] at hst; cases hst
    | some m =>
      rw [hl] at hst
      cases hst
      obtain ⟨w, hf⟩ := store_facts hl
      have hts : s.top < ts := by
        rcases Nat.lt_or_ge s.top ts with h4 | h4
        · exact h4
        · exact absurd hf.free (h.full ts (by have := h.cview; have := hf.above; omega) h4)
      have hold : ∀ u, u ≠ ts → m.msg .seq u = s.m.msg .seq u := fun u hu => hf.old _ _ (by simp [hu])
      have htask : ∀ k u, m.msg (.task k) u = s.m.msg (.task k) u := fun k u => hf.old _ _ (by simp)
      refine { bt := Nat.le_refl _, full := ?_, above := ?_, cview := hf.ge, steps := ?_, rmwBase := fun e => absurd e hc, cell := ?_, pass := ?_, addTop := ?_, own := ?_, zeroIdle := h.zeroIdle, open' := h.open', fresh := h.fresh, lt := h.lt, uniq := h.uniq, posLe := h.posLe, held := ?_, seen0 := ?_, waits := ?_ }
      · intro u h4 h5
        have : u = ts := Nat.le_antisymm h5 h4
        subst this
        show m.msg .seq u ≠ none
        rw [hf.new]; simp
      · intro u h4
        have h4 : ts < u := h4
        show m.msg .seq u = none
        rw [hold u (by omega)]; exact h.above u (by omega)
      · intro u m1 m2 h4 h5 h6
        have h4 : m.cur 0 .seq ≤ u := h4
        have := hf.ge
        have h6 : m.msg .seq (u + 1) = some m2 := h6
        rw [hold _ (by omega), h.above _ (by omega)] at h6
        cases h6
      · intro k u m1 h4
        have h4 : m.msg (.task k) u = some m1 := h4
        rw [htask] at h4
        exact h.cell k u m1 h4
      · intro k x u m1 h4 h5
        have h4 : s.addAt k = some x := h4
        have h5 : ts ≤ x := h5
        have := h.addTop k x h4
        omega
      · intro k x h4
        have := h.addTop k x h4
        show x ≤ ts
        omega
      · intro t k h4; exact Nat.le_trans (h.own t k h4) (hf.mono _ _)
      · intro e; rcases e with e | e <;> cases e
      · intro e; cases e
      · intro e; cases e

theorem inv_fill {c : Cfg} {s s' : State} {t k ts : Nat} (h : Inv c s) (hp : s.ppc t = .claimed k) (hst : doFill s t k ts = some s') :
    Inv c s' := by
  unfold doFill at hst
  cases hl : s.m.store t (.task k) 1 true ts with
  | none => rw [hl] at hst; cases hst
  | some m =>
    rw [hl] at hst
    cases hst
    obtain ⟨w, hf⟩ := store_facts hl
    have ht0 : t ≠ 0 := by rintro rfl; rw [h.zeroIdle] at hp; cases hp
    have hseq : ∀ u, m.msg .seq u = s.m.msg .seq u := fun u => hf.old _ _ (by simp)
    have hc0 : m.cur 0 = s.m.cur 0 := hf.other _ (Ne.symm ht0)
    have hcurm := hf.mono
    have hother : ∀ u q, (upd s.ppc t (.add k) u = q) → (u = t ∧ q = .add k) ∨ (u ≠ t ∧ s.ppc u = q) := by
      intro u q hq
      by_cases hu : u = t
      · subst hu; rw [upd_same] at hq; exact Or.inl ⟨rfl, hq.symm⟩
      · rw [upd_ne _ _ hu] at hq; exact Or.inr ⟨hu, hq⟩
    refine { bt := h.bt, full := ?_, above := ?_, cview := ?_, steps := ?_, rmwBase := h.rmwBase, cell := ?_, pass := ?_, addTop := h.addTop, own := ?_, zeroIdle := ?_, open' := ?_, fresh := h.fresh, lt := ?_, uniq := ?_, posLe := h.posLe, held := ?_, seen0 := ?_, waits := ?_ }
    · intro u h4 h5; show m.msg .seq u ≠ none; rw [hseq]; exact h.full u h4 h5
    · intro u h4; show m.msg .seq u = none; rw [hseq]; exact h.above u h4
    · show s.base ≤ m.cur 0 .seq; rw [hc0]; exact h.cview
    · intro u m1 m2 h4 h5 h6
      have h4 : m.cur 0 .seq ≤ u := h4
      rw [hc0] at h4
      have h5 : m.msg .seq u = _ := h5
      have h6 : m.msg .seq (u + 1) = _ := h6
      rw [hseq] at h5 h6
      exact h.steps u m1 m2 h4 h5 h6
    · intro k' u m1 h4
      have h4 : m.msg (.task k') u = some m1 := h4
      by_cases hx : k' = k ∧ u = ts
      · obtain ⟨rfl, rfl⟩ := hx
        rw [hf.new] at h4
        cases h4
        exact Or.inr ⟨Nat.lt_of_le_of_lt (Nat.zero_le _) hf.above, rfl, (h.lt t k' (Or.inl hp)).1⟩
      · rw [hf.old _ _ (by simpa using hx)] at h4
        exact h.cell k' u m1 h4
    · intro k' x u m1 h4 h5 h6 h7 h8
      have h8 : m.msg .seq u = _ := h8
      rw [hseq] at h8
      exact h.pass k' x u m1 h4 h5 h6 h7 h8
    · intro u k' h4
      rcases hother u _ h4 with ⟨rfl, h5⟩ | ⟨_, h5⟩
      · cases h5
        show 1 ≤ m.cur u (.task k)
        have := hf.ge
        have := hf.above
        omega
      · exact Nat.le_trans (h.own u k' h5) (hcurm _ _)
    · show upd _ t _ 0 = _
      rw [upd_ne _ _ (Ne.symm ht0)]; exact h.zeroIdle
    · intro k' h4 h5
      obtain ⟨u, hu⟩ := h.open' k' h4 h5
      by_cases hut : u = t
      · subst hut
        rw [hp] at hu
        refine ⟨u, Or.inr ?_⟩
        show upd _ u _ u = _
        rw [upd_same]
        rcases hu with hu | hu
        · cases hu; rfl
        · cases hu
      · refine ⟨u, ?_⟩
        show upd _ t _ u = _ ∨ upd _ t _ u = _
        rw [upd_ne _ _ hut]; exact hu
    · intro u k' h4
      have h4 : upd s.ppc t (.add k) u = _ ∨ upd s.ppc t (.add k) u = _ := h4
      rcases h4 with h4 | h4
      · rcases hother u _ h4 with ⟨rfl, h5⟩ | ⟨_, h5⟩
        · cases h5
        · exact h.lt u k' (Or.inl h5)
      · rcases hother u _ h4 with ⟨rfl, h5⟩ | ⟨_, h5⟩
        · cases h5; exact h.lt u k (Or.inl hp)
        · exact h.lt u k' (Or.inr h5)
    · have hh : ∀ v k', (upd s.ppc t (.add k) v = .claimed k' ∨ upd s.ppc t (.add k) v = .add k') → s.ppc v = .claimed k' ∨ s.ppc v = .add k' := by
        intro v k' hv
        rcases hv with hv | hv
        · rcases hother v _ hv with ⟨rfl, h5⟩ | ⟨_, h5⟩
          · cases h5
          · exact Or.inl h5
        · rcases hother v _ hv with ⟨rfl, h5⟩ | ⟨_, h5⟩
          · cases h5; exact Or.inl hp
          · exact Or.inr h5
      exact fun v v' k' h4 h5 => h.uniq v v' k' (hh v k' h4) (hh v' k' h5)
    · intro e
      obtain ⟨g1, g2, g3, g4⟩ := h.held e
      refine ⟨g1, g2, ?_, ?_⟩
      · intro u m1 h4 h5 h6
        have h6 : m.msg .seq u = _ := h6
        rw [hseq] at h6
        exact g3 u m1 h4 h5 h6
      · intro m1 x h4
        have h4 : m.msg .seq s.at0 = _ := h4
        rw [hseq] at h4
        exact Nat.le_trans (g4 m1 x h4) (hcurm _ _)
    · intro e
      show m.cur 0 (.task s.pos) = 0
      rw [hc0]; exact h.seen0 e
    · intro e
      obtain ⟨g1, g2, ⟨m1, g3, g3'⟩, g4, g5⟩ := h.waits e
      refine ⟨g1, g2, ⟨m1, ?_, g3'⟩, g4, fun e2 => ?_⟩
      · show m.msg .seq s.wAt = _
        rw [hseq]; exact g3
      · rcases g5 e2 with g5 | ⟨u, g5⟩
        · exact Or.inl g5
        · refine Or.inr ⟨u, ?_⟩
          show upd _ t _ u = _
          rw [upd_ne _ _ (by rintro rfl; rw [hp] at g5; cases g5)]; exact g5

theorem inv_add {c : Cfg} (hc : c.addRel = true) {s s' : State} {t k ts : Nat} (h : Inv c s) (hp : s.ppc t = .add k)
    (hst : doAdd c s t k ts = some s') : Inv c s' := by
  unfold doAdd at hst
  rw [hc] at hst
  cases hl : s.m.rmw t .seq (· + 2) true true ts with
  | none => rw [hl] at hst; cases hst
  | some p =>
    obtain ⟨v, m⟩ := p
    rw [hl] at hst
    cases hst
    obtain ⟨msg, w, hf, rfl⟩ := rmw_facts hl
    have ht0 : t ≠ 0 := by rintro rfl; rw [h.zeroIdle] at hp; cases hp
    obtain ⟨hk, hkn⟩ := h.lt t k (Or.inr hp)
    have hbt := h.bt
    have hcase := h.rmw_at hf.src hf.free
    have e1 := hf.src
    have hnew := hf.new
    have hold : ∀ u, u ≠ ts + 1 → m.msg .seq u = s.m.msg .seq u := fun u hu => hf.old _ _ (by simp [hu])
    have htask : ∀ k u, m.msg (.task k) u = s.m.msg (.task k) u := fun k u => hf.old _ _ (by simp)
    have hc0 : m.cur 0 = s.m.cur 0 := hf.other _ (Ne.symm ht0)
    have hcurm := hf.mono
    have hle : s.top ≤ if ts = s.top then ts + 1 else s.top := by split <;> omega
    have hadd : ∀ k' a, upd s.addAt k (some (ts + 1)) k' = some a → (k' = k ∧ a = ts + 1) ∨ (k' ≠ k ∧ s.addAt k' = some a) := by
      intro k' a hx
      by_cases hkk : k' = k
      · subst hkk; rw [upd_same] at hx; cases hx; exact Or.inl ⟨rfl, rfl⟩
      · rw [upd_ne _ _ hkk] at hx; exact Or.inr ⟨hkk, hx⟩
    have hppc : ∀ u, u ≠ t → upd s.ppc t (if msg.val = waitVal then PPc.wake else PPc.idle) u = s.ppc u := fun u hu => upd_ne _ _ hu
    have hpt : upd s.ppc t (if msg.val = waitVal then PPc.wake else PPc.idle) t = if msg.val = waitVal then PPc.wake else PPc.idle := upd_same _ _ _
    have hnot : ∀ k', ¬ ((if msg.val = waitVal then PPc.wake else PPc.idle) = .claimed k') ∧ ¬ ((if msg.val = waitVal then PPc.wake else PPc.idle) = .add k') := by
      intro k'; split <;> simp
    refine { bt := ?_, full := ?_, above := ?_, cview := ?_, steps := ?_, rmwBase := h.rmwBase, cell := ?_, pass := ?_, addTop := ?_, own := ?_, zeroIdle := ?_, open' := ?_, fresh := ?_, lt := ?_, uniq := ?_, posLe := h.posLe, held := ?_, seen0 := ?_, waits := ?_ }
    · exact Nat.le_trans hbt hle
    · intro u h4 h5
      by_cases hu : u = ts + 1
      · subst hu; show m.msg .seq (ts + 1) ≠ none; rw [hnew]; simp
      · show m.msg .seq u ≠ none
        rw [hold u hu]
        refine h.full u h4 ?_
        have h5 : u ≤ if ts = s.top then ts + 1 else s.top := h5
        split at h5 <;> omega
    · intro u h4
      have h4 : (if ts = s.top then ts + 1 else s.top) < u := h4
      have : s.top < u ∧ u ≠ ts + 1 := by split at h4 <;> rcases hcase with hx | ⟨_, hx⟩ <;> omega
      show m.msg .seq u = none
      rw [hold u this.2]; exact h.above u this.1
    · show s.base ≤ m.cur 0 .seq
      rw [hc0]; exact h.cview
    · intro u m1 m2 h4 h5 h6
      have h4 : m.cur 0 .seq ≤ u := h4
      rw [hc0] at h4
      have hbu : s.base ≤ u := Nat.le_trans h.cview h4
      have h5 : m.msg .seq u = some m1 := h5
      have h6 : m.msg .seq (u + 1) = some m2 := h6
      by_cases hu : u = ts
      · subst hu
        rw [hnew] at h6
        cases h6
        rw [hold u (by omega), e1] at h5
        cases h5
        rfl
      · by_cases hu2 : u = ts + 1
        · subst hu2
          rw [hold _ (by omega)] at h6
          rcases hcase with hx | ⟨_, hx⟩
          · rw [h.above _ (by omega)] at h6; cases h6
          · omega
        · rw [hold _ hu2] at h5
          rw [hold _ (by omega)] at h6
          exact h.steps u m1 m2 h4 h5 h6
    · intro k' u m1 h4
      have h4 : m.msg (.task k') u = some m1 := h4
      rw [htask] at h4
      exact h.cell k' u m1 h4
    · intro k' x u m1 h4 h5 h6 h7 h8
      have h5 : s.base ≤ x := h5
      have h7 : u ≤ if ts = s.top then ts + 1 else s.top := h7
      have h8 : m.msg .seq u = some m1 := h8
      rcases hadd k' x h4 with ⟨rfl, rfl⟩ | ⟨hkk, h9⟩
      · -- the new announcement
        have htst : ts = s.top := by
          rcases hcase with hx | ⟨_, hx⟩
          · exact hx
          · omega
        rw [if_pos htst] at h7
        have hu : u = ts + 1 := Nat.le_antisymm h7 h6
        subst hu
        rw [hnew] at h8
        cases h8
        have := h.own t k' hp
        exact Nat.le_trans this (Nat.le_trans (hf.mono _ _) (hf.pub rfl _))
      · by_cases hu : u = ts + 1
        · subst hu
          rw [hnew] at h8
          cases h8
          have htst : ts = s.top := by
            rcases hcase with hx | ⟨_, hx⟩
            · exact hx
            · omega
          have := h.pass k' x ts msg h9 h5 (by have := h.addTop k' x h9; omega) (by omega) e1
          exact Nat.le_trans this (hf.rel _)
        · rw [hold u hu] at h8
          refine h.pass k' x u m1 h9 h5 h6 ?_ h8
          split at h7 <;> omega
    · intro k' x h4
      show x ≤ if ts = s.top then ts + 1 else s.top
      rcases hadd k' x h4 with ⟨rfl, rfl⟩ | ⟨_, h9⟩
      · rcases hcase with hx | ⟨hx1, hx⟩
        · rw [if_pos hx]; exact Nat.le_refl _
        · rw [if_neg hx1]; omega
      · exact Nat.le_trans (h.addTop k' x h9) hle
    · intro u k' h4
      by_cases hu : u = t
      · subst hu
        have h4 : upd s.ppc u _ u = _ := h4
        rw [hpt] at h4
        exact absurd h4 (hnot k').2
      · have h4 : upd s.ppc t _ u = _ := h4
        rw [hppc u hu] at h4
        exact Nat.le_trans (h.own u k' h4) (hcurm _ _)
    · show upd s.ppc t _ 0 = _
      rw [hppc 0 (Ne.symm ht0)]; exact h.zeroIdle
    · intro k' h4 h5
      have h5 : upd s.addAt k (some (ts + 1)) k' = none := h5
      have hkk : k' ≠ k := by rintro rfl; rw [upd_same] at h5; cases h5
      rw [upd_ne _ _ hkk] at h5
      obtain ⟨u, hu⟩ := h.open' k' h4 h5
      have hut : u ≠ t := by
        rintro rfl
        rw [hp] at hu
        rcases hu with hu | hu
        · cases hu
        · cases hu; exact hkk rfl
      refine ⟨u, ?_⟩
      show upd s.ppc t _ u = _ ∨ upd s.ppc t _ u = _
      rw [hppc u hut]; exact hu
    · intro k' h4
      have h4 : s.next ≤ k' := h4
      show upd s.addAt k _ k' = none
      rw [upd_ne _ _ (by omega)]; exact h.fresh k' h4
    · intro u k' h4
      by_cases hu : u = t
      · subst hu
        have h4 : upd s.ppc u _ u = _ ∨ upd s.ppc u _ u = _ := h4
        rw [hpt] at h4
        rcases h4 with h4 | h4
        · exact absurd h4 (hnot k').1
        · exact absurd h4 (hnot k').2
      · have h4' : upd s.ppc t (if msg.val = waitVal then PPc.wake else PPc.idle) u = .claimed k' ∨
          upd s.ppc t (if msg.val = waitVal then PPc.wake else PPc.idle) u = .add k' := h4
        rw [hppc u hu] at h4'
        obtain ⟨g1, g2⟩ := h.lt u k' h4'
        refine ⟨g1, ?_⟩
        show upd s.addAt k _ k' = none
        have hkk : k' ≠ k := by
          rintro rfl
          exact hu (h.uniq u t k' h4' (Or.inr hp))
        rw [upd_ne _ _ hkk]; exact g2
    · have hh : ∀ v k', (upd s.ppc t (if msg.val = waitVal then PPc.wake else PPc.idle) v = .claimed k' ∨
          upd s.ppc t (if msg.val = waitVal then PPc.wake else PPc.idle) v = .add k') → s.ppc v = .claimed k' ∨ s.ppc v = .add k' := by
        intro v k' hv
        by_cases hvt : v = t
        · subst hvt
          rw [hpt] at hv
          rcases hv with hv | hv
          · exact absurd hv (hnot k').1
          · exact absurd hv (hnot k').2
        · rw [hppc v hvt] at hv; exact hv
      exact fun v v' k' h4 h5 => h.uniq v v' k' (hh v k' h4) (hh v' k' h5)
    · intro e
      obtain ⟨g1, g2, g3, g4⟩ := h.held e
      refine ⟨g1, Nat.le_trans g2 hle, ?_, ?_⟩
      · intro u m1 h4 h5 h6
        have h5 : u ≤ if ts = s.top then ts + 1 else s.top := h5
        have h6 : m.msg .seq u = some m1 := h6
        have h4 : s.at0 ≤ u := h4
        show m1.val = s.loc + 2 * (u - s.at0)
        by_cases hu : u = ts + 1
        · subst hu
          rw [hnew] at h6
          cases h6
          have htst : ts = s.top := by
            rcases hcase with hx | ⟨_, hx⟩
            · exact hx
            · omega
          have := g3 ts msg (by omega) (by omega) e1
          show msg.val + 2 = _
          omega
        · rw [hold u hu] at h6
          exact g3 u m1 h4 (by split at h5 <;> omega) h6
      · intro m1 x h4
        have h4 : m.msg .seq s.at0 = some m1 := h4
        rw [hold _ (by rcases hcase with hx | ⟨_, hx⟩ <;> omega)] at h4
        exact Nat.le_trans (g4 m1 x h4) (hcurm _ _)
    · intro e
      show m.cur 0 (.task s.pos) = 0
      rw [hc0]; exact h.seen0 e
    · intro e
      obtain ⟨g1, g2, ⟨m1, g3, g3'⟩, g4, g5⟩ := h.waits e
      refine ⟨Nat.le_trans g1 hle, g2, ⟨m1, ?_, g3'⟩, ?_, ?_⟩
      · show m.msg .seq s.wAt = _
        rw [hold _ (by rcases hcase with hx | ⟨_, hx⟩ <;> omega)]; exact g3
      · intro a h4 h5
        show s.wAt < a
        rcases hadd s.pos a h4 with ⟨_, rfl⟩ | ⟨_, h9⟩
        · rcases hcase with hx | ⟨_, hx⟩
          · omega
          · have h5 : s.base ≤ ts + 1 := h5
            omega
        · exact g4 a h9 h5
      · intro h4
        have h4 : s.wAt < if ts = s.top then ts + 1 else s.top := h4
        by_cases hw : s.wAt < s.top
        · rcases g5 hw with g5 | ⟨u, g5⟩
          · exact Or.inl g5
          · refine Or.inr ⟨u, ?_⟩
            show upd s.ppc t _ u = _
            rw [hppc u (by rintro rfl; rw [hp] at g5; cases g5)]; exact g5
        · have hwt : s.wAt = s.top := by omega
          have htst : ts = s.top := by
            by_cases hx : ts = s.top
            · exact hx
            · rw [if_neg hx] at h4; omega
          refine Or.inr ⟨t, ?_⟩
          show upd s.ppc t _ t = _
          rw [hpt, if_pos ?_]
          rw [hwt, ← htst, e1] at g3
          cases g3
          exact g3'

theorem inv_claim {c : Cfg} {s : State} {t : Nat} (h : Inv c s) (ht0 : t ≠ 0) (hp : s.ppc t = .idle) :
    Inv c { s with ppc := upd s.ppc t (.claimed s.next), next := s.next + 1 } := by
  have hne : ∀ u, u ≠ t → upd s.ppc t (.claimed s.next) u = s.ppc u := fun u hu => upd_ne _ _ hu
  have hsame : upd s.ppc t (.claimed s.next) t = .claimed s.next := upd_same _ _ _
  have hh : ∀ v k, (upd s.ppc t (.claimed s.next) v = .claimed k ∨ upd s.ppc t (.claimed s.next) v = .add k) →
      (v = t ∧ k = s.next) ∨ (v ≠ t ∧ (s.ppc v = .claimed k ∨ s.ppc v = .add k)) := by
    intro v k hv
    by_cases hvt : v = t
    · subst hvt
      rw [hsame] at hv
      rcases hv with hv | hv
      · cases hv; exact Or.inl ⟨rfl, rfl⟩
      · cases hv
    · rw [hne v hvt] at hv; exact Or.inr ⟨hvt, hv⟩
  refine { bt := h.bt, full := h.full, above := h.above, cview := h.cview, steps := h.steps, rmwBase := h.rmwBase, cell := ?_, pass := h.pass, addTop := h.addTop, own := ?_, zeroIdle := ?_, open' := ?_, fresh := ?_, lt := ?_, uniq := ?_, posLe := ?_, held := h.held, seen0 := h.seen0, waits := ?_ }
  · intro k u m1 h4
    rcases h.cell k u m1 h4 with h5 | ⟨h5, h6, h7⟩
    · exact Or.inl h5
    · exact Or.inr ⟨h5, h6, Nat.lt_succ_of_lt h7⟩
  · intro u k h4
    by_cases hu : u = t
    · subst hu
      have h4 : upd s.ppc u (.claimed s.next) u = .add k := h4
      rw [hsame] at h4; cases h4
    · have h4 : upd s.ppc t (.claimed s.next) u = .add k := h4
      rw [hne u hu] at h4; exact h.own u k h4
  · show upd s.ppc t (.claimed s.next) 0 = _
    rw [hne 0 (Ne.symm ht0)]; exact h.zeroIdle
  · intro k h4 h5
    have h4 : k < s.next + 1 := h4
    by_cases hk : k = s.next
    · subst hk; exact ⟨t, Or.inl hsame⟩
    · obtain ⟨u, hu⟩ := h.open' k (by omega) h5
      refine ⟨u, ?_⟩
      show upd s.ppc t (.claimed s.next) u = _ ∨ upd s.ppc t (.claimed s.next) u = _
      rw [hne u (by rintro rfl; rw [hp] at hu; rcases hu with hu | hu <;> cases hu)]; exact hu
  · intro k h4
    have h4 : s.next + 1 ≤ k := h4
    exact h.fresh k (by omega)
  · intro u k h4
    show k < s.next + 1 ∧ s.addAt k = none
    rcases hh u k h4 with ⟨_, rfl⟩ | ⟨_, h5⟩
    · exact ⟨Nat.lt_succ_self _, h.fresh _ (Nat.le_refl _)⟩
    · have := h.lt u k h5
      exact ⟨by omega, this.2⟩
  · intro u v k h4 h5
    rcases hh u k h4 with ⟨h6, h6'⟩ | ⟨h6, h6'⟩ <;> rcases hh v k h5 with ⟨h7, h7'⟩ | ⟨h7, h7'⟩
    · rw [h6, h7]
    · have := h.lt v k h7'; omega
    · have := h.lt u k h6'; omega
    · exact h.uniq u v k h6' h7'
  · show s.pos ≤ s.next + 1
    have := h.posLe; omega
  · intro e
    obtain ⟨g1, g2, g3, g4, g5⟩ := h.waits e
    refine ⟨g1, g2, g3, g4, fun e2 => ?_⟩
    rcases g5 e2 with g5 | ⟨u, g5⟩
    · exact Or.inl g5
    · refine Or.inr ⟨u, ?_⟩
      show upd s.ppc t (.claimed s.next) u = _
      rw [hne u (by rintro rfl; rw [hp] at g5; cases g5)]; exact g5

theorem inv_ring {c : Cfg} {s : State} {t : Nat} (h : Inv c s) (hp : s.ppc t = .wake) :
    Inv c { s with ppc := upd s.ppc t .idle, tok := s.tok + 1, tokView := join s.tokView (s.m.cur t) } := by
  have hne : ∀ u, u ≠ t → upd s.ppc t .idle u = s.ppc u := fun u hu => upd_ne _ _ hu
  have hsame : upd s.ppc t PPc.idle t = .idle := upd_same _ _ _
  have hh : ∀ v k, (upd s.ppc t .idle v = .claimed k ∨ upd s.ppc t .idle v = .add k) → s.ppc v = .claimed k ∨ s.ppc v = .add k := by
    intro v k hv
    by_cases hvt : v = t
    · subst hvt
      rw [hsame] at hv
      rcases hv with hv | hv <;> cases hv
    · rw [hne v hvt] at hv; exact hv
  refine { bt := h.bt, full := h.full, above := h.above, cview := h.cview, steps := h.steps, rmwBase := h.rmwBase, cell := h.cell, pass := h.pass, addTop := h.addTop, own := ?_, zeroIdle := ?_, open' := ?_, fresh := h.fresh, lt := fun u k h4 => h.lt u k (hh u k h4), uniq := fun u v k h4 h5 => h.uniq u v k (hh u k h4) (hh v k h5), posLe := h.posLe, held := h.held, seen0 := h.seen0, waits := ?_ }
  · intro u k h4
    have h4 : upd s.ppc t .idle u = .add k := h4
    by_cases hu : u = t
    · subst hu; rw [hsame] at h4; cases h4
    · rw [hne u hu] at h4; exact h.own u k h4
  · show upd s.ppc t .idle 0 = _
    by_cases hu : 0 = t
    · rw [← hu, upd_same]
    · rw [hne 0 hu]; exact h.zeroIdle
  · intro k h4 h5
    obtain ⟨u, hu⟩ := h.open' k h4 h5
    refine ⟨u, ?_⟩
    show upd s.ppc t .idle u = _ ∨ upd s.ppc t .idle u = _
    rw [hne u (by rintro rfl; rw [hp] at hu; rcases hu with hu | hu <;> cases hu)]; exact hu
  · intro e
    obtain ⟨g1, g2, g3, g4, _⟩ := h.waits e
    exact ⟨g1, g2, g3, g4, fun _ => Or.inl (Nat.succ_pos _)⟩

theorem inv_wake {c : Cfg} {s : State} (h : Inv c s) : Inv c (doWake c s) := by
  refine h.stay ?_ ?_ rfl rfl rfl rfl rfl h.posLe (fun e => by rcases e with e | e <;> cases e) (fun e => by cases e) (fun e => by cases e)
  · unfold doWake; simp only; split <;> rfl
  · intro t x
    unfold doWake
    simp only
    split
    · show _ ≤ (upd s.m.cur 0 (join (s.m.cur 0) s.tokView)) t x
      by_cases ht : t = 0
      · subst ht; rw [upd_same]; exact le_join_left _ _ _
      · rw [upd_ne _ _ ht]; exact Nat.le_refl _
    · exact Nat.le_refl _

theorem inv_step {c : Cfg} (hc : c.addRel = true) {s s' : State} {a : Act} (h : Inv c s) (hst : step c s a = some s') : Inv c s' := by
  have hstay : ∀ p, p = CPc.load ∨ p = CPc.reset → Inv c { s with cpc := p } := fun p hp =>
    h.stay rfl (fun _ _ => Nat.le_refl _) rfl rfl rfl rfl rfl h.posLe
      (fun e => by rcases hp with rfl | rfl <;> rcases e with e | e <;> cases e)
      (fun e => by rcases hp with rfl | rfl <;> cases e) (fun e => by rcases hp with rfl | rfl <;> cases e)
  cases a with
  | load ts => simp only [step] at hst; split at hst; exact inv_load h hst; cases hst
  | take ts => simp only [step] at hst; split at hst; exact inv_take h ‹_› hst; cases hst
  | empty ts => simp only [step] at hst; split at hst; exact inv_empty h ‹_› hst; cases hst
  | spin => simp only [step] at hst; split at hst; cases hst; exact hstay _ (Or.inl rfl); cases hst
  | poll => simp only [step] at hst; split at hst; cases hst; exact hstay _ (Or.inr rfl); cases hst
  | cas ts => simp only [step] at hst; split at hst; exact inv_cas h ‹_› hst; cases hst
  | fail ts b => simp only [step] at hst; split at hst; exact inv_fail h hst; cases hst
  | wake => simp only [step] at hst; split at hst; cases hst; exact inv_wake h; cases hst
  | other => simp only [step] at hst; split at hst; cases hst; exact hstay _ (Or.inr rfl); cases hst
  | intr => simp only [step] at hst; split at hst; cases hst; exact hstay _ (Or.inl rfl); cases hst
  | reset ts => simp only [step] at hst; split at hst; exact inv_reset h hst; cases hst
  | claim t =>
    simp only [step] at hst
    split at hst
    · rename_i hx; cases hst; exact inv_claim h hx.1 hx.2
    · cases hst
  | fill t ts =>
    simp only [step] at hst
    split at hst
    · exact inv_fill h ‹_› hst
    · cases hst
  | add t ts =>
    simp only [step] at hst
    split at hst
    · exact inv_add hc h ‹_› hst
    · cases hst
  | ring t =>
    simp only [step] at hst
    split at hst
    · cases hst; exact inv_ring h ‹_›
    · cases hst

theorem inv_reached {c : Cfg} (hc : c.addRel = true) {s : State} (h : Reached c s) : Inv c s :=
  Reachable.invariant (Inv c) (fun s e => by subst e; exact inv_start c) (fun _ _ _ hi hs => inv_step hc hi hs) h

end Verif.WakeRA
