import Verif.MpscRA.Spec
import Verif.Mpsc.Props
/-! Invariant of the queue over release/acquire memory, on top of that of `Verif.Mpsc`. -/
namespace Verif.MpscRA
open Verif.Common Verif.RelAcq
open Verif.Mpsc (Adj Pc CPc)

theorem dec_enc (v : Option Nat) : dec (enc v) = v := by cases v <;> rfl

/-- The push in which the consumer is. -/
def consPc : CPc → Pc
  | .pushReset => .reset 0
  | .pushSwap => .swap 0
  | .pushLink a => .link a 0
  | _ => .idle

/-- The push in which thread `u` of the memory is. -/
def pcOf (q : Mpsc.State) : Nat → Pc
  | 0 => consPc q.cons
  | t + 1 => q.th[t]?.getD .idle

/-- View `v` includes the push of `x`. -/
structure Knows (s : State) (v : View Loc) (x : Nat) : Prop where
  next : s.rst x ≤ v (.next x)
  data : s.m.log (.data x) ≤ v (.data x)
  tail : s.tix x ≤ v .tail

/-- What a thread in a push knows. -/
def PcKnows (s : State) (u : Nat) : Pc → Prop
  | .idle => True
  | .reset x => s.nTop x ≤ s.m.cur u (.next x) ∧ s.m.log (.data x) ≤ s.m.cur u (.data x)
  | .swap x => s.nTop x = s.rst x ∧ s.rst x ≤ s.m.cur u (.next x) ∧ s.m.log (.data x) ≤ s.m.cur u (.data x) ∧
      ∃ y, s.m.msg (.next x) (s.rst x) = some y ∧ y.val = 0
  | .link a b => s.rst a ≤ s.m.cur u (.next a) ∧ Knows s (s.m.cur u) b

/-- `tail_`. -/
structure TInv (s : State) : Prop where
  all : ∀ ts, ts ≤ s.tix s.q.tail → s.m.msg .tail ts ≠ none
  le : ∀ ts y, s.m.msg .tail ts = some y → ts ≤ s.tix s.q.tail
  val : ∀ x, x ∈ s.q.chain → s.tix s.q.head ≤ s.tix x ∧ ∃ y, s.m.msg .tail (s.tix x) = some y ∧ y.val = x ∧ s.rst x ≤ y.view (.next x)
  inv : ∀ ts y, s.m.msg .tail ts = some y → s.tix s.q.head ≤ ts → y.val ∈ s.q.chain ∧ s.tix y.val = ts
  adj : ∀ a b, Adj s.q.chain a b → s.tix b = s.tix a + 1
  cnt : pushes s.m (s.tix s.q.head) = s.q.popped.length

/-- The links. -/
structure NInv (s : State) : Prop where
  le : ∀ x ts y, s.m.msg (.next x) ts = some y → ts ≤ s.nTop x
  rst : ∀ x, x ∈ s.q.chain → ∃ y, s.m.msg (.next x) (s.rst x) = some y ∧ y.val = 0
  non : ∀ x, x ∈ s.q.chain → s.q.next x = none → s.nTop x = s.rst x
  som : ∀ x b, x ∈ s.q.chain → s.q.next x = some b → s.rst x < s.nTop x ∧ (∀ ts, s.rst x < ts → ts < s.nTop x → s.m.msg (.next x) ts = none) ∧
    ∃ y, s.m.msg (.next x) (s.nTop x) = some y ∧ y.val = b + 1 ∧ Knows s y.view b

structure RI (s : State) : Prop where
  t : TInv s
  n : NInv s
  pcs : ∀ u, PcKnows s u (pcOf s.q u)
  client : ∀ x, x ≠ 0 → s.q.client x = true → s.nTop x ≤ s.own x (.next x) ∧ s.m.log (.data x) ≤ s.own x (.data x)
  head : Knows s (s.m.cur 0) s.q.head
  stub : 0 ∈ s.q.chain → s.tix 0 ≤ s.m.cur 0 .tail
  mine : 0 ∉ s.q.chain → s.nTop 0 ≤ s.m.cur 0 (.next 0)
  data0 : s.m.log (.data 0) = 0

structure RInv (s : State) : Prop where
  q : Mpsc.Inv s.q
  race : s.race = false
  r : RI s

/-! What the sequentially consistent invariant says about all threads alike. -/

theorem fresh_out {q : Mpsc.State} (h : Mpsc.Inv q) {u x : Nat} (hu : pcOf q u = .reset x ∨ pcOf q u = .swap x) :
    x ∉ q.chain ∧ (x = 0 → u = 0) ∧ (u = 0 → x = 0) ∧ (x ≠ 0 → q.client x = false) := by
  cases u with
  | zero =>
    have hc := h.con
    unfold Mpsc.CInv at hc
    cases hq : q.cons <;> simp only [pcOf, hq, consPc] at hu <;> simp only [hq] at hc
    all_goals first
      | (rcases hu with e | e <;> cases e <;> exact ⟨hc.2, fun _ => rfl, fun _ => rfl, fun e => absurd rfl e⟩)
      | (rcases hu with e | e <;> cases e <;> exact ⟨hc.2.1, fun _ => rfl, fun _ => rfl, fun e => absurd rfl e⟩)
      | (rcases hu with e | e <;> cases e)
  | succ t =>
    simp only [pcOf] at hu
    cases ht : q.th[t]? with
    | none => rw [ht] at hu; rcases hu with e | e <;> cases e
    | some pc =>
      rw [ht] at hu
      simp only [Option.getD_some] at hu
      have hf : Mpsc.fresh pc = some x := by rcases hu with e | e <;> rw [e] <;> rfl
      obtain ⟨h1, h2, h3⟩ := h.fresh t pc x ht hf
      exact ⟨h2, fun e => absurd e h1, nofun, fun _ => h3⟩

theorem fresh_uniq {q : Mpsc.State} (h : Mpsc.Inv q) {u u' x : Nat} (hu : pcOf q u = .reset x ∨ pcOf q u = .swap x)
    (hu' : pcOf q u' = .reset x ∨ pcOf q u' = .swap x) : u' = u := by
  have a := fresh_out h hu
  have b := fresh_out h hu'
  cases u with
  | zero => exact b.2.1 (a.2.2.1 rfl)
  | succ t =>
    cases u' with
    | zero => exact (a.2.1 (b.2.2.1 rfl)).symm
    | succ t' =>
      simp only [pcOf] at hu hu'
      cases ht : q.th[t]? with
      | none => rw [ht] at hu; rcases hu with e | e <;> cases e
      | some pc =>
        cases ht' : q.th[t']? with
        | none => rw [ht'] at hu'; rcases hu' with e | e <;> cases e
        | some pc' =>
          rw [ht] at hu; rw [ht'] at hu'
          simp only [Option.getD_some] at hu hu'
          have := h.uniq t' t pc' pc x ht' ht (by rcases hu' with e | e <;> rw [e] <;> rfl) (by rcases hu with e | e <;> rw [e] <;> rfl)
          omega

theorem link_pend {q : Mpsc.State} {u a b : Nat} (hu : pcOf q u = .link a b) : Mpsc.Pending q a b := by
  cases u with
  | zero =>
    cases hq : q.cons <;> simp only [pcOf, hq, consPc] at hu <;> cases hu
    exact Or.inr ⟨hq, rfl⟩
  | succ t =>
    simp only [pcOf] at hu
    cases ht : q.th[t]? with
    | none => rw [ht] at hu; cases hu
    | some pc => rw [ht] at hu; simp only [Option.getD_some] at hu; subst hu; exact Or.inl ⟨t, ht⟩

theorem link_uniq {q : Mpsc.State} (h : Mpsc.Inv q) {u u' a b b' : Nat} (hu : pcOf q u = .link a b) (hu' : pcOf q u' = .link a b') : u' = u := by
  have e : b = b' := Mpsc.adj_unique h.nodup (h.pend _ _ (link_pend hu)).1 (h.pend _ _ (link_pend hu')).1
  subst e
  have get : ∀ t, pcOf q (t + 1) = .link a b → q.th[t]? = some (.link a b) := by
    intro t ht
    simp only [pcOf] at ht
    cases hq : q.th[t]? with
    | none => rw [hq] at ht; cases ht
    | some pc => rw [hq] at ht; simp only [Option.getD_some] at ht; rw [ht]
  have zero : pcOf q 0 = .link a b → b = 0 := by
    intro hz
    cases hq : q.cons <;> simp only [pcOf, hq, consPc] at hz <;> cases hz
    rfl
  cases u with
  | zero =>
    cases u' with
    | zero => rfl
    | succ t' => exact absurd (zero hu) (h.lnz _ _ _ (get t' hu'))
  | succ t =>
    cases u' with
    | zero => exact absurd (zero hu') (h.lnz _ _ _ (get t hu))
    | succ t' => have := h.uniqL t t' a b a (get t hu) (get t' hu'); omega

theorem pcOf_set {q : Mpsc.State} {t : Nat} {pc pc' : Pc} (ht : q.th[t]? = some pc) (q' : Mpsc.State) (hth : q'.th = q.th.set t pc') (hc : q'.cons = q.cons) :
    pcOf q' (t + 1) = pc' ∧ ∀ u, u ≠ t + 1 → pcOf q' u = pcOf q u := by
  constructor
  · simp only [pcOf, hth, List.getElem?_set_self (lt_of_get ht), Option.getD_some]
  · intro u hu
    cases u with
    | zero => simp only [pcOf, hc]
    | succ t' => simp only [pcOf, hth]; rw [List.getElem?_set_ne (by omega)]

theorem pcOf_cons {q : Mpsc.State} (q' : Mpsc.State) (hth : q'.th = q.th) : ∀ u, u ≠ 0 → pcOf q' u = pcOf q u := by
  intro u hu
  cases u with
  | zero => exact absurd rfl hu
  | succ t => simp only [pcOf, hth]

theorem Knows.mono {s s' : State} {v v' : View Loc} {x : Nat} (h : Knows s v x) (h1 : s'.rst x = s.rst x) (h2 : s'.m.log (.data x) = s.m.log (.data x))
    (h3 : s'.tix x = s.tix x) (hv : ∀ l, v l ≤ v' l) : Knows s' v' x :=
  ⟨by rw [h1]; exact Nat.le_trans h.next (hv _), by rw [h2]; exact Nat.le_trans h.data (hv _), by rw [h3]; exact Nat.le_trans h.tail (hv _)⟩

theorem PcKnows.keep {s s' : State} {u : Nat} {pc : Pc} (h : PcKnows s u pc) (hcur : ∀ l, s.m.cur u l ≤ s'.m.cur u l)
    (h1 : ∀ x, (pc = .reset x ∨ pc = .swap x ∨ (∃ b, pc = .link x b) ∨ (∃ a, pc = .link a x)) → s'.rst x = s.rst x ∧ s'.m.log (.data x) = s.m.log (.data x) ∧ s'.tix x = s.tix x)
    (h2 : ∀ x, (pc = .reset x ∨ pc = .swap x) → s'.nTop x = s.nTop x)
    (h3 : ∀ x, pc = .swap x → s'.m.msg (.next x) (s.rst x) = s.m.msg (.next x) (s.rst x)) : PcKnows s' u pc := by
  cases pc with
  | idle => trivial
  | reset x =>
    obtain ⟨a, b, c⟩ := h1 x (Or.inl rfl)
    obtain ⟨k1, k2⟩ := h
    exact ⟨by rw [h2 x (Or.inl rfl)]; exact Nat.le_trans k1 (hcur _), by rw [b]; exact Nat.le_trans k2 (hcur _)⟩
  | swap x =>
    obtain ⟨a, b, c⟩ := h1 x (Or.inr (Or.inl rfl))
    obtain ⟨k0, k1, k2, k3⟩ := h
    refine ⟨by rw [h2 x (Or.inr rfl), a]; exact k0, by rw [a]; exact Nat.le_trans k1 (hcur _), by rw [b]; exact Nat.le_trans k2 (hcur _), ?_⟩
    rw [a, h3 x rfl]; exact k3
  | link a b =>
    obtain ⟨a1, _, _⟩ := h1 a (Or.inr (Or.inr (Or.inl ⟨b, rfl⟩)))
    obtain ⟨b1, b2, b3⟩ := h1 b (Or.inr (Or.inr (Or.inr ⟨a, rfl⟩)))
    obtain ⟨k1, k2⟩ := h
    exact ⟨by rw [a1]; exact Nat.le_trans k1 (hcur _), k2.mono b1 b2 b3 hcur⟩

theorem pushes_congr {m m' : Mem Loc} {n : Nat} (h : ∀ ts, ts < n → m'.msg .tail ts = m.msg .tail ts) : pushes m' n = pushes m n := by
  unfold pushes
  congr 1
  apply List.filter_congr
  intro ts hts
  unfold isPush
  rw [h ts (List.mem_range.1 hts)]

theorem pushes_succ (m : Mem Loc) (n : Nat) : pushes m (n + 1) = pushes m n + if isPush m n then 1 else 0 := by
  unfold pushes
  rw [List.range_succ, List.filter_append, List.length_append]
  congr 1
  by_cases h : isPush m n = true <;> simp [h]

theorem pushes_mono (m : Mem Loc) {a b : Nat} (h : a ≤ b) : pushes m a ≤ pushes m b := by
  induction b with
  | zero => rw [Nat.le_zero.1 h]; exact Nat.le_refl _
  | succ b ih =>
    rcases Nat.eq_or_lt_of_le h with e | h
    · rw [e]; exact Nat.le_refl _
    · rw [pushes_succ]; have := ih (by omega); omega

end Verif.MpscRA
