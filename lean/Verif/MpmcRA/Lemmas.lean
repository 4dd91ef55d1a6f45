import Verif.MpmcRA.Spec
import Verif.Mpmc.Reach
/-! Invariant of the queue over release/acquire memory, on top of that of `Verif.Mpmc`. -/
namespace Verif.MpmcRA
open Verif.Common Verif.RelAcq
open Verif.Mpmc (owns)
variable {α : Type}

/-- A thread that has found the sequence number it wants: the position and the number. -/
def ready : Mpmc.Pc α → Option (Nat × Nat)
  | .eReady _ p => some (p, p)
  | .dReady p => some (p, p + 1)
  | _ => none

/-- What a thread knows of the cell it is going to claim, or has claimed. -/
structure Knows (q : Mpmc.State α) (m : Mem Loc) (top : Nat → Nat) (t : Nat) (pc : Mpmc.Pc α) : Prop where
  ready : ∀ p v, ready pc = some (p, v) → ∃ ts x, m.msg (.seq (q.cell p)) ts = some x ∧ x.val = v ∧ ts ≤ m.cur t (.seq (q.cell p)) ∧
    x.view (.cell (q.cell p)) ≤ m.cur t (.cell (q.cell p))
  own : ∀ p, owns pc = some p → m.log (.cell (q.cell p)) ≤ m.cur t (.cell (q.cell p)) ∧ top (q.cell p) ≤ m.cur t (.seq (q.cell p))

/-- The sequence numbers and the storage. -/
structure SInv (q : Mpmc.State α) (m : Mem Loc) (top : Nat → Nat) : Prop where
  le : ∀ i ts x, m.msg (.seq i) ts = some x → ts ≤ top i
  mono : ∀ i ts x ts' x', m.msg (.seq i) ts = some x → m.msg (.seq i) ts' = some x' → ts < ts' → x.val < x'.val
  last : ∀ i, ∃ x, m.msg (.seq i) (top i) = some x ∧ x.val = q.seq i
  pub : ∀ i x, m.msg (.seq i) (top i) = some x → (∀ (t : Nat) (pc : Mpmc.Pc α) (p : Nat), q.th[t]? = some pc → owns pc = some p → q.cell p ≠ i) →
    m.log (.cell i) ≤ x.view (.cell i)
  pcs : ∀ (t : Nat) (pc : Mpmc.Pc α), q.th[t]? = some pc → Knows q m top t pc

/-- The positions. -/
structure PInv (q : Mpmc.State α) (m : Mem Loc) (deqTop : Nat) : Prop where
  enq : ∀ ts x, m.msg .enq ts = some x → ts ≤ q.enqPos ∧ x.val = ts
  enqAll : ∀ ts, ts ≤ q.enqPos → m.msg .enq ts ≠ none
  deq : ∀ ts x, m.msg .deq ts = some x → ts ≤ deqTop ∧ x.val ≤ q.deqPos
  deqLast : ∃ x, m.msg .deq deqTop = some x ∧ x.val = q.deqPos
  deqAll : q.sc = none → ∀ ts, ts ≤ deqTop → m.msg .deq ts ≠ none
  deqOwn : ∀ t, q.sc = some t → deqTop ≤ m.cur t .deq

structure RInv (s : State α) : Prop where
  q : Mpmc.Inv s.q
  race : s.race = false
  si : SInv s.q s.m s.top
  pi : PInv s.q s.m s.deqTop

/-- A message with the value of the last one is the last one. -/
theorem SInv.isTop {q : Mpmc.State α} {m : Mem Loc} {top : Nat → Nat} (h : SInv q m top) {i ts : Nat} {x : Msg Loc} (hx : m.msg (.seq i) ts = some x) :
    x.val ≤ q.seq i ∧ (q.seq i ≤ x.val → ts = top i) := by
  obtain ⟨y, hy, hv⟩ := h.last i
  have hle := h.le i ts x hx
  rcases Nat.eq_or_lt_of_le hle with e | hlt
  · subst e
    rw [hx] at hy; cases hy
    exact ⟨by omega, fun _ => rfl⟩
  · have := h.mono i ts x (top i) y hx hy hlt
    exact ⟨by omega, by omega⟩

theorem Knows.frame {q q' : Mpmc.State α} {m m' : Mem Loc} {top top' : Nat → Nat} {t : Nat} {pc : Mpmc.Pc α} (h : Knows q m top t pc) (hm : q'.mask = q.mask)
    (hmsg : ∀ i ts x, m.msg (.seq i) ts = some x → m'.msg (.seq i) ts = some x) (hcur : ∀ l, m.cur t l ≤ m'.cur t l)
    (hown : ∀ p, owns pc = some p → m'.log (.cell (q.cell p)) = m.log (.cell (q.cell p)) ∧ top' (q.cell p) = top (q.cell p)) : Knows q' m' top' t pc := by
  have hc : ∀ p, q'.cell p = q.cell p := fun p => by unfold Mpmc.State.cell; rw [hm]
  constructor
  · intro p v hr
    obtain ⟨ts, x, h1, h2, h3, h4⟩ := h.ready p v hr
    rw [hc]
    exact ⟨ts, x, hmsg _ _ _ h1, h2, Nat.le_trans h3 (hcur _), Nat.le_trans h4 (hcur _)⟩
  · intro p hp
    obtain ⟨h1, h2⟩ := h.own p hp
    obtain ⟨g1, g2⟩ := hown p hp
    rw [hc, g1, g2]
    exact ⟨Nat.le_trans h1 (hcur _), Nat.le_trans h2 (hcur _)⟩

/-- Steps that leave the sequence numbers and the storage alone. -/
theorem SInv.other {q q' : Mpmc.State α} {m m' : Mem Loc} {top : Nat → Nat} {t : Nat} {pc pc' : Mpmc.Pc α} (h : SInv q m top)
    (ht : q.th[t]? = some pc) (hth : q'.th = q.th.set t pc') (hm : q'.mask = q.mask) (hseq : q'.seq = q.seq)
    (hmsg : ∀ i ts, m'.msg (.seq i) ts = m.msg (.seq i) ts) (hlog : m'.log = m.log) (hcur : ∀ u l, m.cur u l ≤ m'.cur u l)
    (ho : ∀ p, owns pc = some p → owns pc' = some p) (hk : Knows q' m' top t pc') : SInv q' m' top := by
  have hc : ∀ p, q'.cell p = q.cell p := fun p => by unfold Mpmc.State.cell; rw [hm]
  refine ⟨?_, ?_, ?_, ?_, ?_⟩
  · intro i ts x hx; rw [hmsg] at hx; exact h.le i ts x hx
  · intro i ts x ts' x' hx hx'; rw [hmsg] at hx hx'; exact h.mono i ts x ts' x' hx hx'
  · intro i; rw [hmsg, hseq]; exact h.last i
  · intro i x hx hno
    rw [hmsg] at hx
    rw [hlog]
    refine h.pub i x hx (fun u pu p hu hp => ?_)
    by_cases e : u = t
    · subst e
      rw [ht] at hu; cases hu
      rw [← hc]
      exact hno u pc' p (by rw [hth, List.getElem?_set_self (lt_of_get ht)]) (ho p hp)
    · rw [← hc]
      exact hno u pu p (by rw [hth, List.getElem?_set_ne (fun e' => e e'.symm)]; exact hu) hp
  · intro u pu hu
    rw [hth] at hu
    rcases get_set hu with ⟨rfl, rfl⟩ | ⟨hne, hu⟩
    · exact hk
    · exact (h.pcs u pu hu).frame hm (fun i ts x hx => by rw [hmsg]; exact hx) (hcur u) (fun p _ => ⟨by rw [hlog], rfl⟩)

/-- A thread that does not hold anything afterwards. -/
theorem Knows.nothing {q : Mpmc.State α} {m : Mem Loc} {top : Nat → Nat} {t : Nat} {pc : Mpmc.Pc α} (h1 : MpmcRA.ready pc = none) (h2 : owns pc = none) :
    Knows q m top t pc := ⟨fun p v h => (by rw [h1] at h; cases h), fun p h => (by rw [h2] at h; cases h)⟩

theorem touch_log (m : Mem Loc) (t : Nat) (l k : Loc) : (m.touch t l).log k = if k = l then m.log l + 1 else m.log k := rfl

theorem touch_cur_mono (m : Mem Loc) (t u : Nat) (l k : Loc) : m.cur u k ≤ (m.touch t l).cur u k := by
  unfold Mem.touch
  simp only
  by_cases h : u = t
  · subst h; rw [upd_same]; exact le_join_left _ _ _
  · rw [upd_ne _ _ h]; exact Nat.le_refl _

theorem touch_cur_self (m : Mem Loc) (t : Nat) (l : Loc) : (m.touch t l).log l ≤ (m.touch t l).cur t l := by
  rw [touch_log, if_pos rfl]
  unfold Mem.touch
  simp only [upd_same]
  have := le_join_right (m.cur t) (single l (m.log l + 1)) l
  rwa [single_same] at this

/-- The owner of a cell accesses its storage: no race. -/
theorem SInv.access {q q' : Mpmc.State α} {m : Mem Loc} {top : Nat → Nat} {t p : Nat} {pc pc' : Mpmc.Pc α} (hq : Mpmc.Inv q) (h : SInv q m top)
    (ht : q.th[t]? = some pc) (hth : q'.th = q.th.set t pc') (hm : q'.mask = q.mask) (hseq : q'.seq = q.seq)
    (ho : owns pc = some p) (ho' : owns pc' = some p) (hr' : ready pc' = none) :
    m.clear t (.cell (q.cell p)) = true ∧ SInv q' (m.touch t (.cell (q.cell p))) top := by
  have hc : ∀ p, q'.cell p = q.cell p := fun p => by unfold Mpmc.State.cell; rw [hm]
  obtain ⟨k1, k2⟩ := (h.pcs t pc ht).own p ho
  refine ⟨decide_eq_true k1, ?_, ?_, ?_, ?_, ?_⟩
  · intro i ts x hx; exact h.le i ts x hx
  · intro i ts x ts' x' hx hx'; exact h.mono i ts x ts' x' hx hx'
  · intro i; rw [hseq]; exact h.last i
  · intro i x hx hno
    have hi : q.cell p ≠ i := by
      rw [← hc]
      exact hno t pc' p (by rw [hth, List.getElem?_set_self (lt_of_get ht)]) ho'
    rw [touch_log, if_neg (fun e => hi (Loc.cell.inj e).symm)]
    refine h.pub i x hx (fun u pu p' hu hp => ?_)
    by_cases e : u = t
    · subst e
      rw [ht] at hu; cases hu
      rw [ho] at hp; cases hp
      exact hi
    · rw [← hc]
      exact hno u pu p' (by rw [hth, List.getElem?_set_ne (fun e' => e e'.symm)]; exact hu) hp
  · intro u pu hu
    rw [hth] at hu
    rcases get_set hu with ⟨rfl, rfl⟩ | ⟨hne, hu⟩
    · constructor
      · intro p v hr; rw [hr'] at hr; cases hr
      · intro p' hp'
        rw [ho'] at hp'; cases hp'
        rw [hc]
        exact ⟨touch_cur_self _ _ _, Nat.le_trans k2 (touch_cur_mono _ _ _ _ _)⟩
    · refine (h.pcs u pu hu).frame hm (fun i ts x hx => hx) (fun l => touch_cur_mono _ _ _ _ _) (fun p' hp' => ⟨?_, rfl⟩)
      have hd := Mpmc.own_cell_ne hq (fun e => hne e) hu ht hp' ho
      rw [touch_log, if_neg (fun e => hd (Loc.cell.inj e))]

/-- The owner of a cell stores its next sequence number. -/
theorem SInv.store {q q' : Mpmc.State α} {m m' : Mem Loc} {top : Nat → Nat} {t p v ts : Nat} {w : View Loc} {pc pc' : Mpmc.Pc α} (hq : Mpmc.Inv q) (h : SInv q m top)
    (ht : q.th[t]? = some pc) (hth : q'.th = q.th.set t pc') (hm : q'.mask = q.mask) (hseq : q'.seq = upd q.seq (q.cell p) v)
    (ho : owns pc = some p) (ho' : owns pc' = none) (hr' : ready pc' = none) (hv : q.seq (q.cell p) < v)
    (L : Stored m m' t (.seq (q.cell p)) v true ts w) : SInv q' m' (upd top (q.cell p) ts) := by
  have hc : ∀ p, q'.cell p = q.cell p := fun p => by unfold Mpmc.State.cell; rw [hm]
  obtain ⟨k1, k2⟩ := (h.pcs t pc ht).own p ho
  have habove := L.above
  have hold : ∀ i u x, m'.msg (.seq i) u = some x → (i = q.cell p ∧ u = ts ∧ x = ⟨v, w⟩) ∨ (¬ (i = q.cell p ∧ u = ts) ∧ m.msg (.seq i) u = some x) := by
    intro i u x hx
    by_cases e : i = q.cell p ∧ u = ts
    · obtain ⟨rfl, rfl⟩ := e
      rw [L.new] at hx; cases hx
      exact Or.inl ⟨rfl, rfl, rfl⟩
    · rw [L.old _ _ (by rintro ⟨e1, e2⟩; exact e ⟨Loc.seq.inj e1, e2⟩)] at hx
      exact Or.inr ⟨e, hx⟩
  have hnew : ∀ i u x, m.msg (.seq i) u = some x → m'.msg (.seq i) u = some x := by
    intro i u x hx
    rw [L.old]
    · exact hx
    · rintro ⟨e1, rfl⟩
      cases Loc.seq.inj e1
      rw [L.free] at hx; cases hx
  refine ⟨?_, ?_, ?_, ?_, ?_⟩
  · intro i u x hx
    rcases hold i u x hx with ⟨rfl, rfl, rfl⟩ | ⟨hne, hx⟩
    · rw [upd_same]; exact Nat.le_refl _
    · have := h.le i u x hx
      by_cases e : i = q.cell p
      · subst e; rw [upd_same]; omega
      · rw [upd_ne _ _ e]; exact this
  · intro i u x u' x' hx hx' hlt
    rcases hold i u' x' hx' with ⟨rfl, rfl, rfl⟩ | ⟨hne', hx1⟩
    · rcases hold _ u x hx with ⟨_, rfl, rfl⟩ | ⟨hne, hx⟩
      · omega
      · have := (h.isTop hx).1
        show x.val < v
        omega
    · rcases hold _ u x hx with ⟨rfl, rfl, rfl⟩ | ⟨hne, hx⟩
      · have := h.le _ _ _ hx1
        omega
      · exact h.mono i u x u' x' hx hx1 hlt
  · intro i
    by_cases e : i = q.cell p
    · subst e; rw [upd_same, hseq, upd_same]; exact ⟨_, L.new, rfl⟩
    · rw [upd_ne _ _ e, hseq, upd_ne _ _ e]
      obtain ⟨x, hx, hxv⟩ := h.last i
      exact ⟨x, hnew _ _ _ hx, hxv⟩
  · intro i x hx hno
    rw [L.log]
    by_cases e : i = q.cell p
    · subst e
      rw [upd_same, L.new] at hx
      cases hx
      show _ ≤ w _
      rw [L.pub rfl]
      exact Nat.le_trans k1 (L.mono t _)
    · rw [upd_ne _ _ e] at hx
      rcases hold i _ x hx with ⟨e', _, _⟩ | ⟨_, hx⟩
      · exact absurd e' e
      · refine h.pub i x hx (fun u pu p' hu hp => ?_)
        by_cases e' : u = t
        · subst e'
          rw [ht] at hu; cases hu
          rw [ho] at hp; cases hp
          exact fun e' => e e'.symm
        · rw [← hc]
          exact hno u pu p' (by rw [hth, List.getElem?_set_ne (fun e'' => e' e''.symm)]; exact hu) hp
  · intro u pu hu
    rw [hth] at hu
    rcases get_set hu with ⟨rfl, rfl⟩ | ⟨hne, hu⟩
    · exact Knows.nothing hr' ho'
    · refine (h.pcs u pu hu).frame hm hnew (L.mono u) (fun p' hp' => ⟨by rw [L.log], ?_⟩)
      have hd := Mpmc.own_cell_ne hq (fun e => hne e) hu ht hp' ho
      rw [upd_ne _ _ hd]

/-- A thread that has claimed the cell whose sequence number it had found. -/
theorem SInv.claim {q q' : Mpmc.State α} {m m' : Mem Loc} {top : Nat → Nat} {t p : Nat} {pc pc' : Mpmc.Pc α} (hq' : Mpmc.Inv q') (h : SInv q m top)
    (ht : q.th[t]? = some pc) (hth : q'.th = q.th.set t pc') (hm : q'.mask = q.mask) (hseq : q'.seq = q.seq)
    (ho' : owns pc' = some p) (ho : owns pc = none) (hr' : ready pc' = none)
    (hlog : m'.log = m.log) (hcur : ∀ l, m.cur t l ≤ m'.cur t l)
    (hk : ∃ ts x, m.msg (.seq (q.cell p)) ts = some x ∧ q.seq (q.cell p) ≤ x.val ∧ ts ≤ m'.cur t (.seq (q.cell p)) ∧
      x.view (.cell (q.cell p)) ≤ m'.cur t (.cell (q.cell p))) : Knows q' m' top t pc' := by
  have hc : ∀ p, q'.cell p = q.cell p := fun p => by unfold Mpmc.State.cell; rw [hm]
  constructor
  · intro p v hr; rw [hr'] at hr; cases hr
  · intro p' hp'
    rw [ho'] at hp'; cases hp'
    rw [hc]
    obtain ⟨ts, x, h1, h2, h3, h4⟩ := hk
    have ht2 := (h.isTop h1).2 h2
    subst ht2
    refine ⟨?_, h3⟩
    rw [hlog]
    refine Nat.le_trans (h.pub _ x h1 (fun u pu p' hu hp => ?_)) h4
    have hself : q'.th[t]? = some pc' := by rw [hth, List.getElem?_set_self (lt_of_get ht)]
    by_cases e : u = t
    · subst e
      rw [ht] at hu; cases hu
      rw [ho] at hp; cases hp
    · have := Mpmc.own_cell_ne hq' e (show q'.th[u]? = some pu by rw [hth, List.getElem?_set_ne (fun e' => e e'.symm)]; exact hu) hself hp ho'
      rwa [hc, hc] at this

/-- Loads do not change the positions. -/
theorem PInv.views {q q' : Mpmc.State α} {m m' : Mem Loc} {dt : Nat} (h : PInv q m dt) (h1 : q'.enqPos = q.enqPos) (h2 : q'.deqPos = q.deqPos) (h3 : q'.sc = q.sc)
    (hmsg : ∀ ts, m'.msg .enq ts = m.msg .enq ts ∧ m'.msg .deq ts = m.msg .deq ts) (hcur : ∀ u l, m.cur u l ≤ m'.cur u l) : PInv q' m' dt := by
  refine ⟨?_, ?_, ?_, ?_, ?_, ?_⟩
  · intro ts x hx; rw [(hmsg ts).1] at hx; rw [h1]; exact h.enq ts x hx
  · intro ts hts; rw [(hmsg ts).1]; exact h.enqAll ts (h1 ▸ hts)
  · intro ts x hx; rw [(hmsg ts).2] at hx; rw [h2]; exact h.deq ts x hx
  · rw [(hmsg dt).2, h2]; exact h.deqLast
  · intro hs ts hts; rw [(hmsg ts).2]; exact h.deqAll (h3 ▸ hs) ts hts
  · intro t hs; exact Nat.le_trans (h.deqOwn t (h3 ▸ hs)) (hcur _ _)

end Verif.MpmcRA
