import Verif.SpscRA.Spec
/-! Invariant of the queue over release/acquire memory. -/
namespace Verif.SpscRA
open Verif.Common Verif.RelAcq
variable {α : Type}

/-- What holds of memory when `wn` records were written and `rn` taken. -/
structure MInv (m : Mem Loc) (wN rN : Nat → Nat) (size wn rn : Nat) : Prop where
  w : ∀ ts x, m.msg .w ts = some x → ts ≤ m.cur 1 .w ∧ x.val = wN ts % size ∧ wN ts ≤ wn ∧ ∀ l, x.view l ≤ m.cur 1 l
  wPub : ∀ ts x, m.msg .w ts = some x → ∀ j, rn ≤ j → j < wN ts →
    m.log (.slot (j % size)) ≤ x.view (.slot (j % size)) ∨ m.log (.slot (j % size)) ≤ m.cur 0 (.slot (j % size))
  wMono : ∀ ts x ts' x', m.msg .w ts = some x → m.msg .w ts' = some x' → ts ≤ ts' → wN ts ≤ wN ts'
  wTop : ∃ x, m.msg .w (m.cur 1 .w) = some x ∧ wN (m.cur 1 .w) = wn
  r : ∀ ts x, m.msg .r ts = some x → ts ≤ m.cur 0 .r ∧ x.val = rN ts % size ∧ rN ts ≤ rn ∧ ∀ l, x.view l ≤ m.cur 0 l
  rPub : ∀ ts x, m.msg .r ts = some x → ∀ k, wn ≤ k → k < rN ts + size →
    m.log (.slot (k % size)) ≤ x.view (.slot (k % size)) ∨ m.log (.slot (k % size)) ≤ m.cur 1 (.slot (k % size))
  rMono : ∀ ts x ts' x', m.msg .r ts = some x → m.msg .r ts' = some x' → ts ≤ ts' → rN ts ≤ rN ts'
  rTop : ∃ x, m.msg .r (m.cur 0 .r) = some x ∧ rN (m.cur 0 .r) = rn
  cw : m.cur 0 .w ≤ m.cur 1 .w
  cr : m.cur 1 .r ≤ m.cur 0 .r

/-- The consumer knows of `a` writes. -/
def KnowW (m : Mem Loc) (wN : Nat → Nat) (a : Nat) : Prop := ∀ ts x, m.msg .w ts = some x → m.cur 0 .w ≤ ts → a ≤ wN ts
/-- The producer knows of `b` reads. -/
def KnowR (m : Mem Loc) (rN : Nat → Nat) (b : Nat) : Prop := ∀ ts x, m.msg .r ts = some x → m.cur 1 .r ≤ ts → b ≤ rN ts

/-- A step that only adds to views, without passing what is there, keeps everything. -/
theorem MInv.views {m m' : Mem Loc} {wN rN : Nat → Nat} {size wn rn : Nat} (h : MInv m wN rN size wn rn) (hmsg : m'.msg = m.msg) (hlog : m'.log = m.log)
    (hmono : ∀ u x, m.cur u x ≤ m'.cur u x) (h1 : m'.cur 1 .w = m.cur 1 .w) (h0 : m'.cur 0 .r = m.cur 0 .r)
    (hw : m'.cur 0 .w ≤ m.cur 1 .w) (hr : m'.cur 1 .r ≤ m.cur 0 .r) : MInv m' wN rN size wn rn := by
  constructor
  · intro ts x hx; rw [hmsg] at hx; obtain ⟨a, b, c, d⟩ := h.w ts x hx; exact ⟨by rw [h1]; exact a, b, c, fun l => Nat.le_trans (d l) (hmono 1 l)⟩
  · intro ts x hx j hj hj'
    rw [hmsg] at hx; rw [hlog]
    exact (h.wPub ts x hx j hj hj').imp id (fun g => Nat.le_trans g (hmono 0 _))
  · intro ts x ts' x' hx hx'; rw [hmsg] at hx hx'; exact h.wMono ts x ts' x' hx hx'
  · rw [hmsg, h1]; exact h.wTop
  · intro ts x hx; rw [hmsg] at hx; obtain ⟨a, b, c, d⟩ := h.r ts x hx; exact ⟨by rw [h0]; exact a, b, c, fun l => Nat.le_trans (d l) (hmono 0 l)⟩
  · intro ts x hx j hj hj'
    rw [hmsg] at hx; rw [hlog]
    exact (h.rPub ts x hx j hj hj').imp id (fun g => Nat.le_trans g (hmono 1 _))
  · intro ts x ts' x' hx hx'; rw [hmsg] at hx hx'; exact h.rMono ts x ts' x' hx hx'
  · rw [hmsg, h0]; exact h.rTop
  · rw [h1]; exact hw
  · rw [h0]; exact hr

theorem KnowW.views {m m' : Mem Loc} {wN : Nat → Nat} {a : Nat} (h : KnowW m wN a) (hmsg : m'.msg = m.msg) (hmono : ∀ u x, m.cur u x ≤ m'.cur u x) :
    KnowW m' wN a := fun ts x hx hc => h ts x (by rw [← hmsg]; exact hx) (Nat.le_trans (hmono 0 _) hc)

theorem KnowR.views {m m' : Mem Loc} {rN : Nat → Nat} {a : Nat} (h : KnowR m rN a) (hmsg : m'.msg = m.msg) (hmono : ∀ u x, m.cur u x ≤ m'.cur u x) :
    KnowR m' rN a := fun ts x hx hc => h ts x (by rw [← hmsg]; exact hx) (Nat.le_trans (hmono 1 _) hc)

theorem join_eq_left {a b : View Loc} {l : Loc} (h : b l ≤ a l) : join a b l = a l := by unfold join; omega

theorem load_le {m m' : Mem Loc} {t : Nat} {l k : Loc} {a : Bool} {ts : Nat} {x : Msg Loc} {B : Nat} (L : Loaded m m' t l a ts x)
    (h1 : m.cur t k ≤ B) (h2 : k = l → ts ≤ B) (h3 : x.view k ≤ B) : m'.cur t k ≤ B := by
  rw [L.cur]
  unfold join
  have : single l ts k ≤ B := by
    unfold single
    split
    · exact h2 ‹_›
    · omega
  have : (if a then x.view else zero) k ≤ B := by
    cases a
    · simp [zero]
    · simpa using h3
  omega

/-- Loads of the two indices by the two threads. -/
theorem MInv.load {m m' : Mem Loc} {wN rN : Nat → Nat} {size wn rn : Nat} (h : MInv m wN rN size wn rn) {t : Nat} {l : Loc} {a : Bool} {ts : Nat} {x : Msg Loc}
    (L : Loaded m m' t l a ts x) (hl : l = .w ∨ l = .r) (ht : t = 0 ∨ t = 1) : MInv m' wN rN size wn rn := by
  have hsrc := L.src
  have cw := h.cw
  have cr := h.cr
  have hB : ts ≤ (if l = .w then m.cur 1 .w else m.cur 0 .r) ∧ x.view .w ≤ m.cur 1 .w ∧ x.view .r ≤ m.cur 0 .r := by
    rcases hl with rfl | rfl
    · obtain ⟨g1, g2, g3, g4⟩ := h.w ts x hsrc
      exact ⟨by simpa using g1, g4 _, Nat.le_trans (g4 _) cr⟩
    · obtain ⟨g1, g2, g3, g4⟩ := h.r ts x hsrc
      exact ⟨by simpa using g1, Nat.le_trans (g4 _) cw, g4 _⟩
  obtain ⟨hB1, hB2, hB3⟩ := hB
  have hw : ∀ u, (u = 0 ∨ u = 1) → m'.cur u .w ≤ m.cur 1 .w := by
    intro u hu
    have hb : m.cur u .w ≤ m.cur 1 .w := by rcases hu with rfl | rfl <;> omega
    by_cases e : u = t
    · subst e
      refine load_le L hb (fun e => ?_) hB2
      rw [← e] at hB1; simpa using hB1
    · rw [L.other u e]; exact hb
  have hr : ∀ u, (u = 0 ∨ u = 1) → m'.cur u .r ≤ m.cur 0 .r := by
    intro u hu
    have hb : m.cur u .r ≤ m.cur 0 .r := by rcases hu with rfl | rfl <;> omega
    by_cases e : u = t
    · subst e
      refine load_le L hb (fun e => ?_) hB3
      rw [← e] at hB1; simpa using hB1
    · rw [L.other u e]; exact hb
  exact h.views L.msg L.log L.mono (Nat.le_antisymm (hw 1 (Or.inr rfl)) (L.mono 1 _)) (Nat.le_antisymm (hr 0 (Or.inl rfl)) (L.mono 0 _))
    (hw 0 (Or.inl rfl)) (hr 1 (Or.inr rfl))

/-- The producer reads its own index: the last one. -/
theorem MInv.ownW {m m' : Mem Loc} {wN rN : Nat → Nat} {size wn rn : Nat} (h : MInv m wN rN size wn rn) {a : Bool} {ts : Nat} {x : Msg Loc}
    (L : Loaded m m' 1 .w a ts x) : x.val = wn % size := by
  obtain ⟨g1, g2, g3, g4⟩ := h.w ts x L.src
  have : ts = m.cur 1 .w := Nat.le_antisymm g1 L.may
  obtain ⟨y, _, h2⟩ := h.wTop
  rw [g2, this, h2]

theorem MInv.ownR {m m' : Mem Loc} {wN rN : Nat → Nat} {size wn rn : Nat} (h : MInv m wN rN size wn rn) {a : Bool} {ts : Nat} {x : Msg Loc}
    (L : Loaded m m' 0 .r a ts x) : x.val = rn % size := by
  obtain ⟨g1, g2, g3, g4⟩ := h.r ts x L.src
  have : ts = m.cur 0 .r := Nat.le_antisymm g1 L.may
  obtain ⟨y, _, h2⟩ := h.rTop
  rw [g2, this, h2]

/-- The consumer has read a message of `writeIndex_`: it knows of the writes before it, and may access the first record. -/
theorem MInv.seeW {m m' : Mem Loc} {wN rN : Nat → Nat} {size wn rn : Nat} (h : MInv m wN rN size wn rn) {ts : Nat} {x : Msg Loc}
    (L : Loaded m m' 0 .w true ts x) : KnowW m' wN (wN ts) ∧ (rn < wN ts → m'.log (.slot (rn % size)) ≤ m'.cur 0 (.slot (rn % size))) := by
  constructor
  · intro ts' x' hx hc
    rw [L.msg] at hx
    refine h.wMono ts x ts' x' L.src hx (Nat.le_trans ?_ hc)
    rw [L.cur]
    have h1 := le_join_right (m.cur 0) (single Loc.w ts) .w
    have h2 := le_join_left (join (m.cur 0) (single Loc.w ts)) (if true then x.view else zero) .w
    rw [single_same] at h1
    omega
  · intro hlt
    rw [L.log]
    rcases h.wPub ts x L.src rn (Nat.le_refl _) hlt with g | g
    · exact Nat.le_trans g (L.acq rfl _)
    · exact Nat.le_trans g (L.mono 0 _)

theorem MInv.seeR {m m' : Mem Loc} {wN rN : Nat → Nat} {size wn rn : Nat} (h : MInv m wN rN size wn rn) {ts : Nat} {x : Msg Loc}
    (L : Loaded m m' 1 .r true ts x) :
    KnowR m' rN (rN ts) ∧ (wn < rN ts + size → m'.log (.slot (wn % size)) ≤ m'.cur 1 (.slot (wn % size))) := by
  constructor
  · intro ts' x' hx hc
    rw [L.msg] at hx
    refine h.rMono ts x ts' x' L.src hx (Nat.le_trans ?_ hc)
    rw [L.cur]
    have h1 := le_join_right (m.cur 1) (single Loc.r ts) .r
    have h2 := le_join_left (join (m.cur 1) (single Loc.r ts)) (if true then x.view else zero) .r
    rw [single_same] at h1
    omega
  · intro hlt
    rw [L.log]
    rcases h.rPub ts x L.src wn (Nat.le_refl _) hlt with g | g
    · exact Nat.le_trans g (L.acq rfl _)
    · exact Nat.le_trans g (L.mono 1 _)

theorem touch_log (m : Mem Loc) (t : Nat) (l k : Loc) : (m.touch t l).log k = if k = l then m.log l + 1 else m.log k := rfl

theorem touch_cur_mono (m : Mem Loc) (t u : Nat) (l k : Loc) : m.cur u k ≤ (m.touch t l).cur u k := by
  unfold Mem.touch
  simp only
  by_cases h : u = t
  · subst h; rw [upd_same]; exact le_join_left _ _ _
  · rw [upd_ne _ _ h]; exact Nat.le_refl _

theorem touch_cur_ne (m : Mem Loc) (t u : Nat) {l k : Loc} (h : k ≠ l) : (m.touch t l).cur u k = m.cur u k := by
  unfold Mem.touch
  simp only
  by_cases hu : u = t
  · subst hu; rw [upd_same]; simp [join, single_ne _ h]
  · rw [upd_ne _ _ hu]

theorem touch_cur_self (m : Mem Loc) (t : Nat) (l : Loc) : (m.touch t l).log l ≤ (m.touch t l).cur t l := by
  rw [touch_log, if_pos rfl]
  unfold Mem.touch
  simp only [upd_same]
  have := le_join_right (m.cur t) (single l (m.log l + 1)) l
  rwa [single_same] at this

/-- The producer accesses the record to be written, the consumer the first record. -/
theorem MInv.touch {m : Mem Loc} {wN rN : Nat → Nat} {size wn rn : Nat} (h : MInv m wN rN size wn rn) {t i : Nat}
    (h2 : wn < rn + size) (hi : (t = 1 ∧ i = wn % size) ∨ (t = 0 ∧ i = rn % size ∧ rn < wn)) : MInv (m.touch t (.slot i)) wN rN size wn rn := by
  have hm : (m.touch t (Loc.slot i)).msg = m.msg := rfl
  have c1 : ∀ u, (m.touch t (Loc.slot i)).cur u .w = m.cur u .w := fun u => touch_cur_ne _ _ _ (by intro e; cases e)
  have c2 : ∀ u, (m.touch t (Loc.slot i)).cur u .r = m.cur u .r := fun u => touch_cur_ne _ _ _ (by intro e; cases e)
  have hmono := fun u k => touch_cur_mono m t u (Loc.slot i) k
  have hself := touch_cur_self m t (Loc.slot i)
  constructor
  · intro ts x hx; rw [hm] at hx; obtain ⟨a, b, c, d⟩ := h.w ts x hx
    exact ⟨by rw [c1]; exact a, b, c, fun l => Nat.le_trans (d l) (hmono 1 l)⟩
  · intro ts x hx j hj hj'
    rw [hm] at hx
    have hjw : j < wn := Nat.lt_of_lt_of_le hj' (h.w ts x hx).2.2.1
    by_cases e : j % size = i
    · rcases hi with ⟨rfl, rfl⟩ | ⟨rfl, rfl, hlt⟩
      · have := mod_window e (by omega) (by omega); omega
      · rw [e]; exact Or.inr hself
    · rw [touch_log, if_neg (by intro e'; cases e'; exact e rfl)]
      exact (h.wPub ts x hx j hj hj').imp id (fun g => Nat.le_trans g (hmono 0 _))
  · intro ts x ts' x' hx hx'; rw [hm] at hx hx'; exact h.wMono ts x ts' x' hx hx'
  · rw [hm, c1]; exact h.wTop
  · intro ts x hx; rw [hm] at hx; obtain ⟨a, b, c, d⟩ := h.r ts x hx
    exact ⟨by rw [c2]; exact a, b, c, fun l => Nat.le_trans (d l) (hmono 0 l)⟩
  · intro ts x hx k hk hk'
    rw [hm] at hx
    have hr := (h.r ts x hx).2.2.1
    by_cases e : k % size = i
    · rcases hi with ⟨rfl, rfl⟩ | ⟨rfl, rfl, hlt⟩
      · rw [e]; exact Or.inr hself
      · have := mod_window e (by omega) (by omega); omega
    · rw [touch_log, if_neg (by intro e'; cases e'; exact e rfl)]
      exact (h.rPub ts x hx k hk hk').imp id (fun g => Nat.le_trans g (hmono 1 _))
  · intro ts x ts' x' hx hx'; rw [hm] at hx hx'; exact h.rMono ts x ts' x' hx hx'
  · rw [hm, c2]; exact h.rTop
  · rw [c1, c1]; exact h.cw
  · rw [c2, c2]; exact h.cr

theorem KnowW.touch {m : Mem Loc} {wN : Nat → Nat} {a : Nat} (h : KnowW m wN a) (t : Nat) (l : Loc) : KnowW (m.touch t l) wN a :=
  h.views rfl (fun _ _ => touch_cur_mono _ _ _ _ _)
theorem KnowR.touch {m : Mem Loc} {rN : Nat → Nat} {a : Nat} (h : KnowR m rN a) (t : Nat) (l : Loc) : KnowR (m.touch t l) rN a :=
  h.views rfl (fun _ _ => touch_cur_mono _ _ _ _ _)

/-- The producer publishes the record. -/
theorem MInv.storeW {m m' : Mem Loc} {wN rN : Nat → Nat} {size wn rn : Nat} (h : MInv m wN rN size wn rn) {ts v : Nat} {w : View Loc}
    (L : Stored m m' 1 .w v true ts w) (hv : v = (wn + 1) % size) (hown : m.log (.slot (wn % size)) ≤ m.cur 1 (.slot (wn % size))) :
    MInv m' (upd wN ts (wn + 1)) rN size (wn + 1) rn := by
  have hw : w = m'.cur 1 := L.pub rfl
  have hcw : m'.cur 1 .w = ts := by
    have h1 := L.above
    rw [L.cur]; unfold join; rw [single_same]; omega
  have hne : ∀ l, l ≠ Loc.w → m'.cur 1 l = m.cur 1 l := by
    intro l hl; rw [L.cur]; simp [join, single_ne _ hl]
  have h0 : m'.cur 0 = m.cur 0 := L.other 0 (by decide)
  have hold : ∀ u x, u ≠ ts → m'.msg .w u = some x → m.msg .w u = some x := by
    intro u x hu hx; rwa [L.old _ _ (by rintro ⟨_, e⟩; exact hu e)] at hx
  have hr' : ∀ u, m'.msg .r u = m.msg .r u := fun u => L.old _ _ (by rintro ⟨e, _⟩; cases e)
  have habove := L.above
  constructor
  · intro u x hx
    by_cases e : u = ts
    · subst e
      rw [L.new] at hx
      cases hx
      simp only [upd_same]
      exact ⟨by omega, hv, Nat.le_refl _, fun l => by rw [hw]; exact Nat.le_refl _⟩
    · have hx' := hold u x e hx
      obtain ⟨g1, g2, g3, g4⟩ := h.w u x hx'
      rw [upd_ne _ _ e]
      exact ⟨by omega, g2, by omega, fun l => Nat.le_trans (g4 l) (L.mono 1 l)⟩
  · intro u x hx j hj hj'
    rw [L.log, h0]
    by_cases e : u = ts
    · subst e
      rw [L.new] at hx
      cases hx
      rw [upd_same] at hj'
      show _ ≤ w _ ∨ _
      rw [hw, hne _ (by intro e; cases e)]
      rcases Nat.lt_or_ge j wn with hlt | hge
      · obtain ⟨y, hy, hn⟩ := h.wTop
        rcases h.wPub _ y hy j hj (by omega) with g | g
        · exact Or.inl (Nat.le_trans g ((h.w _ y hy).2.2.2 _))
        · exact Or.inr g
      · have : j = wn := by omega
        subst this
        exact Or.inl hown
    · rw [upd_ne _ _ e] at hj'
      exact h.wPub u x (hold u x e hx) j hj hj'
  · intro u x u' x' hx hx' hle
    by_cases e : u' = ts
    · subst e
      rw [upd_same]
      by_cases e2 : u = u'
      · subst e2; rw [upd_same]; exact Nat.le_refl _
      · rw [upd_ne _ _ e2]
        have := (h.w u x (hold u x e2 hx)).2.2.1
        omega
    · have g := (h.w u' x' (hold u' x' e hx')).1
      rw [upd_ne _ _ e, upd_ne _ _ (by omega)]
      exact h.wMono u x u' x' (hold u x (by omega) hx) (hold u' x' e hx') hle
  · rw [hcw]; exact ⟨_, L.new, upd_same _ _ _⟩
  · intro u x hx
    rw [hr'] at hx
    rw [h0]
    exact h.r u x hx
  · intro u x hx k hk hk'
    rw [hr'] at hx
    rw [L.log, hne _ (by intro e; cases e)]
    exact h.rPub u x hx k (by omega) hk'
  · intro u x u' x' hx hx'; rw [hr'] at hx hx'; exact h.rMono u x u' x' hx hx'
  · rw [h0, hr']; exact h.rTop
  · rw [h0, hcw]; have := h.cw; omega
  · rw [h0, hne _ (by intro e; cases e)]; exact h.cr

theorem KnowW.storeW {m m' : Mem Loc} {wN : Nat → Nat} {a wn ts v : Nat} {w : View Loc} {r : Bool} (h : KnowW m wN a) (L : Stored m m' 1 .w v r ts w) (ha : a ≤ wn) :
    KnowW m' (upd wN ts (wn + 1)) a := by
  intro u x hx hc
  rw [L.other 0 (by decide)] at hc
  by_cases e : u = ts
  · subst e; rw [upd_same]; omega
  · rw [upd_ne _ _ e]
    rw [L.old _ _ (by rintro ⟨_, e'⟩; exact e e')] at hx
    exact h u x hx hc

theorem KnowR.storeW {m m' : Mem Loc} {rN : Nat → Nat} {b ts v : Nat} {w : View Loc} {r : Bool} (h : KnowR m rN b) (L : Stored m m' 1 .w v r ts w) : KnowR m' rN b := by
  intro u x hx hc
  rw [L.old _ _ (by rintro ⟨e, _⟩; cases e)] at hx
  exact h u x hx (Nat.le_trans (L.mono 1 _) hc)

/-- The consumer gives the record back. -/
theorem MInv.storeR {m m' : Mem Loc} {wN rN : Nat → Nat} {size wn rn : Nat} (h : MInv m wN rN size wn rn) {ts v : Nat} {w : View Loc}
    (L : Stored m m' 0 .r v true ts w) (hv : v = (rn + 1) % size) (hown : m.log (.slot (rn % size)) ≤ m.cur 0 (.slot (rn % size))) :
    MInv m' wN (upd rN ts (rn + 1)) size wn (rn + 1) := by
  have hw : w = m'.cur 0 := L.pub rfl
  have hcw : m'.cur 0 .r = ts := by
    have h1 := L.above
    rw [L.cur]; unfold join; rw [single_same]; omega
  have hne : ∀ l, l ≠ Loc.r → m'.cur 0 l = m.cur 0 l := by
    intro l hl; rw [L.cur]; simp [join, single_ne _ hl]
  have h1' : m'.cur 1 = m.cur 1 := L.other 1 (by decide)
  have hold : ∀ u x, u ≠ ts → m'.msg .r u = some x → m.msg .r u = some x := by
    intro u x hu hx; rwa [L.old _ _ (by rintro ⟨_, e⟩; exact hu e)] at hx
  have hr' : ∀ u, m'.msg .w u = m.msg .w u := fun u => L.old _ _ (by rintro ⟨e, _⟩; cases e)
  have habove := L.above
  constructor
  · intro u x hx
    rw [hr'] at hx
    rw [h1']
    exact h.w u x hx
  · intro u x hx k hk hk'
    rw [hr'] at hx
    rw [L.log, hne _ (by intro e; cases e)]
    exact h.wPub u x hx k (by omega) hk'
  · intro u x u' x' hx hx'; rw [hr'] at hx hx'; exact h.wMono u x u' x' hx hx'
  · rw [h1', hr']; exact h.wTop
  · intro u x hx
    by_cases e : u = ts
    · subst e
      rw [L.new] at hx
      cases hx
      simp only [upd_same]
      exact ⟨by omega, hv, Nat.le_refl _, fun l => by rw [hw]; exact Nat.le_refl _⟩
    · have hx' := hold u x e hx
      obtain ⟨g1, g2, g3, g4⟩ := h.r u x hx'
      rw [upd_ne _ _ e]
      exact ⟨by omega, g2, by omega, fun l => Nat.le_trans (g4 l) (L.mono 0 l)⟩
  · intro u x hx k hk hk'
    rw [L.log, h1']
    by_cases e : u = ts
    · subst e
      rw [L.new] at hx
      cases hx
      rw [upd_same] at hk'
      show _ ≤ w _ ∨ _
      rw [hw, hne _ (by intro e; cases e)]
      rcases Nat.lt_or_ge k (rn + size) with hlt | hge
      · obtain ⟨y, hy, hn⟩ := h.rTop
        rcases h.rPub _ y hy k hk (by omega) with g | g
        · exact Or.inl (Nat.le_trans g ((h.r _ y hy).2.2.2 _))
        · exact Or.inr g
      · have : k = rn + size := by omega
        subst this
        rw [Nat.add_mod_right]
        exact Or.inl hown
    · rw [upd_ne _ _ e] at hk'
      exact h.rPub u x (hold u x e hx) k hk hk'
  · intro u x u' x' hx hx' hle
    by_cases e : u' = ts
    · subst e
      rw [upd_same]
      by_cases e2 : u = u'
      · subst e2; rw [upd_same]; exact Nat.le_refl _
      · rw [upd_ne _ _ e2]
        have := (h.r u x (hold u x e2 hx)).2.2.1
        omega
    · have g := (h.r u' x' (hold u' x' e hx')).1
      rw [upd_ne _ _ e, upd_ne _ _ (by omega)]
      exact h.rMono u x u' x' (hold u x (by omega) hx) (hold u' x' e hx') hle
  · rw [hcw]; exact ⟨_, L.new, upd_same _ _ _⟩
  · rw [h1', hne _ (by intro e; cases e)]; exact h.cw
  · rw [h1', hcw]; have := h.cr; omega

theorem KnowR.storeR {m m' : Mem Loc} {rN : Nat → Nat} {b rn ts v : Nat} {w : View Loc} {r : Bool} (h : KnowR m rN b) (L : Stored m m' 0 .r v r ts w) (hb : b ≤ rn) :
    KnowR m' (upd rN ts (rn + 1)) b := by
  intro u x hx hc
  rw [L.other 1 (by decide)] at hc
  by_cases e : u = ts
  · subst e; rw [upd_same]; omega
  · rw [upd_ne _ _ e]
    rw [L.old _ _ (by rintro ⟨_, e'⟩; exact e e')] at hx
    exact h u x hx hc

theorem KnowW.storeR {m m' : Mem Loc} {wN : Nat → Nat} {a ts v : Nat} {w : View Loc} {r : Bool} (h : KnowW m wN a) (L : Stored m m' 0 .r v r ts w) : KnowW m' wN a := by
  intro u x hx hc
  rw [L.old _ _ (by rintro ⟨e, _⟩; cases e)] at hx
  exact h u x hx (Nat.le_trans (L.mono 0 _) hc)

theorem minv_start (size : Nat) (h : 2 ≤ size) : MInv (Mem.start (fun _ => 0)) (fun _ => 0) (fun _ => 0) size 0 0 := by
  have hm : ∀ (l : Loc) ts x, (Mem.start (fun _ : Loc => 0)).msg l ts = some x → ts = 0 ∧ x = ⟨0, zero⟩ := by
    intro l ts x hx
    unfold Mem.start at hx
    simp only at hx
    split at hx
    · cases hx; exact ⟨‹_›, rfl⟩
    · cases hx
  constructor
  · intro ts x hx; obtain ⟨rfl, rfl⟩ := hm _ _ _ hx; exact ⟨Nat.le_refl _, by simp, Nat.le_refl _, fun l => Nat.le_refl _⟩
  · intro ts x hx j _ hj; omega
  · intros; exact Nat.le_refl _
  · exact ⟨⟨0, zero⟩, rfl, rfl⟩
  · intro ts x hx; obtain ⟨rfl, rfl⟩ := hm _ _ _ hx; exact ⟨Nat.le_refl _, by simp, Nat.le_refl _, fun l => Nat.le_refl _⟩
  · intro ts x hx k _ _; exact Or.inl (Nat.zero_le _)
  · intros; exact Nat.le_refl _
  · exact ⟨⟨0, zero⟩, rfl, rfl⟩
  · exact Nat.le_refl _
  · exact Nat.le_refl _

end Verif.SpscRA
