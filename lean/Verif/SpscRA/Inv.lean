import Verif.SpscRA.Lemmas
/-! The two threads keep the invariant. -/
namespace Verif.SpscRA
open Verif.Common Verif.RelAcq
variable {α : Type}

theorem next_mod {size k : Nat} (h : 2 ≤ size) : next size (k % size) = (k + 1) % size := by
  have hlt := Nat.mod_lt k (show 0 < size by omega)
  have e : (k + 1) % size = (k % size + 1) % size := (Nat.mod_add_mod k size 1).symm
  unfold next
  split
  · rename_i hs
    rw [e, hs, Nat.mod_self]
  · rw [e]; exact (Nat.mod_eq_of_lt (by omega)).symm

/-- The thread's view includes all accesses to the record at position `k`. -/
def Own (s : State α) (t k : Nat) : Prop := s.m.log (.slot (k % s.size)) ≤ s.m.cur t (.slot (k % s.size))

def pa : PPc α → Nat
  | .idle | .loaded .. => 0
  | .space .. | .built .. => 1
def px : PPc α → Nat
  | .idle | .loaded .. | .space .. => 0
  | .built .. => 1
def ca : CPc α → Nat
  | .idle | .rLoaded .. | .fLoaded .. => 0
  | _ => 1
def cx : CPc α → Nat
  | .rDestroyed .. | .pDestroyed .. => 1
  | _ => 0

def PInv (s : State α) : Prop :=
  match s.prod with
  | .idle => True
  | .loaded _ cur => cur = s.written.length % s.size
  | .space _ cur nxt => cur = s.written.length % s.size ∧ nxt = (s.written.length + 1) % s.size ∧ Own s 1 s.written.length
  | .built x nxt => nxt = (s.written.length + 1) % s.size ∧ s.slots (s.written.length % s.size) = some x ∧ Own s 1 s.written.length

def CInv (s : State α) : Prop :=
  match s.cons with
  | .idle => True
  | .rLoaded cur => cur = s.taken.length % s.size
  | .fLoaded cur => cur = s.taken.length % s.size
  | .rAvail cur nxt => cur = s.taken.length % s.size ∧ nxt = (s.taken.length + 1) % s.size ∧ Own s 0 s.taken.length
  | .rMoved v cur nxt => cur = s.taken.length % s.size ∧ nxt = (s.taken.length + 1) % s.size ∧ Own s 0 s.taken.length ∧
      s.written[s.taken.length]? = some v
  | .rDestroyed v nxt => nxt = (s.taken.length + 1) % s.size ∧ Own s 0 s.taken.length ∧ s.written[s.taken.length]? = some v
  | .holding cur => cur = s.taken.length % s.size ∧ Own s 0 s.taken.length
  | .pLoaded cur nxt => cur = s.taken.length % s.size ∧ nxt = (s.taken.length + 1) % s.size ∧ Own s 0 s.taken.length
  | .pDestroyed v nxt => nxt = (s.taken.length + 1) % s.size ∧ Own s 0 s.taken.length ∧ s.written[s.taken.length]? = some v

structure Inv (s : State α) : Prop where
  size2 : 2 ≤ s.size
  race : s.race = false
  bad : s.bad = false
  mem : MInv s.m s.wN s.rN s.size s.written.length s.taken.length
  pre : s.written.take s.taken.length = s.taken
  le : s.taken.length + ca s.cons ≤ s.written.length
  cap : s.written.length + pa s.prod < s.taken.length + s.size
  kw : KnowW s.m s.wN (s.taken.length + ca s.cons)
  kr : KnowR s.m s.rN (s.written.length + pa s.prod + 1 - s.size)
  live : ∀ j, s.taken.length + cx s.cons ≤ j → j < s.written.length → s.slots (j % s.size) = s.written[j]?
  dead : ∀ k, s.written.length + px s.prod ≤ k → k < s.taken.length + cx s.cons + s.size → s.slots (k % s.size) = none
  p : PInv s
  c : CInv s

theorem inv_init (s : State α) (h : Init s) : Inv s := by
  obtain ⟨size, hs, rfl⟩ := h
  exact ⟨hs, rfl, rfl, minv_start size hs, rfl, by simp [ca], by simp [pa]; omega, fun _ _ _ _ => by simp [ca],
    fun _ _ _ _ => by simp [pa]; omega, fun j _ hj => by simp at hj, fun _ _ _ => rfl, trivial, trivial⟩

theorem Own.mono {s s' : State α} {t k : Nat} (h : Own s t k) (hz : s'.size = s.size) (hl : s'.m.log = s.m.log) (hm : ∀ u x, s.m.cur u x ≤ s'.m.cur u x) :
    Own s' t k := by
  unfold Own at *
  rw [hz, hl]
  exact Nat.le_trans h (hm _ _)

/-- What the other thread relies on survives anything that only adds to views. -/
theorem PInv.mono {s s' : State α} (h : PInv s) (hp : s'.prod = s.prod) (hz : s'.size = s.size) (hw : s'.written = s.written) (hs : ∀ x nxt, s.prod = .built x nxt →
    s'.slots (s.written.length % s.size) = s.slots (s.written.length % s.size)) (ho : pa s.prod = 1 → Own s 1 s.written.length → Own s' 1 s.written.length) : PInv s' := by
  unfold PInv at *
  rw [hp, hz, hw]
  cases e : s.prod with
  | idle => trivial
  | loaded x cur => simp only [e] at h ⊢; exact h
  | space x cur nxt => simp only [e] at h ⊢; exact ⟨h.1, h.2.1, ho (by rw [e]; rfl) h.2.2⟩
  | built x nxt => simp only [e] at h ⊢; exact ⟨h.1, by rw [hs x nxt e]; exact h.2.1, ho (by rw [e]; rfl) h.2.2⟩

theorem CInv.mono {s s' : State α} (h : CInv s) (hp : s'.cons = s.cons) (hz : s'.size = s.size) (ht : s'.taken = s.taken)
    (hw : ∀ v, s.written[s.taken.length]? = some v → s'.written[s.taken.length]? = some v)
    (ho : ca s.cons = 1 → Own s 0 s.taken.length → Own s' 0 s.taken.length) : CInv s' := by
  unfold CInv at *
  rw [hp, hz, ht]
  cases e : s.cons with
  | idle => trivial
  | rLoaded cur => simp only [e] at h ⊢; exact h
  | fLoaded cur => simp only [e] at h ⊢; exact h
  | rAvail cur nxt => simp only [e] at h ⊢; exact ⟨h.1, h.2.1, ho (by rw [e]; rfl) h.2.2⟩
  | rMoved v cur nxt => simp only [e] at h ⊢; exact ⟨h.1, h.2.1, ho (by rw [e]; rfl) h.2.2.1, hw _ h.2.2.2⟩
  | rDestroyed v nxt => simp only [e] at h ⊢; exact ⟨h.1, ho (by rw [e]; rfl) h.2.1, hw _ h.2.2⟩
  | holding cur => simp only [e] at h ⊢; exact ⟨h.1, ho (by rw [e]; rfl) h.2⟩
  | pLoaded cur nxt => simp only [e] at h ⊢; exact ⟨h.1, h.2.1, ho (by rw [e]; rfl) h.2.2⟩
  | pDestroyed v nxt => simp only [e] at h ⊢; exact ⟨h.1, ho (by rw [e]; rfl) h.2.1, hw _ h.2.2⟩

/-- A load by the producer, going to `q`, with no claim of space. -/
theorem inv_loadP {s : State α} (h : Inv s) {m' : Mem Loc} {l : Loc} {a : Bool} {ts : Nat} {x : Msg Loc} (L : Loaded s.m m' 1 l a ts x) (hl : l = .w ∨ l = .r)
    (q : PPc α) (e : Event α) (hpx : px q = 0 ∧ px s.prod = 0) (hcap : s.written.length + pa q < s.taken.length + s.size)
    (hkr : KnowR m' s.rN (s.written.length + pa q + 1 - s.size)) (hp : PInv { s with m := m', prod := q, ev := e }) :
    Inv { s with m := m', prod := q, ev := e } := by
  have hm : MInv m' s.wN s.rN s.size s.written.length s.taken.length := h.mem.load L hl (Or.inr rfl)
  refine ⟨h.size2, h.race, h.bad, hm, h.pre, h.le, hcap, h.kw.views L.msg L.mono, hkr, h.live, ?_, hp, ?_⟩
  · intro k hk hk'
    rw [hpx.1] at hk
    exact h.dead k (by rw [hpx.2]; exact hk) hk'
  · exact h.c.mono rfl rfl rfl (fun _ hv => hv) (fun _ ho => ho.mono rfl L.log L.mono)

/-- A load by the consumer. -/
theorem inv_loadC {s : State α} (h : Inv s) {m' : Mem Loc} {l : Loc} {a : Bool} {ts : Nat} {x : Msg Loc} (L : Loaded s.m m' 0 l a ts x) (hl : l = .w ∨ l = .r)
    (q : CPc α) (e : Event α) (hcx : cx q = 0 ∧ cx s.cons = 0) (hle : s.taken.length + ca q ≤ s.written.length)
    (hkw : KnowW m' s.wN (s.taken.length + ca q)) (hc : CInv { s with m := m', cons := q, ev := e }) :
    Inv { s with m := m', cons := q, ev := e } := by
  have hm : MInv m' s.wN s.rN s.size s.written.length s.taken.length := h.mem.load L hl (Or.inl rfl)
  refine ⟨h.size2, h.race, h.bad, hm, h.pre, hle, h.cap, hkw, h.kr.views L.msg L.mono, ?_, ?_, ?_, hc⟩
  · intro j hj hj'
    exact h.live j (by rw [hcx.2]; simpa [hcx.1] using hj) hj'
  · intro k hk hk'
    exact h.dead k hk (by rw [hcx.2]; simpa [hcx.1] using hk')
  · exact h.p.mono rfl rfl rfl (fun _ _ _ => rfl) (fun _ ho => ho.mono rfl L.log L.mono)

theorem inv_write {s s' : State α} (h : Inv s) (hp : s.prod = .idle) {x : α} {ts : Nat} (hst : doWrite s x ts = some s') : Inv s' := by
  unfold doWrite at hst
  split at hst
  · cases hst
  · rename_i cur m hl
    obtain ⟨y, L, rfl⟩ := load_facts hl
    cases hst
    refine inv_loadP h L (Or.inl rfl) _ _ ⟨rfl, by rw [hp]; rfl⟩ ?_ ?_ ?_
    · have := h.cap; rw [hp] at this; simpa [pa] using this
    · have := h.kr.views L.msg L.mono; rw [hp] at this; exact this
    · exact h.mem.ownW L

theorem inv_space {s s' : State α} (h : Inv s) {x : α} {cur ts : Nat} (hp : s.prod = .loaded x cur) (hst : doSpace theCode s x cur ts = some s') : Inv s' := by
  unfold doSpace at hst
  have h2 := h.size2
  have hcur : cur = s.written.length % s.size := by have := h.p; unfold PInv at this; rw [hp] at this; exact this
  have hle := h.le
  have hpa : pa s.prod = 0 := by rw [hp]; rfl
  have hcap := h.cap
  rw [hpa] at hcap
  split at hst
  · cases hst
  · rename_i r m hl
    obtain ⟨y, L, rfl⟩ := load_facts hl
    have hk := h.kr ts y L.src L.may
    rw [hpa] at hk
    obtain ⟨g1, g2, g3, g4⟩ := h.mem.r ts y L.src
    obtain ⟨k1, k2⟩ := h.mem.seeR L
    split at hst
    · rename_i hne
      cases hst
      have hlt : s.written.length + 1 < s.rN ts + s.size := by
        rcases Nat.lt_or_ge (s.written.length + 1) (s.rN ts + s.size) with h1 | h1
        · exact h1
        · exfalso
          have : s.written.length + 1 = s.rN ts + s.size := by omega
          apply hne
          rw [hcur, next_mod h2, this, Nat.add_mod_right, g2]
      refine inv_loadP h L (Or.inr rfl) _ _ ⟨rfl, by rw [hp]; rfl⟩ (by simp only [pa]; omega) ?_ ?_
      · intro u z hz hc
        have := k1 u z hz hc
        simp only [pa]
        omega
      · exact ⟨hcur, by rw [hcur, next_mod h2], k2 (by omega)⟩
    · cases hst
      refine inv_loadP h L (Or.inr rfl) _ _ ⟨rfl, by rw [hp]; rfl⟩ (by simp only [pa]; omega) ?_ trivial
      have := h.kr.views L.msg L.mono; rw [hpa] at this; exact this

theorem inv_build {s s' : State α} (h : Inv s) {x : α} {cur nxt : Nat} (hp : s.prod = .space x cur nxt) (hst : doBuild s x cur nxt = some s') : Inv s' := by
  have h2 := h.size2
  have hpi := h.p
  unfold PInv at hpi; rw [hp] at hpi
  obtain ⟨rfl, hn, ho⟩ := hpi
  have hcap := h.cap
  have hle := h.le
  rw [hp] at hcap
  simp only [pa] at hcap
  have hdead := h.dead
  rw [hp] at hdead
  simp only [px, Nat.add_zero] at hdead
  unfold doBuild access at hst
  simp only [Option.some.injEq] at hst
  subst hst
  have hclear : s.m.clear 1 (.slot (s.written.length % s.size)) = true := by
    unfold Mem.clear
    exact decide_eq_true ho
  have hslot : s.slots (s.written.length % s.size) = none := hdead _ (Nat.le_refl _) (by omega)
  have hmem := h.mem.touch (t := 1) (i := s.written.length % s.size) (by omega) (Or.inl ⟨rfl, rfl⟩)
  have hne : ∀ j, s.written.length < j + s.size → j < s.written.length + s.size → j ≠ s.written.length → j % s.size ≠ s.written.length % s.size :=
    fun j h3 h4 h5 e => h5 (mod_window e (by omega) (by omega))
  refine ⟨h2, ?_, ?_, hmem, h.pre, h.le, by simp only [pa]; omega, h.kw.touch _ _, ?_, ?_, ?_, ?_, ?_⟩
  · simp [h.race, hclear]
  · simp [h.bad, hslot, Nat.mod_lt s.written.length (show 0 < s.size by omega)]
  · have := h.kr.touch 1 (.slot (s.written.length % s.size)); rw [hp] at this; exact this
  · intro j hj hj'
    simp only at hj hj'
    show upd s.slots _ _ _ = _
    rw [upd_ne _ _ (hne j (by omega) (by omega) (by omega))]
    exact h.live j hj hj'
  · intro k hk hk'
    simp only [px] at hk hk'
    show upd s.slots _ _ _ = _
    have hcx : cx s.cons ≤ 1 := by cases s.cons <;> simp [cx]
    have hcc : cx s.cons ≤ ca s.cons := by cases s.cons <;> simp [cx, ca]
    rw [upd_ne _ _ (hne k (by omega) (by omega) (by omega))]
    exact hdead k (by omega) hk'
  · unfold PInv
    exact ⟨hn, by simp [upd_same], touch_cur_self _ _ _⟩
  · refine h.c.mono rfl rfl rfl (fun _ hv => hv) (fun hca ho => ?_)
    unfold Own at ho ⊢
    simp only
    have hlt : s.taken.length < s.written.length := by omega
    have hd : s.taken.length % s.size ≠ s.written.length % s.size := hne _ (by omega) (by omega) (by omega)
    rw [touch_log, if_neg (fun e => hd (Loc.slot.inj e)), touch_cur_ne _ _ _ (fun e => hd (Loc.slot.inj e))]
    exact ho

theorem inv_publish {s s' : State α} (h : Inv s) {x : α} {nxt ts : Nat} (hp : s.prod = .built x nxt) (hst : doPublish theCode s x nxt ts = some s') : Inv s' := by
  have hpi := h.p
  unfold PInv at hpi; rw [hp] at hpi
  obtain ⟨hn, hx, ho⟩ := hpi
  have hcap := h.cap
  have hle := h.le
  have hkr := h.kr
  have hdead := h.dead
  rw [hp] at hcap hkr hdead
  simp only [pa, px] at hcap hkr hdead
  unfold doPublish at hst
  split at hst
  · cases hst
  · rename_i m hm
    obtain ⟨w, L⟩ := store_facts hm
    cases hst
    have hmem := h.mem.storeW L hn ho
    have hlen : (s.written ++ [x]).length = s.written.length + 1 := by simp
    refine ⟨h.size2, h.race, h.bad, ?_, ?_, ?_, ?_, ?_, ?_, ?_, ?_, trivial, ?_⟩
    · simp only [hlen]; exact hmem
    · show (s.written ++ [x]).take _ = _
      rw [List.take_append_of_le_length (show s.taken.length ≤ s.written.length by omega)]; exact h.pre
    · simp only [hlen]; omega
    · simp only [hlen, pa]; omega
    · exact h.kw.storeW L (by omega)
    · simp only [hlen, pa]; exact hkr.storeW L
    · intro j hj hj'
      simp only [hlen] at hj hj' ⊢
      rcases Nat.lt_or_ge j s.written.length with h1 | h1
      · rw [List.getElem?_append_left h1]; exact h.live j hj h1
      · have : j = s.written.length := by omega
        subst this
        rw [hx]; simp
    · intro k hk hk'
      simp only [hlen, px] at hk hk' ⊢
      exact hdead k (by omega) hk'
    · refine h.c.mono rfl rfl rfl (fun v hv => ?_) (fun _ ho => ho.mono rfl L.log L.mono)
      show (s.written ++ [x])[_]? = _
      rw [List.getElem?_append_left (lt_of_get hv)]; exact hv

/-- The consumer's own index. -/
theorem inv_loadR {s s' : State α} (h : Inv s) {q : Nat → CPc α} {ts : Nat} (hst : doLoadR s q ts = some s') (hcx : ∀ v, cx (q v) = 0 ∧ cx s.cons = 0)
    (hca : ∀ v, ca (q v) ≤ ca s.cons)
    (hc : ∀ m, s.m.log = m.log → (∀ u k, s.m.cur u k ≤ m.cur u k) → CInv { s with m := m, cons := q (s.taken.length % s.size), ev := .none }) : Inv s' := by
  unfold doLoadR at hst
  split at hst
  · cases hst
  · rename_i cur m hl
    obtain ⟨y, L, rfl⟩ := load_facts hl
    have hv := h.mem.ownR L
    cases hst
    rw [hv]
    refine inv_loadC h L (Or.inr rfl) _ _ (hcx _) ?_ ?_ (hc m L.log.symm L.mono)
    · have := h.le; have := hca (s.taken.length % s.size); omega
    · intro u z hz hc
      have := h.kw.views L.msg L.mono u z hz hc
      have := hca (s.taken.length % s.size)
      omega

/-- The test for emptiness. -/
theorem test_spec {s : State α} (h : Inv s) (hca : ca s.cons = 0) {m : Mem Loc} {y : Msg Loc} {ts : Nat} (L : Loaded s.m m 0 .w true ts y) :
    (s.taken.length % s.size = y.val ↔ s.wN ts = s.taken.length) ∧ s.taken.length ≤ s.wN ts ∧ s.wN ts ≤ s.written.length := by
  have h2 := h.size2
  have hk := h.kw ts y L.src L.may
  rw [hca] at hk
  obtain ⟨g1, g2, g3, g4⟩ := h.mem.w ts y L.src
  have := h.cap
  refine ⟨⟨fun e => ?_, fun e => ?_⟩, hk, g3⟩
  · rw [g2] at e
    exact (mod_window e (by omega) (by omega)).symm
  · rw [g2, e]

theorem inv_avail {s s' : State α} (h : Inv s) {cur ts : Nat} (hp : s.cons = .rLoaded cur) (hst : doAvail theCode s cur ts = some s') : Inv s' := by
  unfold doAvail at hst
  have h2 := h.size2
  have hcur : cur = s.taken.length % s.size := by have := h.c; unfold CInv at this; rw [hp] at this; exact this
  have hca : ca s.cons = 0 := by rw [hp]; rfl
  split at hst
  · cases hst
  · rename_i r m hl
    obtain ⟨y, L, rfl⟩ := load_facts hl
    obtain ⟨t1, t2, t3⟩ := test_spec h hca L
    obtain ⟨k1, k2⟩ := h.mem.seeW L
    rw [hcur] at hst
    split at hst
    · cases hst
      refine inv_loadC h L (Or.inl rfl) _ _ ⟨rfl, by rw [hp]; rfl⟩ (by simp only [ca]; omega) ?_ trivial
      intro u z hz hc
      have := k1 u z hz hc
      simp only [ca]; omega
    · rename_i hne
      cases hst
      have hlt : s.taken.length < s.wN ts := by
        rcases Nat.lt_or_ge s.taken.length (s.wN ts) with h1 | h1
        · exact h1
        · exact absurd (t1.2 (by omega)) hne
      refine inv_loadC h L (Or.inl rfl) _ _ ⟨rfl, by rw [hp]; rfl⟩ (by simp only [ca]; omega) ?_ ?_
      · intro u z hz hc
        have := k1 u z hz hc
        simp only [ca]; omega
      · exact ⟨rfl, next_mod h2, k2 hlt⟩

theorem inv_front {s s' : State α} (h : Inv s) {cur ts : Nat} (hp : s.cons = .fLoaded cur) (hst : doFront theCode s cur ts = some s') : Inv s' := by
  unfold doFront at hst
  have hcur : cur = s.taken.length % s.size := by have := h.c; unfold CInv at this; rw [hp] at this; exact this
  have hca : ca s.cons = 0 := by rw [hp]; rfl
  split at hst
  · cases hst
  · rename_i r m hl
    obtain ⟨y, L, rfl⟩ := load_facts hl
    obtain ⟨t1, t2, t3⟩ := test_spec h hca L
    obtain ⟨k1, k2⟩ := h.mem.seeW L
    rw [hcur] at hst
    split at hst
    · cases hst
      refine inv_loadC h L (Or.inl rfl) _ _ ⟨rfl, by rw [hp]; rfl⟩ (by simp only [ca]; omega) ?_ trivial
      intro u z hz hc
      have := k1 u z hz hc
      simp only [ca]; omega
    · rename_i hne
      cases hst
      have hlt : s.taken.length < s.wN ts := by
        rcases Nat.lt_or_ge s.taken.length (s.wN ts) with h1 | h1
        · exact h1
        · exact absurd (t1.2 (by omega)) hne
      refine inv_loadC h L (Or.inl rfl) _ _ ⟨rfl, by rw [hp]; rfl⟩ (by simp only [ca]; omega) ?_ ?_
      · intro u z hz hc
        have := k1 u z hz hc
        simp only [ca]; omega
      · exact ⟨rfl, k2 hlt⟩

/-- The consumer accesses the first record; `q` is its next program counter and `d` says whether the record is destroyed. -/
theorem inv_accessC {s : State α} (h : Inv s) {q : CPc α} (e : Event α) (d : Bool) (hca : ca s.cons = 1) (hcx : cx s.cons = 0) (ho : Own s 0 s.taken.length)
    (hq : ca q = 1) (hqx : cx q = if d then 1 else 0)
    (hc : ∀ s' : State α, s'.cons = q → s'.size = s.size → s'.taken = s.taken → s'.written = s.written → Own s' 0 s.taken.length → CInv s') :
    Inv { access s 0 (s.taken.length % s.size) with cons := q, ev := e, slots := if d then upd s.slots (s.taken.length % s.size) none else s.slots } := by
  have h2 := h.size2
  have hcap := h.cap
  have hle := h.le
  rw [hca] at hle
  have hclear : s.m.clear 0 (.slot (s.taken.length % s.size)) = true := by unfold Mem.clear; exact decide_eq_true ho
  have hmem := h.mem.touch (t := 0) (i := s.taken.length % s.size) (by omega) (Or.inr ⟨rfl, rfl, by omega⟩)
  have hne : ∀ j, s.taken.length < j + s.size → j < s.taken.length + s.size → j ≠ s.taken.length → j % s.size ≠ s.taken.length % s.size :=
    fun j h3 h4 h5 e => h5 (mod_window e (by omega) (by omega))
  have hkw := h.kw.touch 0 (.slot (s.taken.length % s.size))
  have hkr := h.kr.touch 0 (.slot (s.taken.length % s.size))
  rw [hca] at hkw
  have hlive := h.live
  have hdead := h.dead
  rw [hcx] at hlive hdead
  have hpx : px s.prod ≤ pa s.prod := by cases s.prod <;> simp [px, pa]
  unfold access
  refine ⟨h2, ?_, h.bad, hmem, h.pre, ?_, h.cap, ?_, hkr, ?_, ?_, ?_, ?_⟩
  · simp [h.race, hclear]
  · simp only [hq]; exact hle
  · simp only [hq]; exact hkw
  · intro j hj hj'
    simp only [hqx] at hj hj' ⊢
    cases d
    · simp only [Bool.false_eq_true, if_false] at hj ⊢; exact hlive j hj hj'
    · simp only [if_true] at hj ⊢
      rw [upd_ne _ _ (hne j (by omega) (by omega) (by omega))]
      exact hlive j (by omega) hj'
  · intro k hk hk'
    simp only [hqx] at hk hk' ⊢
    cases d
    · simp only [Bool.false_eq_true, if_false] at hk' ⊢; exact hdead k hk hk'
    · simp only [if_true] at hk' ⊢
      rcases Nat.lt_or_ge k (s.taken.length + s.size) with h1 | h1
      · rw [upd_ne _ _ (hne k (by omega) h1 (by omega))]
        exact hdead k hk (by omega)
      · have : k = s.taken.length + s.size := by omega
        subst this
        rw [Nat.add_mod_right, upd_same]
  · refine h.p.mono rfl rfl rfl (fun x nxt hb => ?_) (fun hpa ho => ?_)
    · simp only
      have := hb
      have hpb : pa s.prod = 1 := by rw [hb]; rfl
      cases d
      · rfl
      · simp only [if_true]
        rw [upd_ne _ _ (hne _ (by omega) (by omega) (by omega))]
    · unfold Own at ho ⊢
      simp only
      have hd : s.written.length % s.size ≠ s.taken.length % s.size := hne _ (by omega) (by omega) (by omega)
      rw [touch_log, if_neg (fun e => hd (Loc.slot.inj e)), touch_cur_ne _ _ _ (fun e => hd (Loc.slot.inj e))]
      exact ho
  · exact hc _ rfl rfl rfl rfl (touch_cur_self _ _ _)

/-- The first record is there. -/
theorem first_some {s : State α} (h : Inv s) (hca : ca s.cons = 1) (hcx : cx s.cons = 0) :
    ∃ v, s.slots (s.taken.length % s.size) = some v ∧ s.written[s.taken.length]? = some v := by
  have hle := h.le
  have hl := h.live s.taken.length (by rw [hcx]; exact Nat.le_refl _) (by omega)
  have hlt : s.taken.length < s.written.length := by omega
  refine ⟨s.written[s.taken.length], ?_, List.getElem?_eq_getElem hlt⟩
  rw [hl]; exact List.getElem?_eq_getElem hlt

theorem inv_move {s s' : State α} (h : Inv s) {cur nxt : Nat} (hp : s.cons = .rAvail cur nxt) (hst : doMove s cur nxt = some s') : Inv s' := by
  have hci := h.c
  unfold CInv at hci; rw [hp] at hci
  obtain ⟨rfl, hn, ho⟩ := hci
  obtain ⟨v, h1, h2⟩ := first_some h (by rw [hp]; rfl) (by rw [hp]; rfl)
  unfold doMove at hst
  rw [h1] at hst
  cases hst
  exact inv_accessC h .none false (by rw [hp]; rfl) (by rw [hp]; rfl) ho rfl rfl (q := .rMoved v _ nxt) (fun s' e1 e2 e3 e4 e5 => by
    unfold CInv; rw [e1, e2, e3, e4]; exact ⟨rfl, hn, e5, h2⟩)

theorem inv_use {s s' : State α} (h : Inv s) {cur : Nat} (hp : s.cons = .holding cur) (hst : doUse s cur = some s') : Inv s' := by
  have hci := h.c
  unfold CInv at hci; rw [hp] at hci
  obtain ⟨rfl, ho⟩ := hci
  obtain ⟨v, h1, h2⟩ := first_some h (by rw [hp]; rfl) (by rw [hp]; rfl)
  unfold doUse at hst
  rw [h1] at hst
  cases hst
  have := inv_accessC h (.front v) false (by rw [hp]; rfl) (by rw [hp]; rfl) ho rfl rfl (q := .holding _) (fun s' e1 e2 e3 e4 e5 => by
    unfold CInv; rw [e1, e2, e3]; exact ⟨rfl, e5⟩)
  rw [← hp] at this
  exact this

theorem inv_destroy {s s' : State α} (h : Inv s) {cur : Nat} {q : α → CPc α} (hcur : cur = s.taken.length % s.size)
    (hca : ca s.cons = 1) (hcx : cx s.cons = 0) (ho : Own s 0 s.taken.length) (hq : ∀ v, ca (q v) = 1) (hqx : ∀ v, cx (q v) = 1)
    (hst : doDestroy s cur q = some s')
    (hc : ∀ v, s.written[s.taken.length]? = some v → ∀ s' : State α, s'.cons = q v → s'.size = s.size → s'.taken = s.taken → s'.written = s.written →
      Own s' 0 s.taken.length → CInv s') : Inv s' := by
  obtain ⟨v, h1, h2⟩ := first_some h hca hcx
  unfold doDestroy at hst
  subst hcur
  rw [h1] at hst
  cases hst
  exact inv_accessC h .none true hca hcx ho (hq v) (hqx v) (hc v h2)

theorem inv_release {s s' : State α} (h : Inv s) {v : α} {nxt ts : Nat} {e : Event α} (hst : doRelease theCode s v nxt ts e = some s')
    (hca : ca s.cons = 1) (hcx : cx s.cons = 1) (hn : nxt = (s.taken.length + 1) % s.size) (ho : Own s 0 s.taken.length) (hv : s.written[s.taken.length]? = some v) : Inv s' := by
  have hcap := h.cap
  have hle := h.le
  have hlive := h.live
  have hdead := h.dead
  have hkw := h.kw
  have hkr := h.kr
  rw [hca] at hle hkw
  rw [hcx] at hlive hdead
  unfold doRelease at hst
  split at hst
  · cases hst
  · rename_i m hm
    obtain ⟨w, L⟩ := store_facts hm
    cases hst
    have hmem := h.mem.storeR L hn ho
    have hlen : (s.taken ++ [v]).length = s.taken.length + 1 := by simp
    refine ⟨h.size2, h.race, h.bad, ?_, ?_, ?_, ?_, ?_, ?_, ?_, ?_, ?_, trivial⟩
    · simp only [hlen]; exact hmem
    · simp only [hlen]
      rw [List.take_add_one, h.pre, hv]; rfl
    · simp only [hlen, ca]; omega
    · simp only [hlen]; omega
    · simp only [hlen, ca]; exact hkw.storeR L
    · exact hkr.storeR L (by omega)
    · intro j hj hj'
      simp only [hlen, cx] at hj hj' ⊢
      exact hlive j (by omega) hj'
    · intro k hk hk'
      simp only [hlen, cx] at hk hk' ⊢
      exact hdead k hk (by omega)
    · exact h.p.mono rfl rfl rfl (fun _ _ _ => rfl) (fun _ ho => ho.mono rfl L.log L.mono)

theorem inv_stepP {s s' : State α} (h : Inv s) {ts : Nat} (hst : stepP theCode s ts = some s') : Inv s' := by
  unfold stepP at hst
  split at hst
  · cases hst
  · exact inv_space h ‹_› hst
  · exact inv_build h ‹_› hst
  · exact inv_publish h ‹_› hst

theorem inv_stepC {s s' : State α} (h : Inv s) {ts : Nat} (hst : stepC theCode s ts = some s') : Inv s' := by
  have hci := h.c
  unfold CInv at hci
  unfold stepC at hst
  cases hp : s.cons with
  | idle => simp only [hp] at hst; cases hst
  | holding cur => simp only [hp] at hst; cases hst
  | rLoaded cur => simp only [hp] at hst; exact inv_avail h hp hst
  | fLoaded cur => simp only [hp] at hst; exact inv_front h hp hst
  | rAvail cur nxt => simp only [hp] at hst; exact inv_move h hp hst
  | rMoved v cur nxt =>
    simp only [hp] at hst hci
    obtain ⟨h1, h2, h3, h4⟩ := hci
    exact inv_destroy h h1 (by rw [hp]; rfl) (by rw [hp]; rfl) h3 (fun _ => rfl) (fun _ => rfl) hst (fun v' _ s' e1 e2 e3 e4 e5 => by
      unfold CInv; rw [e1, e2, e3, e4]; exact ⟨h2, e5, h4⟩)
  | pLoaded cur nxt =>
    simp only [hp] at hst hci
    obtain ⟨h1, h2, h3⟩ := hci
    exact inv_destroy h h1 (by rw [hp]; rfl) (by rw [hp]; rfl) h3 (fun _ => rfl) (fun _ => rfl) hst (fun v' hv s' e1 e2 e3 e4 e5 => by
      unfold CInv; rw [e1, e2, e3, e4]; exact ⟨h2, e5, hv⟩)
  | rDestroyed v nxt =>
    simp only [hp] at hst hci
    obtain ⟨h1, h2, h3⟩ := hci
    exact inv_release h hst (by rw [hp]; rfl) (by rw [hp]; rfl) h1 h2 h3
  | pDestroyed v nxt =>
    simp only [hp] at hst hci
    obtain ⟨h1, h2, h3⟩ := hci
    exact inv_release h hst (by rw [hp]; rfl) (by rw [hp]; rfl) h1 h2 h3

theorem inv_step (s : State α) (a : Act α) (s' : State α) (h : Inv s) (hst : step theCode s a = some s') : Inv s' := by
  cases a with
  | write x ts =>
    simp only [step] at hst
    split at hst
    · exact inv_write h ‹_› hst
    · cases hst
  | p ts => exact inv_stepP h hst
  | read ts =>
    simp only [step] at hst
    split at hst
    · rename_i hp
      exact inv_loadR h hst (fun _ => ⟨rfl, by rw [hp]; rfl⟩) (fun _ => Nat.zero_le _) (fun _ _ _ => rfl)
    · cases hst
  | front ts =>
    simp only [step] at hst
    split at hst
    · rename_i hp
      exact inv_loadR h hst (fun _ => ⟨rfl, by rw [hp]; rfl⟩) (fun _ => Nat.zero_le _) (fun _ _ _ => rfl)
    · cases hst
  | use =>
    simp only [step] at hst
    split at hst
    · exact inv_use h ‹_› hst
    · cases hst
  | pop ts =>
    simp only [step] at hst
    split at hst
    · rename_i cur hp
      have hci := h.c
      unfold CInv at hci; rw [hp] at hci
      refine inv_loadR h hst (fun _ => ⟨rfl, by rw [hp]; rfl⟩) (fun _ => by rw [hp]; exact Nat.le_refl _) (fun m h1 h2 => ?_)
      exact ⟨rfl, next_mod h.size2, hci.2.mono rfl h1.symm h2⟩
    · cases hst
  | drop =>
    simp only [step] at hst
    split at hst
    · rename_i cur hp
      cases hst
      have hle := h.le
      refine ⟨h.size2, h.race, h.bad, h.mem, h.pre, by simp only [ca]; omega, h.cap, ?_, h.kr, ?_, ?_, ?_, trivial⟩
      · intro u z hz hc
        have := h.kw u z hz hc
        simp only [ca]; omega
      · have := h.live; rw [hp] at this; exact this
      · have := h.dead; rw [hp] at this; exact this
      · exact h.p.mono rfl rfl rfl (fun _ _ _ => rfl) (fun _ ho => ho)
    · cases hst
  | c ts => exact inv_stepC h hst

theorem inv_reach {s : State α} (h : Reached theCode s) : Inv s := Reachable.invariant Inv inv_init inv_step h

end Verif.SpscRA
