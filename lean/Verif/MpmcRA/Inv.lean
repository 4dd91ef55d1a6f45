import Verif.MpmcRA.Lemmas
/-! Every step keeps the invariant. -/
namespace Verif.MpmcRA
open Verif.Common Verif.RelAcq
open Verif.Mpmc (owns)
variable {α : Type}

theorem rinv_load {s : State α} (h : RInv s) {t : Nat} {pc pc' : Mpmc.Pc α} {ev : Mpmc.Event α} {m' : Mem Loc} {l : Loc} {a : Bool} {ts : Nat} {x : Msg Loc}
    (ht : s.q.th[t]? = some pc) (L : Loaded s.m m' t l a ts x) (hq : Mpmc.Inv (s.q.setPc t pc' ev)) (ho : owns pc = none)
    (hk : Knows (s.q.setPc t pc' ev) m' s.top t pc') : RInv { s with m := m', q := s.q.setPc t pc' ev } := by
  refine ⟨hq, h.race, ?_, ?_⟩
  · exact h.si.other (pc := pc) (pc' := pc') ht rfl rfl rfl (fun i ts => by rw [L.msg]) L.log L.mono (fun p hp => by rw [ho] at hp; cases hp) hk
  · exact h.pi.views rfl rfl rfl (fun ts => by rw [L.msg]; exact ⟨rfl, rfl⟩) L.mono

/-- After a load of the wanted sequence number. -/
theorem knows_ready {s : State α} {t p v : Nat} {pc' : Mpmc.Pc α} {ev : Mpmc.Event α} {m' : Mem Loc} {ts : Nat} {x : Msg Loc}
    (L : Loaded s.m m' t (.seq (s.q.cell p)) true ts x) (hv : x.val = v) (hr : ready pc' = some (p, v)) (ho : owns pc' = none) :
    Knows (s.q.setPc t pc' ev) m' s.top t pc' := by
  constructor
  · intro p' v' hr'
    rw [hr] at hr'; cases hr'
    refine ⟨ts, x, by rw [L.msg]; exact L.src, hv, ?_, L.acq rfl _⟩
    rw [L.cur]
    have h1 := le_join_right (s.m.cur t) (single (Loc.seq (s.q.cell p)) ts) (.seq (s.q.cell p))
    have h2 := le_join_left (join (s.m.cur t) (single (Loc.seq (s.q.cell p)) ts)) (if true then x.view else zero) (.seq (s.q.cell p))
    rw [single_same] at h1
    exact Nat.le_trans h1 h2
  · intro p' hp'; rw [ho] at hp'; cases hp'

theorem load_ts {m m' : Mem Loc} {t : Nat} {l : Loc} {a : Bool} {ts : Nat} {x : Msg Loc} (L : Loaded m m' t l a ts x) : ts ≤ m'.cur t l := by
  rw [L.cur]
  have h1 := le_join_right (m.cur t) (single l ts) l
  have h2 := le_join_left (join (m.cur t) (single l ts)) (if a then x.view else zero) l
  rw [single_same] at h1
  exact Nat.le_trans h1 h2

/-- Threads that hold nothing. -/
def free (pc : Mpmc.Pc α) : Prop := owns pc = none ∧ Mpmc.holdsE pc = none ∧ Mpmc.holdsD pc = none ∧ Mpmc.holdsS pc = none

theorem inv_setFree {q : Mpmc.State α} (h : Mpmc.Inv q) {t : Nat} {pc pc' : Mpmc.Pc α} {ev : Mpmc.Event α} (ht : q.th[t]? = some pc) (hf : free pc) (hf' : free pc')
    (hp : Mpmc.PcInv q pc') (hD : Mpmc.isD pc' = true → q.sc = none) (hS : Mpmc.isS pc' = true → q.sc = some t) : Mpmc.Inv (q.setPc t pc' ev) :=
  Mpmc.inv_setPc h ht hp (by rw [hf.2.1, hf'.2.1]) (by rw [hf.2.2.1, hf'.2.2.1]) (by rw [hf.2.2.2, hf'.2.2.2]) hD hS

theorem sc_step {s : State α} (h : RInv s) {t : Nat} {pc : Mpmc.Pc α} {q' : Mpmc.State α} (ht : s.q.th[t]? = some pc) (hst : Mpmc.stepPc s.q t pc = some q') : Mpmc.Inv q' :=
  Mpmc.inv_step (a := .go t) h.q (by simp only [Mpmc.step]; rw [ht]; exact hst)

/-- The load of a sequence number in `try_enqueue`. -/
theorem inv_eLoaded {s s' : State α} (h : RInv s) {t ts pos : Nat} {x : α} (ht : s.q.th[t]? = some (.eLoaded x pos))
    (hst : withLoad s t (.seq (s.q.cell pos)) true ts (afterE s.q t x pos) = some s') : RInv s' := by
  have hpc := h.q.pcs t _ ht
  simp only [Mpmc.PcInv] at hpc
  unfold withLoad at hst
  split at hst
  · cases hst
  · rename_i v m hl
    obtain ⟨y, L, rfl⟩ := load_facts hl
    cases hst
    have hle := (h.si.isTop L.src).1
    unfold afterE
    split
    · rename_i e
      exact rinv_load h ht L (inv_setFree h.q ht ⟨rfl, rfl, rfl, rfl⟩ ⟨rfl, rfl, rfl, rfl⟩ ⟨hpc, by omega⟩ nofun nofun) rfl (knows_ready L e rfl rfl)
    · split
      · exact rinv_load h ht L (inv_setFree h.q ht ⟨rfl, rfl, rfl, rfl⟩ ⟨rfl, rfl, rfl, rfl⟩ trivial nofun nofun) rfl (Knows.nothing rfl rfl)
      · exact rinv_load h ht L (inv_setFree h.q ht ⟨rfl, rfl, rfl, rfl⟩ ⟨rfl, rfl, rfl, rfl⟩ trivial nofun nofun) rfl (Knows.nothing rfl rfl)

theorem inv_dLoaded {s s' : State α} (h : RInv s) {t ts pos : Nat} (ht : s.q.th[t]? = some (.dLoaded pos))
    (hst : withLoad s t (.seq (s.q.cell pos)) true ts (afterD s.q t pos) = some s') : RInv s' := by
  have hpc := h.q.pcs t _ ht
  have hD := h.q.modeD t _ ht rfl
  simp only [Mpmc.PcInv] at hpc
  unfold withLoad at hst
  split at hst
  · cases hst
  · rename_i v m hl
    obtain ⟨y, L, rfl⟩ := load_facts hl
    cases hst
    have hle := (h.si.isTop L.src).1
    unfold afterD
    split
    · rename_i e
      exact rinv_load h ht L (inv_setFree h.q ht ⟨rfl, rfl, rfl, rfl⟩ ⟨rfl, rfl, rfl, rfl⟩ ⟨hpc, by omega⟩ (fun _ => hD) nofun) rfl (knows_ready L e rfl rfl)
    · split
      · exact rinv_load h ht L (inv_setFree h.q ht ⟨rfl, rfl, rfl, rfl⟩ ⟨rfl, rfl, rfl, rfl⟩ trivial nofun nofun) rfl (Knows.nothing rfl rfl)
      · exact rinv_load h ht L (inv_setFree h.q ht ⟨rfl, rfl, rfl, rfl⟩ ⟨rfl, rfl, rfl, rfl⟩ trivial (fun _ => hD) nofun) rfl (Knows.nothing rfl rfl)

/-- The single consumer owns the cell from here on. -/
theorem inv_sLoaded {s s' : State α} (h : RInv s) {t ts pos : Nat} (ht : s.q.th[t]? = some (.sLoaded pos))
    (hst : withLoad s t (.seq (s.q.cell pos)) true ts (afterS s.q t pos) = some s') : RInv s' := by
  unfold withLoad at hst
  split at hst
  · cases hst
  · rename_i v m hl
    obtain ⟨y, L, rfl⟩ := load_facts hl
    cases hst
    have hle := (h.si.isTop L.src).1
    unfold afterS
    split
    · exact rinv_load h ht L (inv_setFree h.q ht ⟨rfl, rfl, rfl, rfl⟩ ⟨rfl, rfl, rfl, rfl⟩ trivial nofun nofun) rfl (Knows.nothing rfl rfl)
    · rename_i hge
      have hq : Mpmc.Inv (s.q.setPc t (.sReady pos)) := sc_step h ht (by
        simp only [Mpmc.stepPc]; rw [if_neg (by omega)])
      have hself : (s.q.setPc t (.sReady pos)).th[t]? = some (.sReady pos) := by
        show (s.q.th.set t _)[t]? = _
        rw [List.getElem?_set_self (lt_of_get ht)]
      have hpc := hq.pcs t _ hself
      simp only [Mpmc.PcInv] at hpc
      have hseq : s.q.seq (s.q.cell pos) = pos + 1 := hpc.2.2.1
      refine rinv_load h ht L hq rfl ?_
      exact h.si.claim hq ht rfl rfl rfl rfl rfl rfl L.log (L.mono t) ⟨ts, y, L.src, by omega, load_ts L, L.acq rfl _⟩

/-- A compare-and-swap of `enqueue_pos_` succeeds only on its last value. -/
theorem cas_enq {s : State α} (h : RInv s) {t ts pos : Nat} {m : Mem Loc} (hm : s.m.cas t .enq pos (pos + 1) false false ts = some m) :
    s.q.enqPos = pos ∧ ts = pos := by
  obtain ⟨y, w, L, hv⟩ := rmw_facts (cas_iff.1 hm)
  obtain ⟨g1, g2⟩ := h.pi.enq ts y L.src
  have hpos : s.q.enqPos = pos := by
    rcases Nat.eq_or_lt_of_le g1 with e | hlt
    · omega
    · exact absurd L.free (h.pi.enqAll (ts + 1) hlt)
  exact ⟨hpos, by omega⟩

/-- The same for `dequeue_pos_`, unless it is stored to. -/
theorem cas_deq {s : State α} (h : RInv s) (hD : s.q.sc = none) {t ts pos : Nat} {m : Mem Loc} (hm : s.m.cas t .deq pos (pos + 1) false false ts = some m) :
    s.q.deqPos = pos ∧ ts = s.deqTop := by
  obtain ⟨y, w, L, hv⟩ := rmw_facts (cas_iff.1 hm)
  obtain ⟨g1, g2⟩ := h.pi.deq ts y L.src
  have hts : ts = s.deqTop := by
    rcases Nat.eq_or_lt_of_le g1 with e | hlt
    · exact e
    · exact absurd L.free (h.pi.deqAll hD (ts + 1) hlt)
  refine ⟨?_, hts⟩
  obtain ⟨z, hz, hz'⟩ := h.pi.deqLast
  rw [← hts, L.src] at hz; cases hz
  omega

/-- The compare-and-swap of `enqueue_pos_`. -/
theorem inv_eReady {s s' : State α} (h : RInv s) {t ts pos : Nat} {x : α} (ht : s.q.th[t]? = some (.eReady x pos))
    (hst : withCas s t .enq pos ts { s.q.setPc t (.eClaimed x pos) with enqPos := pos + 1, enq := s.q.enq ++ [x] } s.deqTop = some s') : RInv s' := by
  unfold withCas at hst
  split at hst
  · cases hst
  · rename_i m hm
    obtain ⟨hpos, hts⟩ := cas_enq h hm
    obtain ⟨y, w, L, hv⟩ := rmw_facts (cas_iff.1 hm)
    cases hst
    subst hts
    have hq := Mpmc.inv_claimE h.q ht hpos
    have hself : ({ s.q.setPc t (.eClaimed x ts) with enqPos := ts + 1, enq := s.q.enq ++ [x] } : Mpmc.State α).th[t]? = some (.eClaimed x ts) := by
      show (s.q.th.set t _)[t]? = _
      rw [List.getElem?_set_self (lt_of_get ht)]
    have hseq : s.q.seq (s.q.cell ts) = ts := (hq.pcs t _ hself).2.2.1
    have hmsg : ∀ l u, l ≠ Loc.enq → m.msg l u = s.m.msg l u := fun l u hl => L.old _ _ (by rintro ⟨e, _⟩; exact hl e)
    refine ⟨hq, h.race, ?_, ?_⟩
    · refine h.si.other (pc := .eReady x ts) (pc' := .eClaimed x ts) ht rfl rfl rfl (fun i u => hmsg _ _ nofun) L.log L.mono nofun ?_
      obtain ⟨u, z, k1, k2, k3, k4⟩ := (h.si.pcs t _ ht).ready ts ts rfl
      exact h.si.claim hq ht rfl rfl rfl rfl rfl rfl L.log (L.mono t) ⟨u, z, k1, by omega, Nat.le_trans k3 (L.mono t _), Nat.le_trans k4 (L.mono t _)⟩
    · refine ⟨?_, ?_, ?_, ?_, ?_, ?_⟩
      · intro u z hz
        by_cases e : u = ts + 1
        · subst e
          rw [L.new] at hz; cases hz
          exact ⟨Nat.le_refl _, rfl⟩
        · rw [L.old _ _ (by rintro ⟨_, e'⟩; exact e e')] at hz
          obtain ⟨k1, k2⟩ := h.pi.enq u z hz
          exact ⟨show u ≤ ts + 1 by omega, k2⟩
      · intro u hu
        by_cases e : u = ts + 1
        · subst e; rw [L.new]; nofun
        · rw [L.old _ _ (by rintro ⟨_, e'⟩; exact e e')]
          have : u ≤ ts + 1 := hu
          exact h.pi.enqAll u (by omega)
      · intro u z hz
        rw [hmsg .deq _ nofun] at hz
        exact h.pi.deq u z hz
      · obtain ⟨z, hz, hz'⟩ := h.pi.deqLast
        exact ⟨z, by rw [hmsg .deq _ nofun]; exact hz, hz'⟩
      · intro hs u hu
        rw [hmsg .deq _ nofun]
        exact h.pi.deqAll hs u hu
      · intro u hs
        exact Nat.le_trans (h.pi.deqOwn u hs) (L.mono u _)

/-- The compare-and-swap of `dequeue_pos_`. -/
theorem inv_dReady {s s' : State α} (h : RInv s) {t ts pos : Nat} (ht : s.q.th[t]? = some (.dReady pos))
    (hst : withCas s t .deq pos ts { s.q.setPc t (.dClaimed pos) with deqPos := pos + 1 } (ts + 1) = some s') : RInv s' := by
  have hD := h.q.modeD t _ ht rfl
  unfold withCas at hst
  split at hst
  · cases hst
  · rename_i m hm
    obtain ⟨hpos, hts⟩ := cas_deq h hD hm
    obtain ⟨y, w, L, hv⟩ := rmw_facts (cas_iff.1 hm)
    cases hst
    have hq : Mpmc.Inv { s.q.setPc t (.dClaimed pos) with deqPos := pos + 1 } := sc_step h ht (by
      simp only [Mpmc.stepPc]; rw [if_pos hpos])
    have hself : ({ s.q.setPc t (.dClaimed pos) with deqPos := pos + 1 } : Mpmc.State α).th[t]? = some (.dClaimed pos) := by
      show (s.q.th.set t _)[t]? = _
      rw [List.getElem?_set_self (lt_of_get ht)]
    have hseq : s.q.seq (s.q.cell pos) = pos + 1 := (hq.pcs t _ hself).2.2.1
    have hmsg : ∀ l u, l ≠ Loc.deq → m.msg l u = s.m.msg l u := fun l u hl => L.old _ _ (by rintro ⟨e, _⟩; exact hl e)
    refine ⟨hq, h.race, ?_, ?_⟩
    · refine h.si.other (pc := .dReady pos) (pc' := .dClaimed pos) ht rfl rfl rfl (fun i u => hmsg _ _ nofun) L.log L.mono nofun ?_
      obtain ⟨u, z, k1, k2, k3, k4⟩ := (h.si.pcs t _ ht).ready pos (pos + 1) rfl
      exact h.si.claim hq ht rfl rfl rfl rfl rfl rfl L.log (L.mono t) ⟨u, z, k1, by omega, Nat.le_trans k3 (L.mono t _), Nat.le_trans k4 (L.mono t _)⟩
    · refine ⟨?_, ?_, ?_, ?_, ?_, ?_⟩
      · intro u z hz
        rw [hmsg .enq _ nofun] at hz
        exact h.pi.enq u z hz
      · intro u hu
        rw [hmsg .enq _ nofun]
        exact h.pi.enqAll u hu
      · intro u z hz
        show u ≤ ts + 1 ∧ z.val ≤ pos + 1
        by_cases e : u = ts + 1
        · subst e
          rw [L.new] at hz; cases hz
          exact ⟨Nat.le_refl _, Nat.le_refl _⟩
        · rw [L.old _ _ (by rintro ⟨_, e'⟩; exact e e')] at hz
          obtain ⟨k1, k2⟩ := h.pi.deq u z hz
          omega
      · exact ⟨_, L.new, rfl⟩
      · intro hs u hu
        have hu : u ≤ ts + 1 := hu
        by_cases e : u = ts + 1
        · subst e; rw [L.new]; nofun
        · rw [L.old _ _ (by rintro ⟨_, e'⟩; exact e e')]
          exact h.pi.deqAll hD u (by omega)
      · intro u hs
        have : s.q.sc = some u := hs
        rw [hD] at this; cases this

/-- The store of `dequeue_pos_` by the single consumer. -/
theorem inv_sDestroyed {s s' : State α} (h : RInv s) {t ts pos : Nat} {v : α} (ht : s.q.th[t]? = some (.sDestroyed v pos))
    (hst : withPos s t pos ts { s.q.setPc t (.sStored v pos) with deqPos := pos + 1 } = some s') : RInv s' := by
  have hS := h.q.modeS t _ ht rfl
  have hq : Mpmc.Inv { s.q.setPc t (.sStored v pos) with deqPos := pos + 1 } := sc_step h ht rfl
  unfold withPos at hst
  split at hst
  · cases hst
  · rename_i m hm
    obtain ⟨w, L⟩ := store_facts hm
    cases hst
    have hmsg : ∀ l u, l ≠ Loc.deq → m.msg l u = s.m.msg l u := fun l u hl => L.old _ _ (by rintro ⟨e, _⟩; exact hl e)
    have hpos : pos = s.q.deqPos := (h.q.pcs t _ ht).1
    have habove := L.above
    have hown := h.pi.deqOwn t hS
    refine ⟨hq, h.race, ?_, ?_⟩
    · refine h.si.other (pc := .sDestroyed v pos) (pc' := .sStored v pos) ht rfl rfl rfl (fun i u => hmsg _ _ nofun) L.log L.mono (fun p hp => hp) ?_
      obtain ⟨k1, k2⟩ := (h.si.pcs t _ ht).own pos rfl
      constructor
      · nofun
      · intro p hp
        cases hp
        show m.log (.cell (s.q.cell pos)) ≤ _ ∧ _
        rw [L.log]
        exact ⟨Nat.le_trans k1 (L.mono t _), Nat.le_trans k2 (L.mono t _)⟩
    · refine ⟨?_, ?_, ?_, ?_, ?_, ?_⟩
      · intro u z hz
        rw [hmsg .enq _ nofun] at hz
        exact h.pi.enq u z hz
      · intro u hu
        rw [hmsg .enq _ nofun]
        exact h.pi.enqAll u hu
      · intro u z hz
        show u ≤ ts ∧ z.val ≤ pos + 1
        by_cases e : u = ts
        · subst e
          rw [L.new] at hz; cases hz
          exact ⟨Nat.le_refl _, Nat.le_refl _⟩
        · rw [L.old _ _ (by rintro ⟨_, e'⟩; exact e e')] at hz
          obtain ⟨k1, k2⟩ := h.pi.deq u z hz
          omega
      · exact ⟨_, L.new, rfl⟩
      · intro hs
        have : s.q.sc = none := hs
        rw [hS] at this; cases this
      · intro u hs
        have : s.q.sc = some u := hs
        rw [hS] at this; cases this
        exact L.ge

theorem inv_access {s s' : State α} (h : RInv s) {t pos : Nat} {pc pc' : Mpmc.Pc α} {q' : Mpmc.State α} (ht : s.q.th[t]? = some pc)
    (hst : withAccess s t pos (Mpmc.stepPc s.q t pc) = some s') (hq : Mpmc.stepPc s.q t pc = some q') (hth : q'.th = s.q.th.set t pc')
    (hm : q'.mask = s.q.mask) (hseq : q'.seq = s.q.seq) (hE : q'.enqPos = s.q.enqPos) (hD : q'.deqPos = s.q.deqPos) (hsc : q'.sc = s.q.sc)
    (ho : owns pc = some pos) (ho' : owns pc' = some pos) (hr : ready pc' = none) : RInv s' := by
  have hi := sc_step h ht hq
  unfold withAccess at hst
  rw [hq] at hst
  cases hst
  obtain ⟨k1, k2⟩ := h.si.access h.q ht hth hm hseq ho ho' hr
  exact ⟨hi, by simp [h.race, k1], k2, h.pi.views hE hD hsc (fun _ => ⟨rfl, rfl⟩) (fun _ _ => touch_cur_mono _ _ _ _ _)⟩

theorem inv_store {s s' : State α} (h : RInv s) {t pos v ts : Nat} {pc : Mpmc.Pc α} {q' : Mpmc.State α} (ht : s.q.th[t]? = some pc)
    (hst : withStore s t pos v true ts (Mpmc.stepPc s.q t pc) = some s') (hq : Mpmc.stepPc s.q t pc = some q') (hth : q'.th = s.q.th.set t .idle)
    (hm : q'.mask = s.q.mask) (hseq : q'.seq = upd s.q.seq (s.q.cell pos) v) (hE : q'.enqPos = s.q.enqPos) (hD : q'.deqPos = s.q.deqPos) (hsc : q'.sc = s.q.sc)
    (ho : owns pc = some pos) (hv : s.q.seq (s.q.cell pos) < v) : RInv s' := by
  have hi := sc_step h ht hq
  unfold withStore at hst
  rw [hq] at hst
  simp only at hst
  split at hst
  · cases hst
  · rename_i m hm'
    obtain ⟨w, L⟩ := store_facts hm'
    cases hst
    refine ⟨hi, h.race, h.si.store h.q ht hth hm hseq ho rfl rfl hv L, h.pi.views hE hD hsc (fun u => ⟨?_, ?_⟩) L.mono⟩
    · exact L.old _ _ (by rintro ⟨e, _⟩; cases e)
    · exact L.old _ _ (by rintro ⟨e, _⟩; cases e)

/-- A load of a position. -/
theorem inv_loadPos {s s' : State α} (h : RInv s) {t ts : Nat} {l : Loc} {pc : Mpmc.Pc α} {k : Nat → Mpmc.Pc α} (ht : s.q.th[t]? = some pc)
    (hst : withLoad s t l false ts (fun v => s.q.setPc t (k v)) = some s') (hf : free pc) (hf' : ∀ v, free (k v) ∧ ready (k v) = none)
    (hp : ∀ m x, Loaded s.m m t l false ts x → Mpmc.PcInv s.q (k x.val)) (hD : ∀ v, Mpmc.isD (k v) = true → s.q.sc = none)
    (hS : ∀ v, Mpmc.isS (k v) = true → s.q.sc = some t) : RInv s' := by
  unfold withLoad at hst
  split at hst
  · cases hst
  · rename_i v m hl
    obtain ⟨y, L, rfl⟩ := load_facts hl
    cases hst
    exact rinv_load h ht L (inv_setFree h.q ht hf (hf' _).1 (hp m y L) (hD _) (hS _)) hf.1 (Knows.nothing (hf' _).2 (hf' _).1.1)

theorem inv_stepPc {s s' : State α} (h : RInv s) {t ts : Nat} {pc : Mpmc.Pc α} (ht : s.q.th[t]? = some pc) (hst : stepPc theCode s t ts pc = some s') : RInv s' := by
  have hpc := h.q.pcs t pc ht
  have hcap := Mpmc.cap_ge h.q.geo
  unfold Mpmc.State.cap at hcap
  cases pc with
  | idle => cases hst
  | eStart x =>
    refine inv_loadPos h ht hst ⟨rfl, rfl, rfl, rfl⟩ (fun _ => ⟨⟨rfl, rfl, rfl, rfl⟩, rfl⟩) (fun m y L => ?_) (fun _ => nofun) (fun _ => nofun)
    have := h.pi.enq ts y L.src
    show y.val ≤ s.q.enqPos
    omega
  | eLoaded x pos => exact inv_eLoaded h ht hst
  | eReady x pos => exact inv_eReady h ht hst
  | eClaimed x pos => exact inv_access h ht hst rfl rfl rfl rfl rfl rfl rfl rfl rfl rfl (pc' := .eBuilt x pos)
  | eBuilt x pos =>
    have : s.q.seq (s.q.cell pos) = pos := hpc.2.2.1
    exact inv_store h ht hst rfl rfl rfl rfl rfl rfl rfl rfl (by omega)
  | dStart =>
    have hD := h.q.modeD t _ ht rfl
    refine inv_loadPos h ht hst ⟨rfl, rfl, rfl, rfl⟩ (fun _ => ⟨⟨rfl, rfl, rfl, rfl⟩, rfl⟩) (fun m y L => ?_) (fun _ _ => hD) (fun _ => nofun)
    exact (h.pi.deq ts y L.src).2
  | dLoaded pos => exact inv_dLoaded h ht hst
  | dReady pos => exact inv_dReady h ht hst
  | dClaimed pos =>
    obtain ⟨_, _, _, v, hv, _⟩ := hpc
    have hst' : Mpmc.stepPc s.q t (.dClaimed pos) = some (s.q.setPc t (.dMoved v pos)) := by simp only [Mpmc.stepPc, hv]
    exact inv_access h ht hst hst' rfl rfl rfl rfl rfl rfl rfl rfl rfl
  | dMoved v pos => exact inv_access h ht hst rfl rfl rfl rfl rfl rfl rfl rfl rfl rfl (pc' := .dDestroyed v pos)
  | dDestroyed v pos =>
    have : s.q.seq (s.q.cell pos) = pos + 1 := hpc.2.2.1
    exact inv_store h ht hst rfl rfl rfl rfl rfl rfl rfl rfl (by omega)
  | sStart =>
    have hS := h.q.modeS t _ ht rfl
    refine inv_loadPos h ht hst ⟨rfl, rfl, rfl, rfl⟩ (fun _ => ⟨⟨rfl, rfl, rfl, rfl⟩, rfl⟩) (fun m y L => ?_) (fun _ => nofun) (fun _ _ => hS)
    have h1 := (h.pi.deq ts y L.src).1
    have h2 := h.pi.deqOwn t hS
    have h3 := L.may
    have h4 : ts = s.deqTop := by omega
    obtain ⟨z, hz, hz'⟩ := h.pi.deqLast
    rw [← h4, L.src] at hz; cases hz
    exact hz'
  | sLoaded pos => exact inv_sLoaded h ht hst
  | sReady pos =>
    obtain ⟨_, _, _, v, hv, _⟩ := hpc
    have hst' : Mpmc.stepPc s.q t (.sReady pos) = some (s.q.setPc t (.sMoved v pos)) := by simp only [Mpmc.stepPc, hv]
    exact inv_access h ht hst hst' rfl rfl rfl rfl rfl rfl rfl rfl rfl
  | sMoved v pos => exact inv_access h ht hst rfl rfl rfl rfl rfl rfl rfl rfl rfl rfl (pc' := .sDestroyed v pos)
  | sDestroyed v pos => exact inv_sDestroyed h ht hst
  | sStored v pos =>
    have : s.q.seq (s.q.cell pos) = pos + 1 := hpc.2.2.1
    exact inv_store h ht hst rfl rfl rfl rfl rfl rfl rfl rfl (by omega)

/-- A call starts. -/
theorem inv_begin {s : State α} (h : RInv s) {t : Nat} {pc' : Mpmc.Pc α} {a : Mpmc.Act α} (ht : s.q.th[t]? = some .idle) (hst : Mpmc.step s.q a = some (s.q.setPc t pc'))
    (hf : owns pc' = none) (hr : ready pc' = none) : RInv { s with q := s.q.setPc t pc' } :=
  ⟨Mpmc.inv_step h.q hst, h.race, h.si.other (pc := .idle) (pc' := pc') ht rfl rfl rfl (fun _ _ => rfl) rfl (fun _ _ => Nat.le_refl _) nofun (Knows.nothing hr hf),
    h.pi.views rfl rfl rfl (fun _ => ⟨rfl, rfl⟩) (fun _ _ => Nat.le_refl _)⟩

theorem inv_step (s : State α) (a : Act α) (s' : State α) (h : RInv s) (hst : step theCode s a = some s') : RInv s' := by
  cases a with
  | enqueue t x =>
    simp only [step] at hst
    split at hst
    · cases hst
    · rename_i q hq
      cases hst
      have hq2 := hq
      simp only [Mpmc.step] at hq
      split at hq
      · rename_i ht
        cases hq
        exact inv_begin h ht hq2 rfl rfl
      · cases hq
  | dequeue t =>
    simp only [step] at hst
    split at hst
    · cases hst
    · rename_i q hq
      cases hst
      have hq2 := hq
      simp only [Mpmc.step] at hq
      split at hq
      · rename_i ht
        split at hq
        · cases hq
          exact inv_begin h ht hq2 rfl rfl
        · split at hq
          · cases hq
            exact inv_begin h ht hq2 rfl rfl
          · cases hq
      · cases hq
  | go t ts =>
    simp only [step] at hst
    split at hst
    · exact inv_stepPc h ‹_› hst
    · cases hst
  | casFail t ts =>
    simp only [step] at hst
    split at hst
    · rename_i x p ht
      exact inv_loadPos h ht hst ⟨rfl, rfl, rfl, rfl⟩ (fun _ => ⟨⟨rfl, rfl, rfl, rfl⟩, rfl⟩) (fun _ _ _ => trivial) (fun _ => nofun) (fun _ => nofun)
    · rename_i p ht
      have hD := h.q.modeD t _ ht rfl
      exact inv_loadPos h ht hst ⟨rfl, rfl, rfl, rfl⟩ (fun _ => ⟨⟨rfl, rfl, rfl, rfl⟩, rfl⟩) (fun _ _ _ => trivial) (fun _ _ => hD) (fun _ => nofun)
    · cases hst

theorem inv_init (s : State α) (h : Init s) : RInv s := by
  obtain ⟨q, hq, rfl⟩ := h
  have hi := Mpmc.inv_init hq
  have hm : ∀ (l : Loc) ts x, (Mem.start first).msg l ts = some x → ts = 0 ∧ x = ⟨first l, zero⟩ := by
    intro l ts x hx
    unfold Mem.start at hx
    simp only at hx
    split at hx
    · cases hx; exact ⟨‹_›, rfl⟩
    · cases hx
  obtain ⟨k, n, sc, hk, rfl⟩ := hq
  have hpc : ∀ (t : Nat) (pc : Mpmc.Pc α), (List.replicate n (Mpmc.Pc.idle : Mpmc.Pc α))[t]? = some pc → pc = .idle := fun t pc h => Mpmc.replicate_get h
  refine ⟨hi, rfl, ⟨?_, ?_, ?_, ?_, ?_⟩, ?_, ?_, ?_, ?_, ?_, ?_⟩
  · intro i ts x hx; rw [(hm _ _ _ hx).1]; exact Nat.le_refl _
  · intro i ts x ts' x' hx hx' hlt; have := (hm _ _ _ hx).1; have := (hm _ _ _ hx').1; omega
  · intro i; exact ⟨⟨i, zero⟩, rfl, rfl⟩
  · intro i x _ _; exact Nat.zero_le _
  · intro t pc ht; rw [hpc t pc ht]; exact Knows.nothing rfl rfl
  · intro ts x hx; obtain ⟨rfl, rfl⟩ := hm _ _ _ hx; exact ⟨Nat.le_refl _, rfl⟩
  · intro ts hts
    have : ts = 0 := Nat.le_zero.1 hts
    subst this; nofun
  · intro ts x hx; obtain ⟨rfl, rfl⟩ := hm _ _ _ hx; exact ⟨Nat.le_refl _, Nat.le_refl _⟩
  · exact ⟨⟨0, zero⟩, rfl, rfl⟩
  · intro _ ts hts
    have : ts = 0 := Nat.le_zero.1 hts
    subst this; nofun
  · intro t _; exact Nat.zero_le _

theorem inv_reach {s : State α} (h : Reached theCode s) : RInv s := Reachable.invariant RInv inv_init inv_step h

end Verif.MpmcRA
