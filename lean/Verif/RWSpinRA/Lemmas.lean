import Verif.RWSpinRA.Model
import Verif.RWSpin.Lemmas
/-! The invariant of the lock over the memory of C++ threads. -/
namespace Verif.RWSpinRA
open Verif.Common Verif.RelAcq
open Verif.RWSpin (Pc Call)

/-- What the last message of the bits has in its view. -/
structure Pub (q : RWSpin.State) (m : Mem Loc) (v : View Loc) : Prop where
  wr : (∀ (i : Nat) (p : Pc), q.th[i]? = some p → p.isW = false) → m.log .wr ≤ v .wr
  rd : ∀ u, (∀ (p : Pc), q.th[u]? = some p → p.holds = false) → m.log (.rd u) ≤ v (.rd u)

/-- What the threads have in their views. -/
structure Own (q : RWSpin.State) (m : Mem Loc) : Prop where
  hold : ∀ (t : Nat) (p : Pc), q.th[t]? = some p → p.holds = true → m.log .wr ≤ m.cur t .wr
  mine : ∀ t, m.log (.rd t) ≤ m.cur t (.rd t)
  wrr : ∀ (t : Nat) (p : Pc), q.th[t]? = some p → p.isW = true → ∀ u, m.log (.rd u) ≤ m.cur t (.rd u)

structure RInv (s : State) : Prop where
  q : Reachable RWSpin.Init RWSpin.step s.q
  race : s.race = false
  all : ∀ ts, ts ≤ s.top → s.m.msg .bits ts ≠ none
  le : ∀ ts y, s.m.msg .bits ts = some y → ts ≤ s.top
  last : ∃ y, s.m.msg .bits s.top = some y ∧ y.val = s.q.bits ∧ Pub s.q s.m y.view
  own : Own s.q s.m

/-- How a call changes what its thread holds, and the order it has. -/
structure Change (p p' : Pc) (b : Nat) (a r : Bool) : Prop where
  relW : p.isW = true → p'.isW = false → r = true
  relH : p.holds = true → p'.holds = false → r = true
  acqH : p.holds = false → p'.holds = true → a = true ∧ b % 4 = 0
  acqW : p.isW = false → p'.isW = true → a = true ∧ (b = 0 ∨ b = 2 ∧ p = .up)

theorem change {p p' : Pc} {c : Call} {b b' : Nat} (h : RWSpin.stepPc b p c = some (b', p')) (he : (expected p c).all (· = b) = true) :
    Change p p' b (ord theCode p c).1 (ord theCode p c).2 := by
  cases p <;> cases c <;> simp only [RWSpin.stepPc, reduceCtorEq, Option.some.injEq, Prod.mk.injEq] at h
  case idle.tryLock =>
    have e : 0 = b := of_decide_eq_true he
    subst e; simp only [if_true, Option.some.injEq, Prod.mk.injEq] at h
    obtain ⟨_, rfl⟩ := h
    exact ⟨nofun, nofun, fun _ _ => ⟨rfl, rfl⟩, fun _ _ => ⟨rfl, Or.inl rfl⟩⟩
  case idle.tryShared =>
    obtain ⟨_, h⟩ := h
    split at h <;> rename_i hb <;> subst h
    · exact ⟨nofun, nofun, nofun, nofun⟩
    · exact ⟨nofun, nofun, fun _ _ => ⟨rfl, Classical.not_not.1 hb⟩, nofun⟩
  case idle.tryUpgrade =>
    obtain ⟨_, h⟩ := h
    split at h <;> rename_i hb <;> subst h
    · exact ⟨nofun, nofun, fun _ _ => ⟨rfl, hb⟩, nofun⟩
    · exact ⟨nofun, nofun, nofun, nofun⟩
  case up.promote =>
    have e : 2 = b := of_decide_eq_true he
    subst e; simp only [if_true, Option.some.injEq, Prod.mk.injEq] at h
    obtain ⟨_, rfl⟩ := h
    exact ⟨nofun, nofun, nofun, fun _ _ => ⟨rfl, Or.inr ⟨rfl, rfl⟩⟩⟩
  all_goals
    obtain ⟨_, rfl⟩ := h
    refine ⟨?_, ?_, ?_, ?_⟩ <;> first | exact fun _ _ => rfl | nofun

/-- No writer inside. -/
theorem no_writer {q : RWSpin.State} (h : RWSpin.Inv q) (hb : q.bits % 4 = 0) : ∀ (i : Nat) (p : Pc), q.th[i]? = some p → p.isW = false := by
  intro i p hp
  obtain ⟨_, u, h1, h2⟩ := h
  cases hw : p.isW with
  | false => rfl
  | true => have := RWSpin.pos_of hp hw; omega

theorem not_isR {q : RWSpin.State} (h : q.n Pc.isR = 0) (h1 : q.n Pc.isW = 0) {i : Nat} {p : Pc} (hp : q.th[i]? = some p) (hu : p ≠ .up) : p.holds = false := by
  have hm := List.mem_of_getElem? hp
  have a1 := RWSpin.zero_iff.1 h p hm
  have a2 := RWSpin.zero_iff.1 h1 p hm
  cases p <;> first | rfl | (exact absurd rfl hu) | (cases a1; done) | (cases a2; done)

/-- Nobody inside. -/
theorem nobody {q : RWSpin.State} (h : RWSpin.Inv q) (hb : q.bits = 0) : ∀ (i : Nat) (p : Pc), q.th[i]? = some p → p.holds = false := by
  intro i p hp
  obtain ⟨_, u, h1, h2⟩ := h
  refine not_isR (by omega) (by omega) hp ?_
  rintro rfl
  have := RWSpin.pos_of (f := Pc.isU) hp rfl
  omega

/-- Nobody but the upgrader inside. -/
theorem alone {q : RWSpin.State} (h : RWSpin.Inv q) (hb : q.bits = 2) {t : Nat} (ht : q.th[t]? = some .up) : ∀ (i : Nat) (p : Pc), i ≠ t → q.th[i]? = some p → p.holds = false := by
  intro i p hi hp
  obtain ⟨_, u, h1, h2⟩ := h
  have h3 := RWSpin.pos_of (f := Pc.isU) ht rfl
  refine not_isR (by omega) (by omega) hp ?_
  rintro rfl
  have := RWSpin.two_of (f := Pc.isU) hp ht rfl rfl hi
  unfold RWSpin.State.n at h2
  omega

theorem holds_of_isW {p : Pc} (h : p.isW = true) : p.holds = true := by cases p <;> first | rfl | cases h

/-- A writer is alone. -/
theorem writer_alone {q : RWSpin.State} (h : RWSpin.Inv q) {t i : Nat} {p r : Pc} (ht : q.th[t]? = some p) (hw : p.isW = true) (hi : q.th[i]? = some r) (hr : r.holds = true) : i = t := by
  obtain ⟨_, u, h1, h2⟩ := h
  have h3 := RWSpin.pos_of ht hw
  refine Classical.byContradiction fun hne => ?_
  cases hrw : r.isW with
  | true =>
    have := RWSpin.two_of hi ht hrw hw hne
    unfold RWSpin.State.n at h2
    omega
  | false =>
    cases r <;> first | (cases hr; done) | (cases hrw; done) | skip
    · have := RWSpin.pos_of (f := Pc.isRd) hi rfl; omega
    · have := RWSpin.pos_of (f := Pc.isU) hi rfl; omega

theorem rmw_top {s : State} (h : RInv s) {m : Mem Loc} {t ts : Nat} {f : Nat → Nat} {a r : Bool} {y : Msg Loc} {w : View Loc} (L : Swapped s.m m t .bits f a r ts y w) :
    ts = s.top ∧ y.val = s.q.bits ∧ Pub s.q s.m y.view := by
  have h1 := h.le ts y L.src
  have hts : ts = s.top := by
    rcases Nat.eq_or_lt_of_le h1 with e | hlt
    · exact e
    · exact absurd L.free (h.all (ts + 1) hlt)
  obtain ⟨z, k1, k2, k3⟩ := h.last
  rw [← hts, L.src] at k1; cases k1
  exact ⟨hts, k2, k3⟩

theorem inv_call {s s' : State} (h : RInv s) {t ts : Nat} {p : Pc} {c : Call} (ht : s.q.th[t]? = some p) (hst : doCall theCode s t p c ts = some s') : RInv s' := by
  unfold doCall at hst
  split at hst
  · cases hst
  · rename_i v m hm
    split at hst
    · rename_i hexp
      split at hst
      · cases hst
      · rename_i r hr
        cases hst
        obtain ⟨y, w, L, rfl⟩ := rmw_facts hm
        obtain ⟨hts, hv, hpub⟩ := rmw_top h L
        obtain ⟨b', p'⟩ := r
        have C := change hr hexp
        have hi := RWSpin.inv_of h.q
        have hlt := lt_of_get ht
        have hnew : newBits p c y.val = b' := by unfold newBits; rw [hr]
        have hget : ∀ (i : Nat) (x : Pc), (s.q.th.set t p')[i]? = some x → (i = t ∧ x = p') ∨ (i ≠ t ∧ s.q.th[i]? = some x) := by
          intro i x hx
          by_cases e : i = t
          · subst e; rw [List.getElem?_set_self hlt] at hx; cases hx; exact Or.inl ⟨rfl, rfl⟩
          · rw [List.getElem?_set_ne (fun h => e h.symm)] at hx; exact Or.inr ⟨e, hx⟩
        have hself : (s.q.th.set t p')[t]? = some p' := List.getElem?_set_self hlt
        have hother : ∀ i, i ≠ t → (s.q.th.set t p')[i]? = s.q.th[i]? := fun i hi => List.getElem?_set_ne (fun h => hi h.symm)
        refine ⟨?_, h.race, ?_, ?_, ⟨_, L.new, hnew, ?_, ?_⟩, ?_, ?_, ?_⟩
        · refine .step h.q (a := (t, c)) ?_ trivial
          simp only [RWSpin.step, ht]
          rw [← hv, hr]; rfl
        · intro k hk
          show m.msg .bits k ≠ none
          by_cases e : k = ts + 1
          · rw [e, L.new]; nofun
          · rw [L.old _ _ (fun x => e x.2)]
            have hk : k ≤ ts + 1 := hk
            exact h.all k (by omega)
        · intro k z hz
          show k ≤ ts + 1
          by_cases e : k = ts + 1
          · omega
          · have hz : m.msg .bits k = some z := hz
            rw [L.old _ _ (fun x => e x.2)] at hz
            have := h.le k z hz
            omega
        · intro hno
          have hno : ∀ (i : Nat) (x : Pc), (s.q.th.set t p')[i]? = some x → x.isW = false := hno
          show m.log .wr ≤ w .wr
          rw [L.log]
          cases hw : p.isW with
          | true =>
            refine Nat.le_trans (h.own.hold t p ht (holds_of_isW hw)) (Nat.le_trans (L.mono t _) (L.pub ?_ _))
            exact C.relW hw (hno t p' hself)
          | false =>
            refine Nat.le_trans (hpub.wr (fun i x hx => ?_)) (L.rel _)
            by_cases e : i = t
            · subst e; rw [ht] at hx; cases hx; exact hw
            · exact hno i x (by rw [hother i e]; exact hx)
        · intro u hno
          have hno : ∀ (x : Pc), (s.q.th.set t p')[u]? = some x → x.holds = false := hno
          show m.log (.rd u) ≤ w (.rd u)
          rw [L.log]
          by_cases e : u = t
          · subst e
            cases hh : p.holds with
            | true => exact Nat.le_trans (h.own.mine u) (Nat.le_trans (L.mono u _) (L.pub (C.relH hh (hno p' hself)) _))
            | false => exact Nat.le_trans (hpub.rd u (fun x hx => by rw [ht] at hx; cases hx; exact hh)) (L.rel _)
          · exact Nat.le_trans (hpub.rd u (fun x hx => hno x (by rw [hother u e]; exact hx))) (L.rel _)
        · intro i x hx hh
          show m.log .wr ≤ m.cur i .wr
          rw [L.log]
          rcases hget i x hx with ⟨rfl, rfl⟩ | ⟨hne, hx⟩
          · cases hp : p.holds with
            | true => exact Nat.le_trans (h.own.hold i p ht hp) (L.mono i _)
            | false =>
              obtain ⟨ha, hb⟩ := C.acqH hp hh
              exact Nat.le_trans (hpub.wr (no_writer hi (by rw [← hv]; exact hb))) (L.acq ha _)
          · exact Nat.le_trans (h.own.hold i x hx hh) (L.mono i _)
        · intro i
          show m.log (.rd i) ≤ m.cur i (.rd i)
          rw [L.log]
          exact Nat.le_trans (h.own.mine i) (L.mono i _)
        · intro i x hx hw u
          show m.log (.rd u) ≤ m.cur i (.rd u)
          rw [L.log]
          rcases hget i x hx with ⟨rfl, rfl⟩ | ⟨hne, hx⟩
          · cases hp : p.isW with
            | true => exact Nat.le_trans (h.own.wrr i p ht hp u) (L.mono i _)
            | false =>
              obtain ⟨ha, hb⟩ := C.acqW hp hw
              rcases hb with hb | ⟨hb, rfl⟩
              · exact Nat.le_trans (hpub.rd u (fun z hz => nobody hi (by rw [← hv]; exact hb) u z hz)) (L.acq ha _)
              · by_cases e : u = i
                · subst e; exact Nat.le_trans (h.own.mine u) (L.mono u _)
                · exact Nat.le_trans (hpub.rd u (fun z hz => alone hi (by rw [← hv]; exact hb) ht u z e hz)) (L.acq ha _)
          · exact Nat.le_trans (h.own.wrr i x hx hw u) (L.mono i _)
    · cases hst

theorem inv_fail {s s' : State} (h : RInv s) {t ts : Nat} {p : Pc} {c : Call} (hst : doFail s t p c ts = some s') : RInv s' := by
  unfold doFail at hst
  split at hst
  · cases hst
  · rename_i v m hm
    split at hst
    · cases hst
      obtain ⟨y, L, _⟩ := load_facts hm
      obtain ⟨z, k1, k2, k3, k4⟩ := h.last
      refine ⟨h.q, h.race, ?_, ?_, ⟨z, ?_, k2, ?_, ?_⟩, ?_, ?_, ?_⟩
      · show ∀ k, k ≤ s.top → m.msg .bits k ≠ none; rw [L.msg]; exact h.all
      · show ∀ k z, m.msg .bits k = some z → k ≤ s.top; rw [L.msg]; exact h.le
      · show m.msg .bits s.top = some z; rw [L.msg]; exact k1
      · show _ → m.log .wr ≤ _; rw [L.log]; exact k3
      · show ∀ u, _ → m.log (.rd u) ≤ _; rw [L.log]; exact k4
      · intro i x hx hh; show m.log _ ≤ m.cur i _; rw [L.log]; exact Nat.le_trans (h.own.hold i x hx hh) (L.mono i _)
      · intro i; show m.log _ ≤ m.cur i _; rw [L.log]; exact Nat.le_trans (h.own.mine i) (L.mono i _)
      · intro i x hx hw u; show m.log _ ≤ m.cur i _; rw [L.log]; exact Nat.le_trans (h.own.wrr i x hx hw u) (L.mono i _)
    · cases hst

theorem touch_log (m : Mem Loc) (t : Nat) (l k : Loc) : (m.touch t l).log k = if k = l then m.log l + 1 else m.log k := rfl

theorem touch_mono (m : Mem Loc) (t u : Nat) (l k : Loc) : m.cur u k ≤ (m.touch t l).cur u k := by
  unfold Mem.touch
  simp only
  by_cases h : u = t
  · subst h; rw [upd_same]; exact le_join_left _ _ _
  · rw [upd_ne _ _ h]; exact Nat.le_refl _

theorem touch_self (m : Mem Loc) (t : Nat) (l : Loc) : (m.touch t l).log l ≤ (m.touch t l).cur t l := by
  rw [touch_log, if_pos rfl]
  unfold Mem.touch
  simp only [upd_same]
  have := le_join_right (m.cur t) (single l (m.log l + 1)) l
  rwa [single_same] at this

theorem touch_le {m : Mem Loc} {t u : Nat} {l k : Loc} (hk : k ≠ l) (h : m.log k ≤ m.cur u k) : (m.touch t l).log k ≤ (m.touch t l).cur u k := by
  rw [touch_log, if_neg hk]; exact Nat.le_trans h (touch_mono _ _ _ _ _)

theorem inv_read {s : State} (h : RInv s) {t : Nat} {p : Pc} (ht : s.q.th[t]? = some p) (hh : p.holds = true) : RInv (doRead s t) := by
  have hi := RWSpin.inv_of h.q
  have hc : s.m.clear t .wr = true := decide_eq_true (h.own.hold t p ht hh)
  obtain ⟨z, k1, k2, k3, k4⟩ := h.last
  refine ⟨h.q, by simp [doRead, h.race, hc], h.all, h.le, ⟨z, k1, k2, ?_, ?_⟩, ?_, ?_, ?_⟩
  · intro hno; exact k3 hno
  · intro u hno
    show (s.m.touch t (.rd t)).log _ ≤ _
    by_cases e : u = t
    · subst e; rw [hno p ht] at hh; cases hh
    · rw [touch_log, if_neg (fun x => e (Loc.rd.inj x))]; exact k4 u hno
  · intro i x hx hx2; exact touch_le nofun (h.own.hold i x hx hx2)
  · intro i
    by_cases e : i = t
    · subst e; exact touch_self _ _ _
    · exact touch_le (fun x => e (Loc.rd.inj x)) (h.own.mine i)
  · intro i x hx hw u
    by_cases e : u = t
    · subst e
      have := writer_alone hi hx hw ht hh
      subst this
      exact touch_self _ _ _
    · exact touch_le (fun x => e (Loc.rd.inj x)) (h.own.wrr i x hx hw u)

theorem inv_write {s : State} (h : RInv s) {t : Nat} (ht : s.q.th[t]? = some .wr) : RInv (doWrite s t) := by
  have hi := RWSpin.inv_of h.q
  have hc : s.m.clear t .wr = true := decide_eq_true (h.own.hold t _ ht rfl)
  have hc2 : (List.range s.q.th.length).all (fun u => s.m.clear t (.rd u)) = true :=
    List.all_eq_true.2 (fun u _ => decide_eq_true (h.own.wrr t _ ht rfl u))
  obtain ⟨z, k1, k2, k3, k4⟩ := h.last
  refine ⟨h.q, by simp only [doWrite, h.race, hc, hc2]; rfl, h.all, h.le, ⟨z, k1, k2, ?_, ?_⟩, ?_, ?_, ?_⟩
  · intro hno; have := hno t _ ht; cases this
  · intro u hno; exact k4 u hno
  · intro i x hx hx2
    have := writer_alone hi ht rfl hx hx2
    subst this
    exact touch_self _ _ _
  · intro i; exact touch_le nofun (h.own.mine i)
  · intro i x hx hw u; exact touch_le nofun (h.own.wrr i x hx hw u)

theorem inv_step (s : State) (a : Act) (s' : State) (h : RInv s) (hst : step theCode s a = some s') : RInv s' := by
  cases a with
  | call t c ts =>
    simp only [step] at hst
    split at hst
    · cases hst
    · exact inv_call h ‹_› hst
  | fail t c ts =>
    simp only [step] at hst
    split at hst
    · cases hst
    · exact inv_fail h hst
  | read t =>
    simp only [step] at hst
    split at hst
    · cases hst
      rename_i ht
      rcases ht with ht | ht | ht <;> exact inv_read h ht rfl
    · cases hst
  | write t =>
    simp only [step] at hst
    split at hst
    · cases hst; exact inv_write h ‹_›
    · cases hst

theorem inv_init (s : State) (h : Init s) : RInv s := by
  obtain ⟨q, hq, rfl⟩ := h
  refine ⟨.init hq trivial, rfl, ?_, ?_, ⟨⟨0, zero⟩, rfl, hq.1.symm, fun _ => Nat.zero_le _, fun _ _ => Nat.zero_le _⟩, fun _ _ _ _ => Nat.zero_le _, fun _ => Nat.zero_le _,
    fun _ _ _ _ _ => Nat.zero_le _⟩
  · intro k hk
    have : k = 0 := Nat.le_zero.1 hk
    subst this; nofun
  · intro k y hy
    have hy : (if k = 0 then some (⟨0, zero⟩ : Msg Loc) else none) = some y := hy
    split at hy
    · rename_i e; subst e; exact Nat.le_refl _
    · cases hy

end Verif.RWSpinRA
