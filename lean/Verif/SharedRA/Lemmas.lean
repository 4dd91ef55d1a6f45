import Verif.SharedRA.Model
/-! The invariant, with release in `unlock` and `unlock_shared`; what does not depend on the orders comes first. -/
namespace Verif.SharedRA
open Verif.Common Verif.RelAcq

def Pc.isW : Pc → Bool | .wr => true | _ => false
/-- READER has been added for this thread. -/
def Pc.isR : Pc → Bool | .rd | .back => true | _ => false
def Pc.isRd : Pc → Bool | .rd => true | _ => false
/-- The thread holds the mutex. -/
def Pc.holds : Pc → Bool | .rd | .wr => true | _ => false

/-- Exclusion. -/
structure QInv (th : List Pc) (b : Nat) : Prop where
  len : th.length < 2 ^ 30
  bits : b = 4 * th.countP Pc.isR + th.countP Pc.isW
  one : th.countP Pc.isW ≤ 1
  excl : th.countP Pc.isW = 1 → th.countP Pc.isRd = 0

theorem count_set {l : List Pc} {t : Nat} {p q : Pc} {f : Pc → Bool} (h : l[t]? = some p) :
    (l.set t q).countP f + (if f p then 1 else 0) = l.countP f + (if f q then 1 else 0) := by
  have ht := lt_of_get h
  have hp : l[t] = p := by rw [List.getElem?_eq_getElem ht] at h; simpa using h
  rw [List.countP_set ht, hp]
  have : (if f p then 1 else 0) ≤ l.countP f := by
    split
    · rename_i hf
      exact List.countP_pos_iff.2 ⟨p, by rw [← hp]; exact List.getElem_mem ht, hf⟩
    · exact Nat.zero_le _
  have e : (if f p = true then 1 else 0) = (if f p then 1 else 0) := rfl
  omega

theorem qinv_step {th : List Pc} {b b' t : Nat} {p p' : Pc} {c : Call} (h : QInv th b) (ht : th[t]? = some p) (hs : stepPc b p c = some (b', p')) :
    QInv (th.set t p') b' := by
  have hr := count_set (q := p') (f := Pc.isR) ht
  have hw := count_set (q := p') (f := Pc.isW) ht
  have hrd := count_set (q := p') (f := Pc.isRd) ht
  have l1 : th.countP Pc.isR ≤ th.length := List.countP_le_length
  have l3 : (th.set t p').countP Pc.isR ≤ th.length := by simpa using List.countP_le_length (l := th.set t p') (p := Pc.isR)
  have l2 : th.countP Pc.isRd ≤ th.countP Pc.isR := List.countP_mono_left (by intro x _ hx; cases x <;> first | rfl | cases hx)
  obtain ⟨h1, h2, h3, h4⟩ := h
  cases p <;> cases c <;> simp only [stepPc, reduceCtorEq, Option.some.injEq, Prod.mk.injEq] at hs
  case idle.tryLock =>
    split at hs
    · simp only [Option.some.injEq, Prod.mk.injEq] at hs
      obtain ⟨rfl, rfl⟩ := hs
      simp [Pc.isR, Pc.isW, Pc.isRd] at hr hw hrd
      exact ⟨by simpa using h1, by omega, by omega, fun _ => by omega⟩
    · cases hs
  case idle.tryShared =>
    obtain ⟨rfl, hs⟩ := hs
    unfold add32
    split at hs <;> subst hs <;> simp [Pc.isR, Pc.isW, Pc.isRd] at hr hw hrd
    · exact ⟨by simpa using h1, by omega, by omega, fun _ => by omega⟩
    · exact ⟨by simpa using h1, by omega, by omega, fun _ => by omega⟩
  all_goals
    obtain ⟨rfl, rfl⟩ := hs
    (try unfold add32)
    simp [Pc.isR, Pc.isW, Pc.isRd] at hr hw hrd
    exact ⟨by simpa using h1, by omega, by omega, fun _ => by omega⟩

theorem pos_of {l : List Pc} {i : Nat} {p : Pc} {f : Pc → Bool} (h : l[i]? = some p) (hf : f p = true) : 1 ≤ l.countP f :=
  List.countP_pos_iff.2 ⟨p, List.mem_of_getElem? h, hf⟩

/-- Two threads counted. -/
theorem two_of {l : List Pc} {i j : Nat} {p q : Pc} {f : Pc → Bool} (hi : l[i]? = some p) (hj : l[j]? = some q)
    (hp : f p = true) (hq : f q = true) (hij : i ≠ j) : 2 ≤ l.countP f := by
  have hd : (l.eraseIdx i).countP f + 1 = l.countP f := by
    have hlt := lt_of_get hi
    have e : l = l.take i ++ p :: l.drop (i + 1) := by
      have : l[i] = p := by rw [List.getElem?_eq_getElem hlt] at hi; simpa using hi
      rw [← this, ← List.drop_eq_getElem_cons hlt, List.take_append_drop]
    conv => rhs; rw [e]
    rw [List.eraseIdx_eq_take_drop_succ, List.countP_append, List.countP_append, List.countP_cons, hp]
    simp; omega
  have : 1 ≤ (l.eraseIdx i).countP f := by
    refine List.countP_pos_iff.2 ⟨q, ?_, hq⟩
    rw [List.mem_eraseIdx_iff_getElem?]
    exact ⟨j, fun h => hij h.symm, hj⟩
  omega

theorem no_writer {th : List Pc} {b : Nat} (h : QInv th b) (hb : b % 2 ≠ 1) : ∀ (i : Nat) (p : Pc), th[i]? = some p → p.isW = false := by
  intro i p hp
  cases hw : p.isW with
  | false => rfl
  | true => have h1 := pos_of hp hw; have h2 := h.bits; have h3 := h.one; omega

theorem nobody {th : List Pc} (h : QInv th 0) : ∀ (i : Nat) (p : Pc), th[i]? = some p → p.holds = false := by
  intro i p hp
  have h2 := h.bits
  cases p with
  | rd => have h1 := pos_of (f := Pc.isR) hp rfl; omega
  | wr => have h1 := pos_of (f := Pc.isW) hp rfl; omega
  | _ => rfl

theorem holds_of_isW {p : Pc} (h : p.isW = true) : p.holds = true := by cases p <;> first | rfl | cases h

theorem writer_alone {th : List Pc} {b : Nat} (h : QInv th b) {t i : Nat} {p r : Pc} (ht : th[t]? = some p) (hw : p.isW = true) (hi : th[i]? = some r) (hr : r.holds = true) : i = t := by
  have h3 := pos_of ht hw
  have h4 := h.one
  have h5 := h.excl (by omega)
  refine Classical.byContradiction fun hne => ?_
  cases r with
  | wr => have := two_of hi ht rfl hw hne; omega
  | rd => have := pos_of (f := Pc.isRd) hi rfl; omega
  | _ => cases hr

/-- The messages of `state_`: every operation on it is a read-modify-write. -/
structure MInv (s : State) : Prop where
  q : QInv s.th s.bits
  all : ∀ ts, ts ≤ s.top → s.m.msg .st ts ≠ none
  le : ∀ ts y, s.m.msg .st ts = some y → ts ≤ s.top
  last : ∃ y, s.m.msg .st s.top = some y ∧ y.val = s.bits

theorem rmw_top {s : State} (h : MInv s) {m : Mem Loc} {t ts : Nat} {f : Nat → Nat} {a r : Bool} {y : Msg Loc} {w : View Loc} (L : Swapped s.m m t .st f a r ts y w) :
    ts = s.top ∧ y.val = s.bits := by
  have h1 := h.le ts y L.src
  have hts : ts = s.top := by
    rcases Nat.eq_or_lt_of_le h1 with e | hlt
    · exact e
    · exact absurd L.free (h.all (ts + 1) hlt)
  obtain ⟨z, k1, k2⟩ := h.last
  rw [← hts, L.src] at k1; cases k1
  exact ⟨hts, k2⟩

theorem MInv.same {s s' : State} (h : MInv s) (h1 : s'.th = s.th) (h2 : s'.bits = s.bits) (h3 : s'.top = s.top) (h4 : ∀ ts, s'.m.msg .st ts = s.m.msg .st ts) : MInv s' := by
  refine ⟨by rw [h1, h2]; exact h.q, ?_, ?_, ?_⟩
  · intro ts hts; rw [h4]; exact h.all ts (h3 ▸ hts)
  · intro ts y hy; rw [h3]; exact h.le ts y (by rw [← h4]; exact hy)
  · obtain ⟨y, k1, k2⟩ := h.last
    exact ⟨y, by rw [h3, h4]; exact k1, by rw [h2]; exact k2⟩

theorem minv_call {o : Cfg} {s s' : State} (h : MInv s) {t ts : Nat} {p : Pc} {c : Call} (ht : s.th[t]? = some p) (hst : doCall o s t p c ts = some s') : MInv s' := by
  unfold doCall at hst
  split at hst
  · cases hst
  · rename_i v m hm
    split at hst
    · cases hst
    · rename_i r hr
      cases hst
      obtain ⟨y, w, L, rfl⟩ := rmw_facts hm
      obtain ⟨hts, hv⟩ := rmw_top h L
      obtain ⟨b', p'⟩ := r
      have hnew : newBits p c y.val = b' := by unfold newBits; rw [hr]
      refine ⟨qinv_step h.q ht (hv ▸ hr), ?_, ?_, ⟨_, L.new, hnew⟩⟩
      · intro k hk
        show m.msg .st k ≠ none
        by_cases e : k = ts + 1
        · rw [e, L.new]; nofun
        · rw [L.old _ _ (fun x => e x.2)]
          have hk : k ≤ ts + 1 := hk
          exact h.all k (by omega)
      · intro k z hz
        show k ≤ ts + 1
        by_cases e : k = ts + 1
        · omega
        · have hz : m.msg .st k = some z := hz
          rw [L.old _ _ (fun x => e x.2)] at hz
          have := h.le k z hz
          omega

theorem minv_step (o : Cfg) (s : State) (a : Act) (s' : State) (h : MInv s) (hst : step o s a = some s') : MInv s' := by
  cases a with
  | call t c ts =>
    simp only [step] at hst
    split at hst
    · cases hst
    · exact minv_call h ‹_› hst
  | fail t ts =>
    simp only [step] at hst
    split at hst
    · unfold doFail at hst
      split at hst
      · cases hst
      · rename_i v m hm
        split at hst
        · cases hst
          obtain ⟨y, L, _⟩ := load_facts hm
          exact h.same rfl rfl rfl (fun ts => by show m.msg .st ts = _; rw [L.msg])
        · cases hst
    · cases hst
  | ev t e ts =>
    simp only [step, doEv] at hst
    split at hst
    · cases hst
    · rename_i v m hm
      cases hst
      obtain ⟨y, w, L, _⟩ := rmw_facts hm
      exact h.same rfl rfl rfl (fun ts => L.old _ _ (by rintro ⟨e, _⟩; cases e))
  | fence t => cases hst; exact h.same rfl rfl rfl (fun _ => rfl)
  | read t =>
    simp only [step] at hst
    split at hst <;> cases hst
    exact h.same rfl rfl rfl (fun _ => rfl)
  | write t =>
    simp only [step] at hst
    split at hst <;> cases hst
    exact h.same rfl rfl rfl (fun _ => rfl)

theorem minv_init (s : State) (h : Init s) : MInv s := by
  obtain ⟨n, hn, rfl⟩ := h
  have z : ∀ f : Pc → Bool, f .idle = false → (List.replicate n Pc.idle).countP f = 0 := by
    intro f hf
    refine List.countP_eq_zero.2 fun p hp => ?_
    rw [List.eq_of_mem_replicate hp, hf]; simp
  refine ⟨⟨by simpa using hn, by rw [z _ rfl, z _ rfl], by rw [z _ rfl]; omega, fun _ => z _ rfl⟩, ?_, ?_, ⟨⟨0, zero⟩, rfl, rfl⟩⟩
  · intro k hk
    have : k = 0 := Nat.le_zero.1 hk
    subst this; nofun
  · intro k y hy
    have hy : (if k = 0 then some (⟨0, zero⟩ : Msg Loc) else none) = some y := hy
    split at hy
    · rename_i e; subst e; exact Nat.le_refl _
    · cases hy

/-! ### The views, with release -/

/-- What the last message of `state_` has in its view. -/
structure Pub (th : List Pc) (m : Mem Loc) (v : View Loc) : Prop where
  wr : (∀ (i : Nat) (p : Pc), th[i]? = some p → p.isW = false) → m.log .wr ≤ v .wr
  rd : ∀ u : Nat, (∀ (p : Pc), th[u]? = some p → p.holds = false) → m.log (.rd u) ≤ v (.rd u)

/-- What the threads have in their views. -/
structure Own (th : List Pc) (m : Mem Loc) : Prop where
  hold : ∀ (t : Nat) (p : Pc), th[t]? = some p → p.holds = true → m.log .wr ≤ m.cur t .wr
  mine : ∀ t, m.log (.rd t) ≤ m.cur t (.rd t)
  wrr : ∀ (t : Nat) (p : Pc), th[t]? = some p → p.isW = true → ∀ u, m.log (.rd u) ≤ m.cur t (.rd u)

structure RInv (s : State) : Prop where
  i : MInv s
  race : s.race = false
  pub : ∀ y, s.m.msg .st s.top = some y → Pub s.th s.m y.view
  own : Own s.th s.m

/-- How a call changes what its thread holds, and the order it has. -/
structure Change (p p' : Pc) (b : Nat) (a r : Bool) : Prop where
  relW : p.isW = true → p'.isW = false → r = true
  relH : p.holds = true → p'.holds = false → r = true
  acqH : p.holds = false → p'.holds = true → a = true ∧ b % 2 ≠ 1
  acqW : p.isW = false → p'.isW = true → a = true ∧ b = 0

theorem change {p p' : Pc} {c : Call} {b b' : Nat} (h : stepPc b p c = some (b', p')) : Change p p' b (ord repaired p c).1 (ord repaired p c).2 := by
  cases p <;> cases c <;> simp only [stepPc, reduceCtorEq, Option.some.injEq, Prod.mk.injEq] at h
  case idle.tryLock =>
    split at h
    · rename_i hb
      simp only [Option.some.injEq, Prod.mk.injEq] at h
      obtain ⟨_, rfl⟩ := h
      exact ⟨nofun, nofun, fun _ _ => ⟨rfl, by omega⟩, fun _ _ => ⟨rfl, hb⟩⟩
    · cases h
  case idle.tryShared =>
    obtain ⟨_, h⟩ := h
    split at h <;> rename_i hb <;> subst h
    · exact ⟨nofun, nofun, nofun, nofun⟩
    · exact ⟨nofun, nofun, fun _ _ => ⟨rfl, hb⟩, nofun⟩
  all_goals
    obtain ⟨_, rfl⟩ := h
    refine ⟨?_, ?_, ?_, ?_⟩ <;> first | exact fun _ _ => rfl | nofun

/-- A step that only adds to the views of the threads. -/
theorem RInv.grow {s : State} (h : RInv s) {m : Mem Loc} (hm : MInv { s with m := m }) (hmsg : ∀ ts, m.msg .st ts = s.m.msg .st ts) (hlog : m.log = s.m.log)
    (hmono : ∀ u l, s.m.cur u l ≤ m.cur u l) : RInv { s with m := m } := by
  refine ⟨hm, h.race, ?_, ?_, ?_, ?_⟩
  · intro y hy
    have hy : m.msg .st s.top = some y := hy
    rw [hmsg] at hy
    obtain ⟨k3, k4⟩ := h.pub y hy
    exact ⟨by show _ → m.log .wr ≤ _; rw [hlog]; exact k3, by show ∀ u, _ → m.log (.rd u) ≤ _; rw [hlog]; exact k4⟩
  · intro i x hx hh; show m.log _ ≤ m.cur i _; rw [hlog]; exact Nat.le_trans (h.own.hold i x hx hh) (hmono i _)
  · intro i; show m.log _ ≤ m.cur i _; rw [hlog]; exact Nat.le_trans (h.own.mine i) (hmono i _)
  · intro i x hx hw u; show m.log _ ≤ m.cur i _; rw [hlog]; exact Nat.le_trans (h.own.wrr i x hx hw u) (hmono i _)

theorem inv_call {s s' : State} (h : RInv s) {t ts : Nat} {p : Pc} {c : Call} (ht : s.th[t]? = some p) (hst : doCall repaired s t p c ts = some s') : RInv s' := by
  have hMI := minv_call h.i ht hst
  unfold doCall at hst
  split at hst
  · cases hst
  · rename_i v m hm
    split at hst
    · cases hst
    · rename_i r hr
      cases hst
      obtain ⟨y, w, L, rfl⟩ := rmw_facts hm
      obtain ⟨hts, hv⟩ := rmw_top h.i L
      have hpub := h.pub y (hts ▸ L.src)
      obtain ⟨b', p'⟩ := r
      have C := change hr
      have hi := h.i.q
      have hlt := lt_of_get ht
      have hget : ∀ (i : Nat) (x : Pc), (s.th.set t p')[i]? = some x → (i = t ∧ x = p') ∨ (i ≠ t ∧ s.th[i]? = some x) := by
        intro i x hx
        by_cases e : i = t
        · subst e; rw [List.getElem?_set_self hlt] at hx; cases hx; exact Or.inl ⟨rfl, rfl⟩
        · rw [List.getElem?_set_ne (fun h => e h.symm)] at hx; exact Or.inr ⟨e, hx⟩
      have hself : (s.th.set t p')[t]? = some p' := List.getElem?_set_self hlt
      have hother : ∀ i, i ≠ t → (s.th.set t p')[i]? = s.th[i]? := fun i hi => List.getElem?_set_ne (fun h => hi h.symm)
      refine ⟨hMI, h.race, ?_, ?_, ?_, ?_⟩
      · intro z hz
        have hz : m.msg .st (ts + 1) = some z := hz
        rw [L.new] at hz; cases hz
        refine ⟨?_, ?_⟩
        · intro hno
          have hno : ∀ (i : Nat) (x : Pc), (s.th.set t p')[i]? = some x → x.isW = false := hno
          show m.log .wr ≤ w .wr
          rw [L.log]
          cases hw : p.isW with
          | true =>
            refine Nat.le_trans (h.own.hold t p ht (holds_of_isW hw)) (Nat.le_trans (L.mono t _) (L.pub ?_ _))
            exact C.relW hw (hno t p' hself)
          | false =>
            refine Nat.le_trans (hpub.wr (fun i x hx => ?_)) (L.rel _)
            by_cases e : i = t
            · subst e; rw [ht] at hx; cases hx; exact hw
            · exact hno i x (by rw [hother i e]; exact hx)
        · intro u hno
          have hno : ∀ (x : Pc), (s.th.set t p')[u]? = some x → x.holds = false := hno
          show m.log (.rd u) ≤ w (.rd u)
          rw [L.log]
          by_cases e : u = t
          · subst e
            cases hh : p.holds with
            | true => exact Nat.le_trans (h.own.mine u) (Nat.le_trans (L.mono u _) (L.pub (C.relH hh (hno p' hself)) _))
            | false => exact Nat.le_trans (hpub.rd u (fun x hx => by rw [ht] at hx; cases hx; exact hh)) (L.rel _)
          · exact Nat.le_trans (hpub.rd u (fun x hx => hno x (by rw [hother u e]; exact hx))) (L.rel _)
      · intro i x hx hh
        show m.log .wr ≤ m.cur i .wr
        rw [L.log]
        rcases hget i x hx with ⟨rfl, rfl⟩ | ⟨hne, hx⟩
        · cases hp : p.holds with
          | true => exact Nat.le_trans (h.own.hold i p ht hp) (L.mono i _)
          | false =>
            obtain ⟨ha, hb⟩ := C.acqH hp hh
            exact Nat.le_trans (hpub.wr (no_writer hi (by rw [← hv]; exact hb))) (L.acq ha _)
        · exact Nat.le_trans (h.own.hold i x hx hh) (L.mono i _)
      · intro i
        show m.log (.rd i) ≤ m.cur i (.rd i)
        rw [L.log]
        exact Nat.le_trans (h.own.mine i) (L.mono i _)
      · intro i x hx hw u
        show m.log (.rd u) ≤ m.cur i (.rd u)
        rw [L.log]
        rcases hget i x hx with ⟨rfl, rfl⟩ | ⟨hne, hx⟩
        · cases hp : p.isW with
          | true => exact Nat.le_trans (h.own.wrr i p ht hp u) (L.mono i _)
          | false =>
            obtain ⟨ha, hb⟩ := C.acqW hp hw
            rw [← hv, hb] at hi
            exact Nat.le_trans (hpub.rd u (fun z hz => nobody hi u z hz)) (L.acq ha _)
        · exact Nat.le_trans (h.own.wrr i x hx hw u) (L.mono i _)

theorem touch_log (m : Mem Loc) (t : Nat) (l k : Loc) : (m.touch t l).log k = if k = l then m.log l + 1 else m.log k := rfl

theorem touch_mono (m : Mem Loc) (t u : Nat) (l k : Loc) : m.cur u k ≤ (m.touch t l).cur u k := by
  unfold Mem.touch
  simp only
  by_cases h : u = t
  · subst h; rw [upd_same]; exact le_join_left _ _ _
  · rw [upd_ne _ _ h]; exact Nat.le_refl _

theorem touch_self (m : Mem Loc) (t : Nat) (l : Loc) : (m.touch t l).log l ≤ (m.touch t l).cur t l := by
  rw [touch_log, if_pos rfl]
  unfold Mem.touch
  simp only [upd_same]
  have := le_join_right (m.cur t) (single l (m.log l + 1)) l
  rwa [single_same] at this

theorem touch_le {m : Mem Loc} {t u : Nat} {l k : Loc} (hk : k ≠ l) (h : m.log k ≤ m.cur u k) : (m.touch t l).log k ≤ (m.touch t l).cur u k := by
  rw [touch_log, if_neg hk]; exact Nat.le_trans h (touch_mono _ _ _ _ _)

theorem inv_read {s : State} (h : RInv s) {t : Nat} {p : Pc} (ht : s.th[t]? = some p) (hh : p.holds = true) : RInv (doRead s t) := by
  have hc : s.m.clear t .wr = true := decide_eq_true (h.own.hold t p ht hh)
  refine ⟨h.i.same rfl rfl rfl (fun _ => rfl), by simp [doRead, h.race, hc], ?_, ?_, ?_, ?_⟩
  · intro z hz
    obtain ⟨k3, k4⟩ := h.pub z hz
    refine ⟨fun hno => k3 hno, fun u hno => ?_⟩
    show (s.m.touch t (.rd t)).log _ ≤ _
    by_cases e : u = t
    · subst e; rw [hno p ht] at hh; cases hh
    · rw [touch_log, if_neg (fun x => e (Loc.rd.inj x))]; exact k4 u hno
  · intro i x hx hx2; exact touch_le nofun (h.own.hold i x hx hx2)
  · intro i
    by_cases e : i = t
    · subst e; exact touch_self _ _ _
    · exact touch_le (fun x => e (Loc.rd.inj x)) (h.own.mine i)
  · intro i x hx hw u
    by_cases e : u = t
    · subst e
      have := writer_alone h.i.q hx hw ht hh
      subst this
      exact touch_self _ _ _
    · exact touch_le (fun x => e (Loc.rd.inj x)) (h.own.wrr i x hx hw u)

theorem inv_write {s : State} (h : RInv s) {t : Nat} (ht : s.th[t]? = some .wr) : RInv (doWrite s t) := by
  have hc : s.m.clear t .wr = true := decide_eq_true (h.own.hold t _ ht rfl)
  have hc2 : (List.range s.th.length).all (fun u => s.m.clear t (.rd u)) = true :=
    List.all_eq_true.2 (fun u _ => decide_eq_true (h.own.wrr t _ ht rfl u))
  refine ⟨h.i.same rfl rfl rfl (fun _ => rfl), by simp only [doWrite, h.race, hc, hc2]; rfl, ?_, ?_, ?_, ?_⟩
  · intro z hz
    obtain ⟨k3, k4⟩ := h.pub z hz
    refine ⟨fun hno => ?_, fun u hno => k4 u hno⟩
    have := hno t _ ht; cases this
  · intro i x hx hx2
    have := writer_alone h.i.q ht rfl hx hx2
    subst this
    exact touch_self _ _ _
  · intro i; exact touch_le nofun (h.own.mine i)
  · intro i x hx hw u; exact touch_le nofun (h.own.wrr i x hx hw u)

theorem inv_step (s : State) (a : Act) (s' : State) (h : RInv s) (hst : step repaired s a = some s') : RInv s' := by
  have hMI := minv_step repaired s a s' h.i hst
  cases a with
  | call t c ts =>
    simp only [step] at hst
    split at hst
    · cases hst
    · exact inv_call h ‹_› hst
  | fail t ts =>
    simp only [step] at hst
    split at hst
    · unfold doFail at hst
      split at hst
      · cases hst
      · rename_i v m hm
        split at hst
        · cases hst
          obtain ⟨y, L, _⟩ := load_facts hm
          exact h.grow hMI (fun ts => by rw [L.msg]) L.log L.mono
        · cases hst
    · cases hst
  | ev t e ts =>
    simp only [step, doEv] at hst
    split at hst
    · cases hst
    · rename_i v m hm
      cases hst
      obtain ⟨y, w, L, _⟩ := rmw_facts hm
      exact h.grow hMI (fun ts => L.old _ _ (by rintro ⟨e, _⟩; cases e)) L.log L.mono
  | fence t =>
    cases hst
    refine h.grow hMI (fun _ => rfl) rfl (fun u l => ?_)
    unfold Mem.fence
    simp only
    by_cases e : u = t
    · subst e; rw [upd_same]; exact le_join_left _ _ _
    · rw [upd_ne _ _ e]; exact Nat.le_refl _
  | read t =>
    simp only [step] at hst
    split at hst
    · cases hst
      rename_i ht
      rcases ht with ht | ht <;> exact inv_read h ht rfl
    · cases hst
  | write t =>
    simp only [step] at hst
    split at hst
    · cases hst; exact inv_write h ‹_›
    · cases hst

theorem inv_init (s : State) (h : Init s) : RInv s := by
  refine ⟨minv_init s h, ?_, ?_, ?_⟩ <;> obtain ⟨n, hn, rfl⟩ := h
  · rfl
  · exact fun _ _ => ⟨fun _ => Nat.zero_le _, fun _ _ => Nat.zero_le _⟩
  · exact ⟨fun _ _ _ _ => Nat.zero_le _, fun _ => Nat.zero_le _, fun _ _ _ _ _ => Nat.zero_le _⟩

end Verif.SharedRA
