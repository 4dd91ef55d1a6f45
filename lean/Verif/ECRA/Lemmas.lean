import Verif.ECRA.Model
/-! The invariant of an event count over the memory of C++ threads. -/
namespace Verif.ECRA
open Verif.Common Verif.RelAcq

/-- The orders that matter. -/
def Strong (c : Cfg) : Prop := c.prepAcq = true ∧ c.notRel = true

/-! ### Arithmetic of `val_` -/

theorem arith_prep {v a W : Nat} (h1 : v / E = a % E) (h2 : v % E = W) (h3 : W + 1 < E) :
    ((v + 1) % (E * E)) / E = a % E ∧ ((v + 1) % (E * E)) % E = W + 1 := by
  have hE : E = 4294967296 := rfl
  have hEE : E * E = 18446744073709551616 := rfl
  rw [hEE]; rw [hE] at h1 h2 h3 ⊢; omega

theorem arith_drop {v a W : Nat} (h1 : v / E = a % E) (h2 : v % E = W) (h3 : 1 ≤ W) :
    ((v + (E * E - 1)) % (E * E)) / E = a % E ∧ ((v + (E * E - 1)) % (E * E)) % E = W - 1 := by
  have hE : E = 4294967296 := rfl
  have hEE : E * E = 18446744073709551616 := rfl
  rw [hEE]; rw [hE] at h1 h2 ⊢; omega

theorem arith_note {v a W : Nat} (h1 : v / E = a % E) (h2 : v % E = W) :
    ((v + E) % (E * E)) / E = (a + 1) % E ∧ ((v + E) % (E * E)) % E = W := by
  have hE : E = 4294967296 := rfl
  have hEE : E * E = 18446744073709551616 := rfl
  rw [hEE]; rw [hE] at h1 h2 ⊢; omega

theorem arith_epoch {a b : Nat} (h1 : a < b) (h2 : b < a + E) : b % E ≠ a % E := by
  have hE : E = 4294967296 := rfl
  rw [hE] at h2 ⊢; omega

/-! ### Lists -/

theorem count_set {l : List Pc} {t : Nat} {p q : Pc} (f : Pc → Bool) (h : l[t]? = some p) :
    (l.set t q).countP f + (if f p then 1 else 0) = l.countP f + (if f q then 1 else 0) := by
  have ht := lt_of_get h
  have hp : l[t] = p := by rw [List.getElem?_eq_getElem ht] at h; simpa using h
  rw [List.countP_set ht, hp]
  have : (if f p then 1 else 0) ≤ l.countP f := by
    split
    · rename_i hf
      exact List.countP_pos_iff.2 ⟨p, by rw [← hp]; exact List.getElem_mem ht, hf⟩
    · exact Nat.zero_le _
  have e : (if f p = true then 1 else 0) = (if f p then 1 else 0) := rfl
  omega

theorem count_same {l : List Pc} {t : Nat} {p q : Pc} {f : Pc → Bool} (h : l[t]? = some p) (e : f p = f q) : (l.set t q).countP f = l.countP f := by
  have := count_set (q := q) f h
  rw [e] at this; omega

theorem pos_of {l : List Pc} {i : Nat} {p : Pc} {f : Pc → Bool} (h : l[i]? = some p) (hf : f p = true) : 1 ≤ l.countP f :=
  List.countP_pos_iff.2 ⟨p, List.mem_of_getElem? h, hf⟩

theorem get_set {l : List Pc} {t : Nat} {p p' : Pc} (ht : l[t]? = some p) (i : Nat) (x : Pc) (hx : (l.set t p')[i]? = some x) :
    (i = t ∧ x = p') ∨ (i ≠ t ∧ l[i]? = some x) := by
  by_cases e : i = t
  · subst e; rw [List.getElem?_set_self (lt_of_get ht)] at hx; cases hx; exact Or.inl ⟨rfl, rfl⟩
  · rw [List.getElem?_set_ne (fun h => e h.symm)] at hx; exact Or.inr ⟨e, hx⟩

theorem set_self {l : List Pc} {t : Nat} {p : Pc} (p' : Pc) (ht : l[t]? = some p) : (l.set t p')[t]? = some p' := List.getElem?_set_self (lt_of_get ht)

theorem wakeAll_get (q : List Nat) : ∀ (th : List Pc) (i : Nat) (p : Pc), (wakeAll q th)[i]? = some p → (p = .drop ∧ i ∈ q) ∨ (i ∉ q ∧ th[i]? = some p) := by
  induction q with
  | nil => intro th i p h; exact Or.inr ⟨nofun, h⟩
  | cons t q ih =>
    intro th i p h
    rcases ih _ i p h with ⟨e, hm⟩ | ⟨hn, hp⟩
    · exact Or.inl ⟨e, List.mem_cons_of_mem _ hm⟩
    · by_cases e : i = t
      · subst e
        have hlt : i < th.length := by have := lt_of_get hp; rwa [List.length_set] at this
        rw [List.getElem?_set_self hlt] at hp; cases hp
        exact Or.inl ⟨rfl, List.mem_cons_self ..⟩
      · rw [List.getElem?_set_ne (fun h => e h.symm)] at hp
        exact Or.inr ⟨fun hm => by rcases List.mem_cons.1 hm with h | h; exact e h; exact hn h, hp⟩

theorem wakeAll_count (q : List Nat) : ∀ (th : List Pc), (∀ t ∈ q, ∃ p, th[t]? = some p ∧ p.holds = true) → (wakeAll q th).countP Pc.holds = th.countP Pc.holds := by
  induction q with
  | nil => intro th _; rfl
  | cons t q ih =>
    intro th h
    obtain ⟨p, hp, hh⟩ := h t (List.mem_cons_self ..)
    show (wakeAll q (th.set t .drop)).countP _ = _
    rw [ih _ (fun u hu => ?_), count_same hp (by rw [hh]; rfl)]
    by_cases e : u = t
    · subst e; exact ⟨.drop, set_self _ hp, rfl⟩
    · rw [List.getElem?_set_ne (fun h => e h.symm)]; exact h u (List.mem_cons_of_mem _ hu)

/-! ### The messages of `val_` -/

structure Msgs (m : Mem Loc) (top : Nat) (cnt : Nat → Nat) (note : Nat → Bool) (nv : Nat → View Loc) (W : Nat) : Prop where
  some : ∀ p, p ≤ top → ∃ y, m.msg .val p = some y ∧ y.val / E = cnt p % E ∧ ∀ n, note n = true → n ≤ p → ∀ x, nv n x ≤ y.view x
  none : ∀ p, top < p → m.msg .val p = none
  last : ∀ y, m.msg .val top = Option.some y → y.val % E = W
  mono : ∀ p q, p ≤ q → q ≤ top → cnt p ≤ cnt q
  strict : ∀ n p, note n = true → p < n → cnt p < cnt n
  le : ∀ n, note n = true → n ≤ top

theorem Msgs.frame {m m' : Mem Loc} {top : Nat} {cnt : Nat → Nat} {note : Nat → Bool} {nv : Nat → View Loc} {W : Nat} (h : Msgs m top cnt note nv W)
    (hm : ∀ p, m'.msg .val p = m.msg .val p) : Msgs m' top cnt note nv W :=
  ⟨fun p hp => by rw [hm]; exact h.some p hp, fun p hp => by rw [hm]; exact h.none p hp, fun y => by rw [hm]; exact h.last y, h.mono, h.strict, h.le⟩

/-- A read-modify-write reads the last message. -/
theorem Msgs.top_eq {m m' : Mem Loc} {top : Nat} {cnt : Nat → Nat} {note : Nat → Bool} {nv : Nat → View Loc} {W : Nat} (h : Msgs m top cnt note nv W)
    {t ts : Nat} {f : Nat → Nat} {a r : Bool} {y : Msg Loc} {w : View Loc} (L : Swapped m m' t .val f a r ts y w) : ts = top := by
  refine Classical.byContradiction fun e => ?_
  rcases Nat.lt_or_ge top ts with hlt | hge
  · have := h.none ts hlt; rw [L.src] at this; cases this
  · obtain ⟨z, hz, _⟩ := h.some (ts + 1) (by omega)
    rw [L.free] at hz; cases hz

theorem Msgs.plain {m m' : Mem Loc} {cnt : Nat → Nat} {note : Nat → Bool} {nv : Nat → View Loc} {W W' : Nat}
    {t ts : Nat} {f : Nat → Nat} {a r : Bool} {y : Msg Loc} {w : View Loc} (h : Msgs m ts cnt note nv W) (L : Swapped m m' t .val f a r ts y w)
    (h1 : f y.val / E = cnt ts % E) (h2 : f y.val % E = W') : Msgs m' (ts + 1) (upd cnt (ts + 1) (cnt ts)) note nv W' := by
  have hnle : ∀ n, note n = true → n ≤ ts + 1 → n ≤ ts := fun n hn _ => h.le n hn
  have hu : ∀ p, p ≤ ts → upd cnt (ts + 1) (cnt ts) p = cnt p := fun p hp => upd_ne _ _ (by omega)
  refine ⟨?_, ?_, ?_, ?_, ?_, fun n hn => by have := h.le n hn; omega⟩
  · intro p hp
    by_cases e : p = ts + 1
    · subst e
      refine ⟨_, L.new, by rw [upd_same]; exact h1, fun n hn hle x => ?_⟩
      obtain ⟨z, hz, _, hv⟩ := h.some ts (Nat.le_refl _)
      rw [L.src] at hz; cases hz
      exact Nat.le_trans (hv n hn (hnle n hn hle) x) (L.rel x)
    · rw [L.old _ _ (fun x => e x.2), upd_ne _ _ e]
      exact h.some p (by omega)
  · intro p hp; rw [L.old _ _ (fun x => by omega)]; exact h.none p (by omega)
  · intro z hz; rw [L.new] at hz; cases hz; exact h2
  · intro p q hpq hq
    by_cases e : q = ts + 1
    · subst e
      rw [upd_same]
      by_cases e2 : p = ts + 1
      · subst e2; simp [upd]
      · rw [hu p (by omega)]; exact h.mono p ts (by omega) (Nat.le_refl _)
    · rw [hu p (by omega), hu q (by omega)]; exact h.mono p q hpq (by omega)
  · intro n p hn hp
    have := h.le n hn
    rw [hu p (by omega), hu n this]; exact h.strict n p hn hp

theorem Msgs.noted {m m' : Mem Loc} {cnt : Nat → Nat} {note : Nat → Bool} {nv : Nat → View Loc} {W : Nat}
    {t ts : Nat} {f : Nat → Nat} {a : Bool} {y : Msg Loc} {w : View Loc} (h : Msgs m ts cnt note nv W) (L : Swapped m m' t .val f a true ts y w)
    (h1 : f y.val / E = (cnt ts + 1) % E) (h2 : f y.val % E = W) :
    Msgs m' (ts + 1) (upd cnt (ts + 1) (cnt ts + 1)) (upd note (ts + 1) true) (upd nv (ts + 1) (m'.cur t)) W := by
  have hu : ∀ p, p ≤ ts → upd cnt (ts + 1) (cnt ts + 1) p = cnt p := fun p hp => upd_ne _ _ (by omega)
  have hno : ∀ n, n ≠ ts + 1 → upd note (ts + 1) true n = true → note n = true := fun n e hn => by rwa [upd_ne _ _ e] at hn
  refine ⟨?_, ?_, ?_, ?_, ?_, ?_⟩
  · intro p hp
    by_cases e : p = ts + 1
    · subst e
      refine ⟨_, L.new, by rw [upd_same]; exact h1, fun n hn hle x => ?_⟩
      by_cases e2 : n = ts + 1
      · subst e2; rw [upd_same]; exact L.pub rfl x
      · rw [upd_ne _ _ e2]
        obtain ⟨z, hz, _, hv⟩ := h.some ts (Nat.le_refl _)
        rw [L.src] at hz; cases hz
        exact Nat.le_trans (hv n (hno n e2 hn) (by omega) x) (L.rel x)
    · rw [L.old _ _ (fun x => e x.2), upd_ne _ _ e]
      obtain ⟨z, hz, hz1, hv⟩ := h.some p (by omega)
      refine ⟨z, hz, hz1, fun n hn hle x => ?_⟩
      have e2 : n ≠ ts + 1 := by omega
      rw [upd_ne _ _ e2]; exact hv n (hno n e2 hn) hle x
  · intro p hp; rw [L.old _ _ (fun x => by omega)]; exact h.none p (by omega)
  · intro z hz; rw [L.new] at hz; cases hz; exact h2
  · intro p q hpq hq
    by_cases e : q = ts + 1
    · subst e
      rw [upd_same]
      by_cases e2 : p = ts + 1
      · subst e2; simp [upd]
      · rw [hu p (by omega)]; have := h.mono p ts (by omega) (Nat.le_refl _); omega
    · rw [hu p (by omega), hu q (by omega)]; exact h.mono p q hpq (by omega)
  · intro n p hn hp
    by_cases e : n = ts + 1
    · subst e
      rw [upd_same, hu p (by omega)]; have := h.mono p ts (by omega) (Nat.le_refl _); omega
    · have hn := hno n e hn
      have := h.le n hn
      rw [hu p (by omega), hu n this]; exact h.strict n p hn hp
  · intro n hn
    by_cases e : n = ts + 1
    · omega
    · have := h.le n (hno n e hn); omega

/-! ### The invariant -/

/-- A thread with a key. -/
structure Held (s : State) (t : Nat) : Prop where
  pos : s.pos t ≤ s.top
  seen : ∀ n, s.note n = true → n ≤ s.pos t → ∀ x, s.nv n x ≤ s.base t x
  rd : ∀ k ts, s.rd t k = some ts → s.base t (.dat k) ≤ ts
  later : ∀ n, s.note n = true → s.pos t < n → s.zero n = false

def PcOk (s : State) (t : Nat) : Pc → Prop
  | .key e => Held s t ∧ s.pos t ≤ s.m.cur t .val ∧ e = s.cnt (s.pos t) % E ∧ ∀ x, s.base t x ≤ s.m.cur t x
  | .sleep => Held s t ∧ ∀ n, s.secd n = true → s.pos t < n → ∃ u, u ≠ t ∧ s.took n = some u
  | .nlock n all => s.note n = true ∧ n ≤ s.m.cur t .val ∧ s.alln n = all
  | _ => True

structure Inv (s : State) : Prop where
  msgs : Msgs s.m s.top s.cnt s.note s.nv (s.th.countP Pc.holds)
  good : ∀ (t : Nat) (p : Pc), s.th[t]? = some p → PcOk s t p
  q : ∀ t, t ∈ s.q ↔ s.th[t]? = some .sleep
  nodup : s.q.Nodup
  secd : ∀ n, s.secd n = true → s.note n = true ∧ n ≤ s.lockView .val
  all : ∀ n u, s.took n = some u → s.alln n = false ∧ s.note n = true

/-- Nothing happens to the key of `t`: only its view grows. -/
theorem PcOk.grow {s s' : State} {t : Nat} {p : Pc} (h : PcOk s t p) (hv : ∀ x, s.m.cur t x ≤ s'.m.cur t x)
    (e1 : s'.top = s.top) (e2 : s'.note = s.note) (e3 : s'.nv = s.nv) (e4 : s'.zero = s.zero) (e5 : s'.secd = s.secd) (e6 : s'.took = s.took)
    (e7 : s'.cnt = s.cnt) (e8 : s'.pos = s.pos) (e9 : s'.base = s.base) (e10 : s'.rd t = s.rd t) (e11 : s'.alln = s.alln) : PcOk s' t p := by
  have hh : Held s t → Held s' t := fun h => ⟨by rw [e8, e1]; exact h.pos, by rw [e2, e8, e3, e9]; exact h.seen, by rw [e10, e9]; exact h.rd, by rw [e2, e8, e4]; exact h.later⟩
  cases p with
  | key e => exact ⟨hh h.1, by rw [e8]; exact Nat.le_trans h.2.1 (hv _), by rw [e7, e8]; exact h.2.2.1, fun x => by rw [e9]; exact Nat.le_trans (h.2.2.2 x) (hv x)⟩
  | sleep => exact ⟨hh h.1, by rw [e5, e8, e6]; exact h.2⟩
  | nlock n a => exact ⟨by rw [e2]; exact h.1, Nat.le_trans h.2.1 (hv _), by rw [e11]; exact h.2.2⟩
  | _ => trivial

/-! ### The client -/

theorem inv_cl {s : State} (h : Inv s) {t : Nat} (hns : s.th[t]? ≠ some .sleep) {m : Mem Loc} {rd : Nat → Nat → Option Nat} (hm : ∀ p, m.msg .val p = s.m.msg .val p)
    (hv : ∀ u x, s.m.cur u x ≤ m.cur u x) (hrd : ∀ u, u ≠ t → rd u = s.rd u)
    (hrt : ∀ k ts, rd t k = some ts → s.rd t k = some ts ∨ s.m.cur t (.dat k) ≤ ts) : Inv { s with m := m, rd := rd } := by
  refine ⟨h.msgs.frame hm, fun u p hu => ?_, h.q, h.nodup, h.secd, h.all⟩
  have hg := h.good u p hu
  by_cases e : u = t
  · subst e
    cases p with
    | key e =>
      refine ⟨⟨hg.1.pos, hg.1.seen, fun k ts hk => ?_, hg.1.later⟩, Nat.le_trans hg.2.1 (hv _ _), hg.2.2.1, fun x => Nat.le_trans (hg.2.2.2 x) (hv _ _)⟩
      rcases hrt k ts hk with h1 | h1
      · exact hg.1.rd k ts h1
      · exact Nat.le_trans (hg.2.2.2 _) h1
    | sleep => exact absurd hu hns
    | nlock n a => exact ⟨hg.1, Nat.le_trans hg.2.1 (hv _ _), hg.2.2⟩
    | _ => trivial
  · exact hg.grow (hv u) rfl rfl rfl rfl rfl rfl rfl rfl rfl (hrd u e) rfl

theorem rd_upd {rd : Nat → Nat → Option Nat} {t k ts : Nat} {b : Nat} (hb : b ≤ ts) (k' ts' : Nat) (h : upd rd t (upd (rd t) k (some ts)) t k' = some ts') :
    rd t k' = some ts' ∨ (k' = k ∧ b ≤ ts') := by
  rw [upd_same] at h
  by_cases e : k' = k
  · subst e; rw [upd_same] at h; cases h; exact Or.inr ⟨rfl, hb⟩
  · rw [upd_ne _ _ e] at h; exact Or.inl h

theorem inv_client {s s' : State} (h : Inv s) {t : Nat} {o : COp} (hns : s.th[t]? ≠ some .sleep) (hst : doClient s t o = some s') : Inv s' := by
  cases o with
  | load k a ts =>
    simp only [doClient] at hst
    split at hst
    · cases hst
    rename_i v m hm
    cases hst
    obtain ⟨y, L, rfl⟩ := load_facts hm
    refine inv_cl h hns (fun p => by rw [L.msg]) L.mono (fun u e => upd_ne _ _ e) (fun k' ts' hk => ?_)
    rcases rd_upd L.may k' ts' hk with h1 | ⟨rfl, h1⟩
    · exact Or.inl h1
    · exact Or.inr h1
  | store k v r ts =>
    simp only [doClient] at hst
    split at hst
    · cases hst
    rename_i m hm
    cases hst
    obtain ⟨w, L⟩ := store_facts hm
    exact inv_cl h hns (fun p => L.old _ _ (fun x => by cases x.1)) L.mono (fun _ _ => rfl) (fun _ _ hk => Or.inl hk)
  | rmw k v a r ts =>
    simp only [doClient] at hst
    split at hst
    · cases hst
    rename_i v m hm
    cases hst
    obtain ⟨y, w, L, rfl⟩ := rmw_facts hm
    refine inv_cl h hns (fun p => L.old _ _ (fun x => by cases x.1)) L.mono (fun u e => upd_ne _ _ e) (fun k' ts' hk => ?_)
    rcases rd_upd L.may k' ts' hk with h1 | ⟨rfl, h1⟩
    · exact Or.inl h1
    · exact Or.inr h1
  | fence =>
    simp only [doClient] at hst
    cases hst
    refine inv_cl (m := s.m.fence t) (rd := s.rd) h hns (fun p => rfl) (fun u x => ?_) (fun _ _ => rfl) (fun _ _ hk => Or.inl hk)
    show _ ≤ upd s.m.cur t _ u x
    by_cases e : u = t
    · subst e; rw [upd_same]; exact le_join_left _ _ _
    · rw [upd_ne _ _ e]; exact Nat.le_refl _

/-! ### `prepareWait`, the destructor of the key, the notification -/

theorem inv_prep {c : Cfg} (hc : Strong c) {s s' : State} (h : Inv s) (hQ : Fits s) {t ts : Nat} (ht : s.th[t]? = some .idle) (hst : doPrep c s t ts = some s') : Inv s' := by
  unfold doPrep at hst
  split at hst
  · cases hst
  rename_i v m hm
  cases hst
  obtain ⟨y, w, L, rfl⟩ := rmw_facts hm
  have htop := h.msgs.top_eq L
  subst htop
  obtain ⟨z, hz, hz1, hzv⟩ := h.msgs.some s.top (Nat.le_refl _)
  rw [L.src] at hz; cases hz
  have hz2 := h.msgs.last y L.src
  have hcount := count_set (q := .key (y.val / E)) Pc.holds ht
  simp [Pc.holds] at hcount
  have hlen : (s.th.set t (.key (y.val / E))).countP Pc.holds ≤ s.th.length := by
    have := List.countP_le_length (p := Pc.holds) (l := s.th.set t (.key (y.val / E))); rwa [List.length_set] at this
  obtain ⟨a1, a2⟩ := arith_prep hz1 hz2 (by have := hQ.1; omega)
  have hM := h.msgs.plain L a1 a2
  have hstay : ∀ (u : Nat), u ≠ t → ∀ p, s.th[u]? = some p → PcOk { s with
      m := m, th := s.th.set t (.key (y.val / E)), top := s.top + 1, cnt := upd s.cnt (s.top + 1) (s.cnt s.top)
      pos := upd s.pos t (s.top + 1), base := upd s.base t (m.cur t), rd := upd s.rd t (fun _ => none) } u p := by
    intro u e p hu
    have hg := h.good u p hu
    have hh : Held s u → Held { s with
      m := m, th := s.th.set t (.key (y.val / E)), top := s.top + 1, cnt := upd s.cnt (s.top + 1) (s.cnt s.top)
      pos := upd s.pos t (s.top + 1), base := upd s.base t (m.cur t), rd := upd s.rd t (fun _ => none) } u := by
      intro H
      refine ⟨?_, ?_, ?_, ?_⟩ <;> simp only [upd_ne _ _ e]
      · have := H.pos; omega
      · exact H.seen
      · exact H.rd
      · exact H.later
    cases p with
    | key e' =>
      refine ⟨hh hg.1, ?_, ?_, ?_⟩ <;> simp only [upd_ne _ _ e]
      · exact Nat.le_trans hg.2.1 (L.mono _ _)
      · rw [upd_ne _ _ (by have := hg.1.pos; omega)]; exact hg.2.2.1
      · exact fun x => Nat.le_trans (hg.2.2.2 x) (L.mono _ _)
    | sleep =>
      refine ⟨hh hg.1, ?_⟩
      simp only [upd_ne _ _ e]; exact hg.2
    | nlock n a => exact ⟨hg.1, Nat.le_trans hg.2.1 (L.mono _ _), hg.2.2⟩
    | _ => trivial
  refine ⟨?_, ?_, ?_, h.nodup, h.secd, h.all⟩
  · show Msgs m _ _ _ _ ((s.th.set t (.key (y.val / E))).countP Pc.holds)
    rw [hcount]; exact hM
  · intro u p hu
    rcases get_set ht u p hu with ⟨rfl, rfl⟩ | ⟨e, hu⟩
    · refine ⟨⟨?_, ?_, ?_, ?_⟩, ?_, ?_, ?_⟩ <;> simp only [upd_same]
      · exact Nat.le_refl _
      · intro n hn _ x
        exact Nat.le_trans (hzv n hn (h.msgs.le n hn) x) (L.acq hc.1 x)
      · intro k ts hk; cases hk
      · intro n hn hlt; have := h.msgs.le n hn; omega
      · exact L.ge
      · exact hz1
      · exact fun x => Nat.le_refl _
    · exact hstay u e p hu
  · intro u
    rw [h.q]
    show s.th[u]? = _ ↔ (s.th.set t _)[u]? = _
    by_cases e : u = t
    · subst e; rw [set_self _ ht, ht]; simp
    · rw [List.getElem?_set_ne (fun x => e x.symm)]

theorem inv_drop {s s' : State} (h : Inv s) {t ts : Nat} {p0 : Pc} (ht : s.th[t]? = some p0) (hp0 : p0.holds = true) (hns : p0 ≠ .sleep) (hst : doDrop s t ts = some s') : Inv s' := by
  unfold doDrop at hst
  split at hst
  · cases hst
  rename_i v m hm
  cases hst
  obtain ⟨y, w, L, rfl⟩ := rmw_facts hm
  have htop := h.msgs.top_eq L
  subst htop
  obtain ⟨z, hz, hz1, hzv⟩ := h.msgs.some s.top (Nat.le_refl _)
  rw [L.src] at hz; cases hz
  have hz2 := h.msgs.last y L.src
  have hcount := count_set (q := .idle) Pc.holds ht
  rw [hp0] at hcount
  simp [Pc.holds] at hcount
  obtain ⟨a1, a2⟩ := arith_drop hz1 hz2 (by omega)
  have hM := h.msgs.plain L a1 a2
  refine ⟨?_, ?_, ?_, h.nodup, h.secd, h.all⟩
  · show Msgs m _ _ _ _ ((s.th.set t .idle).countP Pc.holds)
    have : (s.th.set t .idle).countP Pc.holds = s.th.countP Pc.holds - 1 := by omega
    rw [this]; exact hM
  · intro u p hu
    rcases get_set ht u p hu with ⟨rfl, rfl⟩ | ⟨e, hu⟩
    · trivial
    · have hg := h.good u p hu
      cases p with
      | key e' =>
        refine ⟨⟨?_, hg.1.seen, hg.1.rd, hg.1.later⟩, Nat.le_trans hg.2.1 (L.mono _ _), ?_, fun x => Nat.le_trans (hg.2.2.2 x) (L.mono _ _)⟩
        · show s.pos u ≤ s.top + 1; have := hg.1.pos; omega
        · show e' = upd s.cnt (s.top + 1) _ (s.pos u) % E
          rw [upd_ne _ _ (by have := hg.1.pos; omega)]; exact hg.2.2.1
      | sleep => exact ⟨⟨by show s.pos u ≤ s.top + 1; have := hg.1.pos; omega, hg.1.seen, hg.1.rd, hg.1.later⟩, hg.2⟩
      | nlock n a => exact ⟨hg.1, Nat.le_trans hg.2.1 (L.mono _ _), hg.2.2⟩
      | _ => trivial
  · intro u
    rw [h.q]
    show s.th[u]? = _ ↔ (s.th.set t _)[u]? = _
    by_cases e : u = t
    · subst e; rw [set_self _ ht, ht]; simp [hns]
    · rw [List.getElem?_set_ne (fun x => e x.symm)]

theorem inv_notify {c : Cfg} (hc : Strong c) {s s' : State} (h : Inv s) {t ts : Nat} {all : Bool} (ht : s.th[t]? = some .idle) (hst : doNotify c s t all ts = some s') : Inv s' := by
  unfold doNotify at hst
  split at hst
  · cases hst
  rename_i v m hm
  cases hst
  obtain ⟨y, w, L, rfl⟩ := rmw_facts hm
  have htop := h.msgs.top_eq L
  subst htop
  rw [hc.2] at L
  obtain ⟨z, hz, hz1, hzv⟩ := h.msgs.some s.top (Nat.le_refl _)
  rw [L.src] at hz; cases hz
  have hz2 := h.msgs.last y L.src
  obtain ⟨a1, a2⟩ := arith_note hz1 hz2
  have hM := h.msgs.noted L a1 a2
  generalize hp' : (if y.val % E = 0 then Pc.idle else .nlock (s.top + 1) all) = p'
  have hpn : p'.holds = false := by subst hp'; split <;> rfl
  have hps : p' ≠ .sleep := by subst hp'; split <;> nofun
  have fresh : ∀ n, s.note n = true → n ≠ s.top + 1 := fun n hn e => by have := h.msgs.le n hn; omega
  have hno : ∀ n, n ≠ s.top + 1 → upd s.note (s.top + 1) true n = true → s.note n = true := fun n e hn => by rwa [upd_ne _ _ e] at hn
  have hheld : ∀ (u : Nat) (p : Pc), s.th[u]? = some p → p.holds = true → Held s u → Held { s with
      m := m, th := s.th.set t p', top := s.top + 1, cnt := upd s.cnt (s.top + 1) (s.cnt s.top + 1)
      note := upd s.note (s.top + 1) true, nv := upd s.nv (s.top + 1) (m.cur t), zero := upd s.zero (s.top + 1) (decide (y.val % E = 0))
      alln := upd s.alln (s.top + 1) all } u := by
    intro u p hu hp H
    refine ⟨Nat.le_succ_of_le H.pos, ?_, H.rd, ?_⟩
    · intro n hn hle x
      have hle : n ≤ s.pos u := hle
      have e : n ≠ s.top + 1 := by have := H.pos; omega
      show upd s.nv _ _ n x ≤ _
      rw [upd_ne _ _ e]; exact H.seen n (hno n e hn) hle x
    · intro n hn hlt
      show upd s.zero _ _ n = false
      by_cases e : n = s.top + 1
      · subst e
        rw [upd_same]
        have := pos_of (f := Pc.holds) hu hp
        exact decide_eq_false (by omega)
      · rw [upd_ne _ _ e]; exact H.later n (hno n e hn) hlt
  refine ⟨?_, ?_, ?_, h.nodup, ?_, ?_⟩
  · show Msgs m _ _ _ _ ((s.th.set t p').countP Pc.holds)
    rw [count_same ht (by rw [hpn]; rfl)]; exact hM
  · intro u p hu
    rcases get_set ht u p hu with ⟨rfl, rfl⟩ | ⟨e, hu⟩
    · by_cases hv : y.val % E = 0
      · rw [if_pos hv] at hp'; subst hp'; trivial
      · rw [if_neg hv] at hp'; subst hp'
        refine ⟨?_, L.ge, ?_⟩
        · show upd s.note _ _ _ = true; rw [upd_same]
        · show upd s.alln _ _ _ = _; rw [upd_same]
    · have hg := h.good u p hu
      cases p with
      | key e' =>
        refine ⟨hheld u _ hu rfl hg.1, Nat.le_trans hg.2.1 (L.mono _ _), ?_, fun x => Nat.le_trans (hg.2.2.2 x) (L.mono _ _)⟩
        show e' = upd s.cnt (s.top + 1) _ (s.pos u) % E
        rw [upd_ne _ _ (by have := hg.1.pos; omega)]; exact hg.2.2.1
      | sleep => exact ⟨hheld u _ hu rfl hg.1, hg.2⟩
      | nlock n a =>
        have hn := fresh n hg.1
        refine ⟨?_, Nat.le_trans hg.2.1 (L.mono _ _), ?_⟩
        · show upd s.note _ _ _ = true; rw [upd_ne _ _ hn]; exact hg.1
        · show upd s.alln _ _ _ = _; rw [upd_ne _ _ hn]; exact hg.2.2
      | _ => trivial
  · intro u
    rw [h.q]
    show s.th[u]? = _ ↔ (s.th.set t _)[u]? = _
    by_cases e : u = t
    · subst e; rw [set_self _ ht, ht]; simp [hps]
    · rw [List.getElem?_set_ne (fun x => e x.symm)]
  · intro n hn
    obtain ⟨a, b⟩ := h.secd n hn
    exact ⟨by show upd s.note _ _ _ = true; rw [upd_ne _ _ (fresh n a)]; exact a, b⟩
  · intro n u hn
    obtain ⟨a, b⟩ := h.all n u hn
    refine ⟨?_, ?_⟩
    · show upd s.alln _ _ _ = _; rw [upd_ne _ _ (fresh n b)]; exact a
    · show upd s.note _ _ _ = _; rw [upd_ne _ _ (fresh n b)]; exact b

/-! ### Under the lock -/

theorem lockIn_mono (s : State) (t u : Nat) (x : Loc) : s.m.cur u x ≤ (lockIn s t).cur u x := by
  show _ ≤ upd s.m.cur t _ u x
  by_cases e : u = t
  · subst e; rw [upd_same]; exact le_join_left _ _ _
  · rw [upd_ne _ _ e]; exact Nat.le_refl _

theorem lockIn_ge (s : State) (t : Nat) (x : Loc) : s.lockView x ≤ (lockIn s t).cur t x := by
  show _ ≤ upd s.m.cur t _ t x
  rw [upd_same]; exact le_join_right _ _ _

theorem inv_wait {s s' : State} (h : Inv s) (hQ : Fits s) {t e ts : Nat} (ht : s.th[t]? = some (.key e)) (hst : doWait s t e ts = some s') : Inv s' := by
  unfold doWait at hst
  split at hst
  · cases hst
  rename_i v m hm
  cases hst
  obtain ⟨y, L, rfl⟩ := load_facts hm
  have hmono : ∀ u x, s.m.cur u x ≤ m.cur u x := fun u x => Nat.le_trans (lockIn_mono s t u x) (L.mono u x)
  have hlv : ∀ x, s.lockView x ≤ m.cur t x := fun x => Nat.le_trans (lockIn_ge s t x) (L.mono t x)
  have hmsg : ∀ p, m.msg .val p = s.m.msg .val p := fun p => by rw [L.msg]; rfl
  have hg := h.good t _ ht
  generalize hp' : (if y.val / E = e then Pc.sleep else .drop) = p'
  have hph : p'.holds = true := by subst hp'; split <;> rfl
  refine ⟨?_, ?_, ?_, ?_, ?_, h.all⟩
  · show Msgs m _ _ _ _ ((s.th.set t p').countP Pc.holds)
    rw [count_same ht (by rw [hph]; rfl)]
    exact h.msgs.frame hmsg
  · intro u p hu
    rcases get_set ht u p hu with ⟨rfl, rfl⟩ | ⟨hne, hu⟩
    · by_cases hv : y.val / E = e
      · rw [if_pos hv] at hp'; subst hp'
        refine ⟨⟨hg.1.pos, hg.1.seen, hg.1.rd, hg.1.later⟩, fun n hn hlt => ?_⟩
        exfalso
        have hlt : s.pos u < n := hlt
        obtain ⟨h1, h2⟩ := h.secd n hn
        have h3 : n ≤ ts := Nat.le_trans h2 (Nat.le_trans (lockIn_ge s u .val) L.may)
        have hts : ts ≤ s.top := by
          refine Nat.le_of_not_lt fun hlt => ?_
          have h4 : s.m.msg .val ts = some y := L.src
          rw [h.msgs.none ts hlt] at h4; cases h4
        obtain ⟨z, hz, hz1, _⟩ := h.msgs.some ts hts
        have h4 : s.m.msg .val ts = some y := L.src
        rw [h4] at hz; cases hz
        have k1 := h.msgs.strict n _ h1 hlt
        have k2 := h.msgs.mono n ts h3 hts
        have k3 := h.msgs.mono ts _ hts (Nat.le_refl _)
        have k4 := hQ.2 u e ht
        refine arith_epoch (a := s.cnt (s.pos u)) (b := s.cnt ts) (by omega) (by omega) ?_
        rw [← hz1, ← hg.2.2.1]; exact hv
      · rw [if_neg hv] at hp'; subst hp'; trivial
    · exact (h.good u p hu).grow (hmono u) rfl rfl rfl rfl rfl rfl rfl rfl rfl rfl rfl
  · intro u
    show u ∈ (if y.val / E = e then s.q ++ [t] else s.q) ↔ (s.th.set t p')[u]? = _
    by_cases hv : y.val / E = e
    · rw [if_pos hv] at hp' ⊢; subst hp'
      rw [List.mem_append, List.mem_singleton, h.q]
      by_cases e : u = t
      · subst e; rw [set_self _ ht]; simp
      · rw [List.getElem?_set_ne (fun x => e x.symm)]; simp [e]
    · rw [if_neg hv] at hp' ⊢; subst hp'
      rw [h.q]
      by_cases e : u = t
      · subst e; rw [set_self _ ht, ht]; simp
      · rw [List.getElem?_set_ne (fun x => e x.symm)]
  · show (if y.val / E = e then s.q ++ [t] else s.q).Nodup
    split
    · refine List.nodup_append.2 ⟨h.nodup, by simp, fun a ha b hb => ?_⟩
      rw [List.mem_singleton] at hb; subst hb
      rintro rfl
      rw [h.q, ht] at ha; cases ha
    · exact h.nodup
  · intro n hn
    obtain ⟨a, b⟩ := h.secd n hn
    exact ⟨a, Nat.le_trans b (hlv _)⟩

theorem inv_timeout {s : State} (h : Inv s) {t : Nat} (ht : s.th[t]? = some .sleep) : Inv (doTimeout s t) := by
  refine ⟨?_, ?_, ?_, h.nodup.erase _, ?_, h.all⟩
  · show Msgs (lockIn s t) _ _ _ _ ((s.th.set t .drop).countP Pc.holds)
    rw [count_same (q := .drop) ht rfl]
    exact h.msgs.frame (fun _ => rfl)
  · intro u p hu
    rcases get_set ht u p hu with ⟨rfl, rfl⟩ | ⟨hne, hu⟩
    · trivial
    · exact (h.good u p hu).grow (lockIn_mono s t u) rfl rfl rfl rfl rfl rfl rfl rfl rfl rfl rfl
  · intro u
    show u ∈ s.q.erase t ↔ (s.th.set t .drop)[u]? = _
    rw [h.nodup.mem_erase_iff, h.q]
    by_cases e : u = t
    · subst e; rw [set_self _ ht]; simp
    · rw [List.getElem?_set_ne (fun x => e x.symm)]; simp [e]
  · intro n hn
    obtain ⟨a, b⟩ := h.secd n hn
    exact ⟨a, Nat.le_trans b (lockIn_ge s t _)⟩

theorem inv_wake {s : State} (h : Inv s) {t n : Nat} {all : Bool} (ht : s.th[t]? = some (.nlock n all)) : Inv (doWake s t n all) := by
  have hg := h.good t _ ht
  have hcount : (s.th.set t .idle).countP Pc.holds = s.th.countP Pc.holds := count_same ht rfl
  have hsec : ∀ k, upd s.secd n true k = true → s.note k = true ∧ k ≤ (lockIn s t).cur t .val := by
    intro k hk
    by_cases e : k = n
    · subst e; exact ⟨hg.1, Nat.le_trans hg.2.1 (lockIn_mono s t t _)⟩
    · rw [upd_ne _ _ e] at hk
      obtain ⟨a, b⟩ := h.secd k hk
      exact ⟨a, Nat.le_trans b (lockIn_ge s t _)⟩
  have hqt : t ∉ s.q := fun hm => by rw [h.q, ht] at hm; cases hm
  -- a thread other than t, not sleeping
  have hother : ∀ (s' : State) (u : Nat) (p : Pc), u ≠ t → s.th[u]? = some p → p ≠ .sleep → s'.m = lockIn s t → s'.top = s.top → s'.note = s.note → s'.nv = s.nv →
      s'.zero = s.zero → s'.cnt = s.cnt → s'.pos = s.pos → s'.base = s.base → s'.rd = s.rd → s'.alln = s.alln → PcOk s' u p := by
    intro s' u p e hu hp e0 e1 e2 e3 e4 e5 e6 e7 e8 e9
    have hg := h.good u p hu
    cases p with
    | key e' =>
      refine ⟨⟨by rw [e6, e1]; exact hg.1.pos, by rw [e2, e6, e3, e7]; exact hg.1.seen, by rw [e8, e7]; exact hg.1.rd, by rw [e2, e6, e4]; exact hg.1.later⟩, ?_, ?_, ?_⟩
      · rw [e6, e0]; exact Nat.le_trans hg.2.1 (lockIn_mono s t u _)
      · rw [e5, e6]; exact hg.2.2.1
      · rw [e7, e0]; exact fun x => Nat.le_trans (hg.2.2.2 x) (lockIn_mono s t u _)
    | sleep => exact absurd rfl hp
    | nlock n' a => exact ⟨by rw [e2]; exact hg.1, by rw [e0]; exact Nat.le_trans hg.2.1 (lockIn_mono s t u _), by rw [e9]; exact hg.2.2⟩
    | _ => trivial
  cases all with
  | true =>
    have hwq : ∀ u ∈ s.q, ∃ p, (s.th.set t .idle)[u]? = some p ∧ p.holds = true := fun u hu => by
      have hne : t ≠ u := fun e => hqt (by rw [e]; exact hu)
      exact ⟨.sleep, by rw [List.getElem?_set_ne hne]; exact (h.q u).1 hu, rfl⟩
    refine ⟨?_, ?_, ?_, List.nodup_nil, hsec, h.all⟩
    · show Msgs (lockIn s t) _ _ _ _ ((wakeAll s.q (s.th.set t .idle)).countP Pc.holds)
      rw [wakeAll_count _ _ hwq, hcount]
      exact h.msgs.frame (fun _ => rfl)
    · intro u p hu
      rcases wakeAll_get _ _ u p hu with ⟨rfl, _⟩ | ⟨hn, hu⟩
      · trivial
      · rcases get_set ht u p hu with ⟨rfl, rfl⟩ | ⟨hne, hu⟩
        · trivial
        · refine hother _ u p hne hu ?_ rfl rfl rfl rfl rfl rfl rfl rfl rfl rfl
          rintro rfl
          exact hn ((h.q u).2 hu)
    · intro u
      constructor
      · intro hm; cases hm
      · intro hu
        rcases wakeAll_get _ _ u _ hu with ⟨e, _⟩ | ⟨hn, hu⟩
        · cases e
        · rcases get_set ht u _ hu with ⟨_, e⟩ | ⟨_, hu⟩
          · cases e
          · exact absurd ((h.q u).2 hu) hn
  | false =>
    cases hq : s.q with
    | nil =>
      have hd : doWake s t n false = { s with m := lockIn s t, lockView := (lockIn s t).cur t, secd := upd s.secd n true, th := s.th.set t .idle } := by
        simp [doWake, hq]
      rw [hd]
      refine ⟨?_, ?_, ?_, h.nodup, hsec, h.all⟩
      · show Msgs (lockIn s t) _ _ _ _ ((s.th.set t .idle).countP Pc.holds)
        rw [hcount]; exact h.msgs.frame (fun _ => rfl)
      · intro u p hu
        rcases get_set ht u p hu with ⟨rfl, rfl⟩ | ⟨hne, hu⟩
        · trivial
        · refine hother _ u p hne hu ?_ rfl rfl rfl rfl rfl rfl rfl rfl rfl rfl
          rintro rfl
          have := (h.q u).2 hu; rw [hq] at this; cases this
      · intro u
        rw [h.q]
        show s.th[u]? = _ ↔ (s.th.set t .idle)[u]? = _
        by_cases e : u = t
        · subst e; rw [set_self _ ht, ht]; simp
        · rw [List.getElem?_set_ne (fun x => e x.symm)]
    | cons w q =>
      have hd : doWake s t n false = { s with m := lockIn s t, lockView := (lockIn s t).cur t, secd := upd s.secd n true, th := (s.th.set t .idle).set w .drop, q := q, took := upd s.took n (some w) } := by
        simp [doWake, hq]
      rw [hd]
      have hw : s.th[w]? = some .sleep := (h.q w).1 (by rw [hq]; exact List.mem_cons_self ..)
      have hwt : w ≠ t := fun e => by rw [e, ht] at hw; cases hw
      have hw' : (s.th.set t .idle)[w]? = some .sleep := by rw [List.getElem?_set_ne (fun e => hwt e.symm)]; exact hw
      have hnd : (w :: q).Nodup := hq ▸ h.nodup
      have hwq : w ∉ q := (List.nodup_cons.1 hnd).1
      refine ⟨?_, ?_, ?_, (List.nodup_cons.1 hnd).2, hsec, ?_⟩
      · show Msgs (lockIn s t) _ _ _ _ (((s.th.set t .idle).set w .drop).countP Pc.holds)
        rw [count_same (q := .drop) hw' rfl, hcount]; exact h.msgs.frame (fun _ => rfl)
      · intro u p hu
        rcases get_set hw' u p hu with ⟨rfl, rfl⟩ | ⟨hnw, hu⟩
        · trivial
        rcases get_set ht u p hu with ⟨rfl, rfl⟩ | ⟨hne, hu⟩
        · trivial
        · by_cases hp : p = .sleep
          · subst hp
            have hgu := h.good u _ hu
            refine ⟨⟨hgu.1.pos, hgu.1.seen, hgu.1.rd, hgu.1.later⟩, fun k hk hlt => ?_⟩
            show ∃ u', u' ≠ u ∧ upd s.took n (some w) k = some u'
            by_cases e : k = n
            · subst e; rw [upd_same]; exact ⟨w, fun e => hnw e.symm, rfl⟩
            · have hk : upd s.secd n true k = true := hk
              rw [upd_ne _ _ e] at hk ⊢; exact hgu.2 k hk hlt
          · exact hother _ u p hne hu hp rfl rfl rfl rfl rfl rfl rfl rfl rfl rfl
      · intro u
        show u ∈ q ↔ ((s.th.set t .idle).set w .drop)[u]? = _
        have h0 := h.q u
        rw [hq, List.mem_cons] at h0
        by_cases e : u = w
        · subst e; rw [set_self _ hw']; simp [hwq]
        · rw [List.getElem?_set_ne (fun x => e x.symm)]
          by_cases e2 : u = t
          · subst e2
            rw [set_self _ ht]
            constructor
            · intro hm; have := h0.1 (Or.inr hm); rw [ht] at this; cases this
            · intro e; cases e
          · rw [List.getElem?_set_ne (fun x => e2 x.symm), ← h0]
            simp [e]
      · intro k u hk
        have hk : upd s.took n (some w) k = some u := hk
        by_cases e : k = n
        · subst e; exact ⟨hg.2.2, hg.1⟩
        · rw [upd_ne _ _ e] at hk; exact h.all k u hk

theorem inv_step {c : Cfg} (hc : Strong c) (s : State) (a : Act) (s' : State) (h : Inv s) (hQ : Fits s) (hst : step c s a = some s') : Inv s' := by
  cases a with
  | client t o => simp only [step] at hst; split at hst; cases hst; exact inv_client h ‹_› hst
  | prep t ts => simp only [step] at hst; split at hst; exact inv_prep hc h hQ ‹_› hst; cases hst
  | wait t ts => simp only [step] at hst; split at hst; exact inv_wait h hQ ‹_› hst; cases hst
  | timeout t => simp only [step] at hst; split at hst <;> cases hst; exact inv_timeout h ‹_›
  | drop t ts =>
    simp only [step] at hst
    split at hst
    · rename_i hk; exact inv_drop h hk rfl (by nofun) hst
    · rename_i hk; exact inv_drop h hk rfl (by nofun) hst
    · cases hst
  | notify t all ts => simp only [step] at hst; split at hst; exact inv_notify hc h ‹_› hst; cases hst
  | wake t => simp only [step] at hst; split at hst <;> cases hst; exact inv_wake h ‹_›

theorem inv_init (s : State) (h : Init s) : Inv s := by
  obtain ⟨k, v, rfl⟩ := h
  have hth : ∀ (i : Nat) (p : Pc), (startOf k v).th[i]? = some p → p = .idle := fun i p hp => List.eq_of_mem_replicate (List.mem_of_getElem? hp)
  have z : (startOf k v).th.countP Pc.holds = 0 := List.countP_eq_zero.2 fun p hp => by rw [List.eq_of_mem_replicate hp]; simp [Pc.holds]
  refine ⟨⟨?_, ?_, ?_, fun _ _ _ _ => Nat.le_refl _, nofun, nofun⟩, ?_, ?_, List.nodup_nil, nofun, nofun⟩
  · intro p hp
    have : p = 0 := Nat.le_zero.1 hp
    subst this
    exact ⟨_, rfl, by show 0 / E = 0 % E; rw [Nat.zero_div, Nat.zero_mod], nofun⟩
  · intro p hp
    show (if p = 0 then _ else none) = none
    rw [if_neg (by have : 0 < p := hp; omega)]
  · intro y hy; cases hy; rw [z]; rfl
  · intro t p hp; rw [hth t p hp]; trivial
  · intro t
    constructor
    · intro hm; cases hm
    · intro hp; have := hth t _ hp; cases this

end Verif.ECRA
