import Verif.Listener.GateStep
/-! The lists and the hooks agree, and the queues, the shutdown fibers and the lists go through the phases together. -/
namespace Verif.Listener
open Verif.Common

/-- Lists and hooks agree. -/
structure LOk (conns : List Conn) (lists : Nat → Option (List Nat)) : Prop where
  nd : ∀ (t : Nat) (l : List Nat), lists t = some l → l.Nodup
  mem : ∀ (t : Nat) (l : List Nat) (c : Nat), lists t = some l → (c ∈ l ↔ ∃ x : Conn, conns[c]? = some x ∧ x.hook = some t)
  hk : ∀ (c : Nat) (x : Conn) (t : Nat), conns[c]? = some x → x.hook = some t → (lists t).isSome = true

theorem LOk.keep {conns : List Conn} {lists : Nat → Option (List Nat)} (h : LOk conns lists) {c : Nat} {x y : Conn}
    (hx : conns[c]? = some x) (e : y.hook = x.hook) : LOk (conns.set c y) lists := by
  have hc := lt_of_get hx
  refine ⟨h.nd, fun t l c' hl => ?_, fun c' z t hz hh => ?_⟩
  · rw [h.mem t l c' hl]
    constructor
    · rintro ⟨z, hz, hh⟩
      by_cases he : c' = c
      · subst he
        rw [hx] at hz
        cases hz
        exact ⟨y, by simp [hc], by rw [e]; exact hh⟩
      · exact ⟨z, by rw [List.getElem?_set_ne (Ne.symm he)]; exact hz, hh⟩
    · rintro ⟨z, hz, hh⟩
      rcases get_set hz with ⟨rfl, rfl⟩ | ⟨he, hz⟩
      · exact ⟨x, hx, by rw [← e]; exact hh⟩
      · exact ⟨z, hz, hh⟩
  · rcases get_set hz with ⟨rfl, rfl⟩ | ⟨he, hz⟩
    · exact h.hk _ x t hx (by rw [← e]; exact hh)
    · exact h.hk c' z t hz hh

theorem LOk.unlink {conns : List Conn} {lists : Nat → Option (List Nat)} (h : LOk conns lists) {c d : Nat} {x y : Conn}
    {l : List Nat} (hx : conns[c]? = some x) (e : x.hook = some d) (e2 : y.hook = none) (hl : lists d = some l) :
    LOk (conns.set c y) (upd lists d (some (l.erase c))) := by
  refine ⟨fun t m hm => ?_, fun t m c' hm => ?_, fun c' z t hz hh => ?_⟩
  · by_cases he : t = d
    · subst he
      rw [upd_same] at hm
      cases hm
      exact (h.nd _ _ hl).erase _
    · rw [upd_ne _ _ he] at hm
      exact h.nd t m hm
  · have key : (∃ z : Conn, (conns.set c y)[c']? = some z ∧ z.hook = some t) ↔
        c' ≠ c ∧ ∃ z : Conn, conns[c']? = some z ∧ z.hook = some t := by
      constructor
      · rintro ⟨z, hz, hh⟩
        rcases get_set hz with ⟨rfl, rfl⟩ | ⟨he, hz⟩
        · rw [e2] at hh; cases hh
        · exact ⟨he, z, hz, hh⟩
      · rintro ⟨he, z, hz, hh⟩
        exact ⟨z, by rw [List.getElem?_set_ne (Ne.symm he)]; exact hz, hh⟩
    rw [key]
    by_cases he : t = d
    · subst he
      rw [upd_same] at hm
      cases hm
      rw [(h.nd _ _ hl).mem_erase_iff, h.mem _ _ c' hl]
    · rw [upd_ne _ _ he] at hm
      rw [h.mem t m c' hm]
      constructor
      · rintro ⟨z, hz, hh⟩
        refine ⟨?_, z, hz, hh⟩
        rintro rfl
        rw [hx] at hz
        cases hz
        rw [e] at hh
        cases hh
        exact he rfl
      · exact fun h => h.2
  · rcases get_set hz with ⟨rfl, rfl⟩ | ⟨he, hz⟩
    · rw [e2] at hh; cases hh
    · by_cases ht : t = d
      · subst ht; simp
      · rw [upd_ne _ _ ht]; exact h.hk c' z t hz hh

theorem LOk.link {conns : List Conn} {lists : Nat → Option (List Nat)} (h : LOk conns lists) {c d : Nat} {x y : Conn}
    {l : List Nat} (hx : conns[c]? = some x) (e : x.hook = none) (e2 : y.hook = some d) (hl : lists d = some l) :
    LOk (conns.set c y) (upd lists d (some (l ++ [c]))) := by
  have hc := lt_of_get hx
  have hn : ∀ t m, lists t = some m → c ∉ m := by
    intro t m hm hc
    rw [h.mem t m c hm] at hc
    obtain ⟨z, hz, hh⟩ := hc
    rw [hx] at hz
    cases hz
    rw [e] at hh
    cases hh
  refine ⟨fun t m hm => ?_, fun t m c' hm => ?_, fun c' z t hz hh => ?_⟩
  · by_cases he : t = d
    · subst he
      rw [upd_same] at hm
      cases hm
      rw [List.nodup_append]
      refine ⟨h.nd _ _ hl, by simp, ?_⟩
      intro a ha b hb
      simp only [List.mem_singleton] at hb
      subst hb
      rintro rfl
      exact hn _ _ hl ha
    · rw [upd_ne _ _ he] at hm
      exact h.nd t m hm
  · have key : (∃ z : Conn, (conns.set c y)[c']? = some z ∧ z.hook = some t) ↔
        (c' = c ∧ t = d) ∨ ∃ z : Conn, conns[c']? = some z ∧ z.hook = some t := by
      constructor
      · rintro ⟨z, hz, hh⟩
        rcases get_set hz with ⟨rfl, rfl⟩ | ⟨he, hz⟩
        · rw [e2] at hh; cases hh; exact Or.inl ⟨rfl, rfl⟩
        · exact Or.inr ⟨z, hz, hh⟩
      · rintro (⟨rfl, rfl⟩ | ⟨z, hz, hh⟩)
        · exact ⟨y, by simp [hc], e2⟩
        · have he : c' ≠ c := by
            rintro rfl
            rw [hx] at hz
            cases hz
            rw [e] at hh
            cases hh
          exact ⟨z, by rw [List.getElem?_set_ne (Ne.symm he)]; exact hz, hh⟩
    rw [key]
    by_cases he : t = d
    · subst he
      rw [upd_same] at hm
      cases hm
      rw [List.mem_append, List.mem_singleton, h.mem _ _ c' hl]
      constructor
      · rintro (h1 | h1)
        · exact Or.inr h1
        · exact Or.inl ⟨h1, rfl⟩
      · rintro (h1 | h1)
        · exact Or.inr h1.1
        · exact Or.inl h1
    · rw [upd_ne _ _ he] at hm
      rw [h.mem t m c' hm]
      exact ⟨Or.inr, fun h1 => h1.resolve_left fun h2 => he h2.2⟩
  · rcases get_set hz with ⟨rfl, rfl⟩ | ⟨he, hz⟩
    · rw [e2] at hh; cases hh; simp
    · by_cases ht : t = d
      · subst ht; simp
      · rw [upd_ne _ _ ht]; exact h.hk c' z t hz hh

theorem get_append_one {α : Type} {l : List α} {x y : α} {i : Nat} (h : (l ++ [x])[i]? = some y) :
    l[i]? = some y ∨ (i = l.length ∧ y = x) := by
  rw [List.getElem?_append] at h
  split at h
  · exact Or.inl h
  · rename_i hi
    have := lt_of_get h
    simp only [List.length_singleton] at this
    have e : i - l.length = 0 := by omega
    rw [e] at h
    simp only [List.getElem?_cons_zero, Option.some.injEq] at h
    exact Or.inr ⟨by omega, h.symm⟩

theorem LOk.append {conns : List Conn} {lists : Nat → Option (List Nat)} (h : LOk conns lists) {y : Conn}
    (e : y.hook = none) : LOk (conns ++ [y]) lists := by
  refine ⟨h.nd, fun t l c' hl => ?_, fun c' z t hz hh => ?_⟩
  · rw [h.mem t l c' hl]
    constructor
    · rintro ⟨z, hz, hh⟩
      exact ⟨z, by rw [List.getElem?_append_left (lt_of_get hz)]; exact hz, hh⟩
    · rintro ⟨z, hz, hh⟩
      rcases get_append_one hz with h1 | ⟨_, rfl⟩
      · exact ⟨z, h1, hh⟩
      · rw [e] at hh; cases hh
  · rcases get_append_one hz with h1 | ⟨_, rfl⟩
    · exact h.hk c' z t h1 hh
    · rw [e] at hh; cases hh

/-- An empty list can be deleted. -/
theorem LOk.delete {conns : List Conn} {lists : Nat → Option (List Nat)} (h : LOk conns lists) {t : Nat}
    (e : lists t = some []) : LOk conns (upd lists t none) := by
  refine ⟨fun u l hl => ?_, fun u l c hl => ?_, fun c z u hz hh => ?_⟩
  · by_cases he : u = t
    · subst he; rw [upd_same] at hl; cases hl
    · rw [upd_ne _ _ he] at hl; exact h.nd u l hl
  · by_cases he : u = t
    · subst he; rw [upd_same] at hl; cases hl
    · rw [upd_ne _ _ he] at hl; exact h.mem u l c hl
  · by_cases he : u = t
    · subst he
      have := (h.mem _ _ c e).2 ⟨z, hz, hh⟩
      simp at this
    · rw [upd_ne _ _ he]; exact h.hk c z u hz hh

def Item.c? : Item → Option Nat
  | .conn c => some c
  | _ => none
/-- The connections in a queue. -/
def qc (q : List Item) : List Nat := q.filterMap Item.c?

theorem mem_qc {q : List Item} {c : Nat} : c ∈ qc q ↔ .conn c ∈ q := by
  unfold qc
  rw [List.mem_filterMap]
  constructor
  · rintro ⟨i, hi, e⟩
    cases i <;> simp [Item.c?] at e
    subst e; exact hi
  · exact fun h => ⟨_, h, rfl⟩

/-- Facts about one connection. -/
structure COk (n : Nat) (x : Conn) : Prop where
  th : x.th < n
  hook : ∀ t, x.hook = some t → t = x.th ∧ x.pc ≠ .queued ∧ x.pc ≠ .gone ∧ ∀ d, x.pc ≠ .transit d
  dest : ∀ d, (x.pc = .mgTry d ∨ x.pc = .mgBack d ∨ x.pc = .mgHeld d ∨ x.pc = .transit d) → d < n

/-- The queue of thread `t`, its shutdown fibers and its list. -/
def Shape (s : S) (t : Nat) : Prop :=
  match s.phase with
  | .accepting => s.sd t = .none ∧ (s.lists t).isSome = true ∧ ∃ cs : List Nat, s.queue t = cs.map .conn
  | .stop1 => (s.lists t).isSome = true ∧ ((s.sd t = .none ∧ ∃ cs : List Nat, s.queue t = cs.map .conn ++ [.clean]) ∨
      (s.queue t = [] ∧ (s.sd t = .cleaned ∨ ∃ c, s.sd t = .shutting c)))
  | .stop2 => ((s.lists t).isSome = true ∧ ((s.sd t = .cleaned ∧ s.queue t = [.empty]) ∨ (s.sd t = .awaiting ∧ s.queue t = []))) ∨
      (s.lists t = none ∧ s.sd t = .freed ∧ s.queue t = [])
  | .stopped | .dead => s.lists t = none ∧ s.sd t = .freed ∧ s.queue t = []

structure Str (s : S) : Prop where
  l : LOk s.conns s.lists
  c : ∀ (c : Nat) (x : Conn), s.conns[c]? = some x → COk s.n x
  q1 : ∀ (t c : Nat), c ∈ qc (s.queue t) → ∃ x : Conn, s.conns[c]? = some x ∧ x.pc = .queued ∧ x.th = t
  q2 : ∀ (c : Nat) (x : Conn), s.conns[c]? = some x → x.pc = .queued → c ∈ qc (s.queue x.th)
  q3 : ∀ t, (qc (s.queue t)).Nodup
  sh : ∀ t, t < s.n → Shape s t
  out : ∀ t, s.n ≤ t → s.lists t = none ∧ s.sd t = .none
  sd : ∀ (t c : Nat), s.sd t = .shutting c → ∃ x : Conn, s.conns[c]? = some x
  tr : ∀ (k : Nat) (r : Tr), s.trs[k]? = some r → r.th < s.n ∧ r.limit < 2 ^ 32

theorem Shape.same {s s1 : S} {t : Nat} (h : Shape s t) (h1 : s1.phase = s.phase) (h2 : s1.sd t = s.sd t)
    (h3 : s1.queue t = s.queue t) (h4 : (s1.lists t).isSome = (s.lists t).isSome) : Shape s1 t := by
  have e : s1.lists t = none ↔ s.lists t = none := by
    cases hl : s.lists t <;> cases hl1 : s1.lists t <;> simp_all
  unfold Shape at h ⊢
  rw [h1, h2, h3, h4]
  cases hp : s.phase <;> rw [hp] at h <;> simp only [e] <;> exact h

/-- A step of a started connection. -/
theorem Str.conn {s s1 : S} (g : Str s) {c : Nat} {x y : Conn} (hx : s.conns[c]? = some x)
    (h2 : s1.conns = s.conns.set c y) (hl : LOk s1.conns s1.lists) (hn : s1.n = s.n) (hq : s1.queue = s.queue)
    (hsd : s1.sd = s.sd) (hp : s1.phase = s.phase) (ht : s1.trs = s.trs)
    (hi : ∀ t, (s1.lists t).isSome = (s.lists t).isSome)
    (hy : COk s.n y) (px : x.pc ≠ .queued) (py : y.pc ≠ .queued) : Str s1 := by
  have hc := lt_of_get hx
  refine ⟨hl, ?_, ?_, ?_, by rw [hq]; exact g.q3, ?_, ?_, ?_, by rw [ht, hn]; exact g.tr⟩
  · intro c' z hz
    rw [h2] at hz
    rw [hn]
    rcases get_set hz with ⟨rfl, rfl⟩ | ⟨he, hz⟩
    · exact hy
    · exact g.c c' z hz
  · intro t c' hm
    rw [hq] at hm
    obtain ⟨z, hz, h1, h3⟩ := g.q1 t c' hm
    have he : c' ≠ c := by
      rintro rfl
      rw [hx] at hz
      cases hz
      exact px h1
    exact ⟨z, by rw [h2, List.getElem?_set_ne (Ne.symm he)]; exact hz, h1, h3⟩
  · intro c' z hz hpz
    rw [h2] at hz
    rw [hq]
    rcases get_set hz with ⟨rfl, rfl⟩ | ⟨he, hz⟩
    · exact absurd hpz py
    · exact g.q2 c' z hz hpz
  · intro t ht
    rw [hn] at ht
    exact (g.sh t ht).same hp (by rw [hsd]) (by rw [hq]) (hi t)
  · intro t ht
    rw [hn] at ht
    have := g.out t ht
    refine ⟨?_, by rw [hsd]; exact this.2⟩
    have h1 := hi t
    rw [this.1] at h1
    cases hl : s1.lists t
    · rfl
    · rw [hl] at h1; cases h1
  · intro t c' h1
    rw [hsd] at h1
    obtain ⟨z, hz⟩ := g.sd t c' h1
    have := lt_of_get hz
    rw [h2]
    exact ⟨_, List.getElem?_eq_getElem (by simpa using this)⟩

theorem isSome_upd {lists : Nat → Option (List Nat)} {d : Nat} {l m : List Nat} (h : lists d = some l) (t : Nat) :
    (upd lists d (some m) t).isSome = (lists t).isSome := by
  by_cases he : t = d
  · subst he; simp [h]
  · rw [upd_ne _ _ he]

/-- Changes of other parts of the state. -/
theorem Str.same {s s1 : S} (g : Str s) (h1 : s1.conns = s.conns) (h2 : s1.lists = s.lists) (h3 : s1.n = s.n)
    (h4 : s1.queue = s.queue) (h5 : s1.sd = s.sd) (h6 : s1.phase = s.phase)
    (h7 : ∀ (k : Nat) (r : Tr), s1.trs[k]? = some r → r.th < s.n ∧ r.limit < 2 ^ 32) : Str s1 := by
  obtain ⟨a, b, c, d, e, f, i, j, k⟩ := g
  refine ⟨by rw [h1, h2]; exact a, by rw [h1, h3]; exact b, by rw [h1, h4]; exact c, by rw [h1, h4]; exact d,
    by rw [h4]; exact e, ?_, by rw [h2, h3, h5]; exact i, by rw [h5, h1]; exact j, by rw [h3]; exact h7⟩
  intro t ht
  rw [h3] at ht
  exact (f t ht).same h6 (by rw [h5]) (by rw [h4]) (by rw [h2])

end Verif.Listener
