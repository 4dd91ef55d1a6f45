import Verif.Listener.Struct
/-! The structure is kept by every step. -/
namespace Verif.Listener
open Verif.Common

theorem Str.fail {s : S} (g : Str s) (b : Bad) : Str (s.fail b) := g.same rfl rfl rfl rfl rfl rfl g.tr

/-- `Shutdown` of a connection only marks it. -/
theorem Str.mark {s : S} (g : Str s) {c : Nat} {x : Conn} (hx : s.conns[c]? = some x) :
    Str (s.setC c { x with shut := true }) := by
  have hc := lt_of_get hx
  refine ⟨g.l.keep hx rfl, ?_, ?_, ?_, g.q3, ?_, g.out, ?_, g.tr⟩
  · intro c' z hz
    rcases get_set hz with ⟨rfl, rfl⟩ | ⟨he, hz⟩
    · obtain ⟨a, b, d⟩ := g.c _ x hx
      exact ⟨a, b, d⟩
    · exact g.c c' z hz
  · intro t c' hm
    obtain ⟨z, hz, h1, h3⟩ := g.q1 t c' hm
    by_cases he : c' = c
    · subst he
      rw [hx] at hz
      cases hz
      exact ⟨{ x with shut := true }, by simp [S.setC, hc], h1, h3⟩
    · exact ⟨z, by simp only [S.setC]; rw [List.getElem?_set_ne (Ne.symm he)]; exact hz, h1, h3⟩
  · intro c' z hz hpz
    rcases get_set hz with ⟨rfl, rfl⟩ | ⟨he, hz⟩
    · exact g.q2 _ x hx hpz
    · exact g.q2 c' z hz hpz
  · intro t ht
    exact (g.sh t ht).same rfl rfl rfl rfl
  · intro t c' h1
    obtain ⟨z, hz⟩ := g.sd t c' h1
    have := lt_of_get hz
    exact ⟨_, List.getElem?_eq_getElem (by simpa [S.setC] using this)⟩

/-- The first shutdown fiber of thread `t` moves to `v`. -/
theorem Str.sdset {s s1 : S} (g : Str s) {t : Nat} {v : Sd} (ht : t < s.n) (hp : s.phase = .stop1)
    (h1 : s1.conns = s.conns) (h2 : s1.lists = s.lists) (h3 : s1.n = s.n) (h4 : s1.phase = s.phase) (h5 : s1.trs = s.trs)
    (h6 : s1.queue t = []) (h7 : ∀ u, u ≠ t → s1.queue u = s.queue u) (h8 : qc (s.queue t) = [])
    (h9 : s1.sd = upd s.sd t v) (hv : v = .cleaned ∨ ∃ c, v = .shutting c ∧ ∃ x : Conn, s.conns[c]? = some x) : Str s1 := by
  have eq : ∀ u, qc (s1.queue u) = qc (s.queue u) := by
    intro u
    by_cases he : u = t
    · subst he; rw [h6, h8]; rfl
    · rw [h7 u he]
  refine ⟨by rw [h1, h2]; exact g.l, by rw [h1, h3]; exact g.c, ?_, ?_, ?_, ?_, ?_, ?_, by rw [h5, h3]; exact g.tr⟩
  · intro u c hm
    rw [eq] at hm
    rw [h1]
    exact g.q1 u c hm
  · intro c x hx hpx
    rw [eq]
    rw [h1] at hx
    exact g.q2 c x hx hpx
  · intro u
    rw [eq]
    exact g.q3 u
  · intro u hu
    rw [h3] at hu
    by_cases he : u = t
    · subst he
      have := g.sh u hu
      unfold Shape at this ⊢
      rw [h4, hp]
      rw [hp] at this
      simp only at this ⊢
      refine ⟨by rw [h2]; exact this.1, Or.inr ⟨h6, ?_⟩⟩
      rw [h9, upd_same]
      rcases hv with h | ⟨c, h, _⟩
      · exact Or.inl h
      · exact Or.inr ⟨c, h⟩
    · exact (g.sh u hu).same h4 (by rw [h9, upd_ne _ _ he]) (h7 u he) (by rw [h2])
  · intro u hu
    rw [h3] at hu
    have := g.out u hu
    refine ⟨by rw [h2]; exact this.1, ?_⟩
    rw [h9, upd_ne _ _ (by omega)]
    exact this.2
  · intro u c hc
    rw [h1]
    by_cases he : u = t
    · subst he
      rw [h9, upd_same] at hc
      rcases hv with h | ⟨c', h, hx⟩
      · rw [h] at hc; cases hc
      · rw [h] at hc
        cases hc
        exact hx
    · rw [h9, upd_ne _ _ he] at hc
      exact g.sd u c hc

theorem qc_cons_conn (c : Nat) (q : List Item) : qc (.conn c :: q) = c :: qc q := rfl
theorem qc_append (a b : List Item) : qc (a ++ b) = qc a ++ qc b := List.filterMap_append ..
theorem qc_map (cs : List Nat) : qc (cs.map .conn) = cs := by
  induction cs with
  | nil => rfl
  | cons c cs ih => rw [List.map_cons, qc_cons_conn, ih]

theorem map_clean {cs : List Nat} {q : List Item} (h : cs.map Item.conn ++ [.clean] = .clean :: q) : q = [] := by
  cases cs with
  | nil => simpa using h.symm
  | cons c cs => simp at h

theorem str_pop {s s1 : S} (g : Str s) {t : Nat} (ht : t < s.n) (h : pop s t = some s1) : Str s1 := by
  have sh := g.sh t ht
  unfold pop at h
  split at h
  · cases h
  split at h
  · cases h
  · rename_i c q e
    have hq1 := g.q1 t c (by rw [e]; simp [mem_qc])
    obtain ⟨x, hx, hp, hth⟩ := hq1
    rw [hx] at h
    simp only at h
    split at h
    · cases h; exact g.fail _
    rename_i l hl
    cases h
    have hc := lt_of_get hx
    have hk : x.hook = none := by
      cases hh : x.hook with
      | none => rfl
      | some u => exact absurd hp ((g.c c x hx).hook u hh).2.1
    have q3 := g.q3 t
    rw [e, qc_cons_conn, List.nodup_cons] at q3
    have eqq : ∀ u, ∀ c', c' ∈ qc (upd s.queue t q u) ↔ c' ∈ qc (s.queue u) ∧ c' ≠ c := by
      intro u c'
      by_cases he : u = t
      · subst he
        rw [upd_same, e, qc_cons_conn, List.mem_cons]
        constructor
        · intro hm
          refine ⟨Or.inr hm, ?_⟩
          rintro rfl
          exact q3.1 hm
        · rintro ⟨hm | hm, hne⟩
          · exact absurd hm hne
          · exact hm
      · rw [upd_ne _ _ he]
        refine ⟨fun hm => ⟨hm, ?_⟩, fun hm => hm.1⟩
        rintro rfl
        obtain ⟨z, hz, _, h3⟩ := g.q1 u _ hm
        rw [hx] at hz
        cases hz
        exact he (h3.symm.trans hth)
    refine ⟨g.l.link hx hk rfl hl, ?_, ?_, ?_, ?_, ?_, ?_, ?_, g.tr⟩
    · intro c' z hz
      rcases get_set hz with ⟨rfl, rfl⟩ | ⟨he, hz⟩
      · have := g.c _ x hx
        exact ⟨this.th, fun u hu => ⟨by cases hu; exact hth.symm, by simp, by simp, by simp⟩, fun d hd => by simp at hd⟩
      · exact g.c c' z hz
    · intro u c' hm
      have := (eqq u c').1 hm
      obtain ⟨z, hz, h1, h3⟩ := g.q1 u c' this.1
      exact ⟨z, by simp only [S.setC]; rw [List.getElem?_set_ne (Ne.symm this.2)]; exact hz, h1, h3⟩
    · intro c' z hz hpz
      rcases get_set hz with ⟨rfl, rfl⟩ | ⟨he, hz⟩
      · cases hpz
      · exact (eqq z.th c').2 ⟨g.q2 c' z hz hpz, he⟩
    · intro u
      by_cases he : u = t
      · subst he
        show (qc (upd s.queue u q u)).Nodup
        rw [upd_same]
        exact q3.2
      · show (qc (upd s.queue t q u)).Nodup
        rw [upd_ne _ _ he]
        exact g.q3 u
    · intro u hu
      by_cases he : u = t
      · subst he
        unfold Shape at sh ⊢
        simp only [S.setC, upd_same]
        cases hph : s.phase <;> rw [hph] at sh <;> simp only at sh ⊢
        · obtain ⟨h1, h2, cs, h3⟩ := sh
          rw [e] at h3
          cases cs with
          | nil => simp at h3
          | cons c' cs =>
            simp only [List.map_cons, List.cons.injEq] at h3
            exact ⟨h1, by simp, cs, h3.2⟩
        · obtain ⟨h2, ⟨h1, cs, h3⟩ | ⟨h3, _⟩⟩ := sh
          · rw [e] at h3
            cases cs with
            | nil => simp at h3
            | cons c' cs =>
              simp only [List.map_cons, List.cons_append, List.cons.injEq] at h3
              exact ⟨by simp, Or.inl ⟨h1, cs, h3.2⟩⟩
          · rw [e] at h3; cases h3
        · rw [e] at sh
          simp at sh
        · rw [e] at sh; simp at sh
        · rw [e] at sh; simp at sh
      · exact (g.sh u hu).same rfl rfl (upd_ne _ _ he) (isSome_upd hl u)
    · intro u hu
      refine ⟨?_, (g.out u hu).2⟩
      show upd s.lists t _ u = none
      have hu' : s.n ≤ u := hu
      rw [upd_ne _ _ (by omega)]
      exact (g.out u hu).1
    · intro u c' h1
      obtain ⟨z, hz⟩ := g.sd u c' h1
      have := lt_of_get hz
      exact ⟨_, List.getElem?_eq_getElem (by simpa [S.setC] using this)⟩
  · rename_i q e
    split at h
    · cases h; exact g.fail _
    rename_i l hl
    have hp : s.phase = .stop1 ∧ q = [] := by
      unfold Shape at sh
      cases hph : s.phase <;> rw [hph] at sh <;> simp only at sh
      · obtain ⟨_, _, cs, h3⟩ := sh
        rw [e] at h3
        cases cs <;> simp at h3
      · obtain ⟨_, ⟨_, cs, h3⟩ | ⟨h3, _⟩⟩ := sh
        · rw [e] at h3
          exact ⟨rfl, map_clean h3.symm⟩
        · rw [e] at h3; cases h3
      · rw [e] at sh; simp at sh
      · rw [e] at sh; simp at sh
      · rw [e] at sh; simp at sh
    obtain ⟨hp, rfl⟩ := hp
    unfold sdGo at h
    split at h
    · cases h
      exact g.sdset ht hp rfl rfl rfl rfl rfl (upd_same ..) (fun u he => upd_ne _ _ he) (by rw [e]; rfl) rfl (Or.inl rfl)
    · split at h
      · cases h
      · rename_i x hx
        cases h
        exact (g.mark hx).sdset ht hp rfl rfl rfl rfl rfl (upd_same ..) (fun u he => upd_ne _ _ he)
          (by show qc (s.queue t) = []; rw [e]; rfl) rfl
          (Or.inr ⟨_, rfl, _, List.getElem?_eq_getElem (by simpa [S.setC] using lt_of_get hx)⟩)
  · rename_i q e
    split at h
    · cases h; exact g.fail _
    rename_i l hl
    cases h
    have hp : s.phase = .stop2 ∧ q = [] := by
      unfold Shape at sh
      cases hph : s.phase <;> rw [hph] at sh <;> simp only at sh
      · obtain ⟨_, _, cs, h3⟩ := sh
        rw [e] at h3
        cases cs <;> simp at h3
      · obtain ⟨_, ⟨_, cs, h3⟩ | ⟨h3, _⟩⟩ := sh
        · rw [e] at h3
          cases cs <;> simp at h3
        · rw [e] at h3; cases h3
      · rw [e] at sh; simp at sh; exact ⟨rfl, sh.2.2⟩
      · rw [e] at sh; simp at sh
      · rw [e] at sh; simp at sh
    obtain ⟨hp, rfl⟩ := hp
    have eq : ∀ u, qc (upd s.queue t [] u) = qc (s.queue u) := by
      intro u
      by_cases he : u = t
      · subst he; rw [upd_same, e]; rfl
      · rw [upd_ne _ _ he]
    refine ⟨g.l, g.c, ?_, ?_, ?_, ?_, ?_, ?_, g.tr⟩
    · intro u c hm
      rw [eq] at hm
      exact g.q1 u c hm
    · intro c x hx hpx
      simp only [eq]
      exact g.q2 c x hx hpx
    · intro u
      simp only [eq]
      exact g.q3 u
    · intro u hu
      by_cases he : u = t
      · subst he
        unfold Shape
        simp only [hp, upd_same]
        exact Or.inl ⟨by rw [hl]; rfl, by simp⟩
      · exact (g.sh u hu).same rfl (upd_ne _ _ he) (upd_ne _ _ he) rfl
    · intro u hu
      have hu' : s.n ≤ u := hu
      exact ⟨(g.out u hu).1, by show upd s.sd t _ u = _; rw [upd_ne _ _ (by omega)]; exact (g.out u hu).2⟩
    · intro u c hc
      by_cases he : u = t
      · subst he
        simp only [upd_same] at hc
        cases hc
      · simp only [upd_ne _ _ he] at hc
        exact g.sd u c hc

theorem str_accept {s s1 : S} (g : Str s) {t : Nat} (h : accept s t = some s1) : Str s1 := by
  unfold accept at h
  split at h
  · cases h
  rename_i hp
  have hp : s.phase = .accepting := Classical.byContradiction hp
  split at h
  · cases h; exact g.same rfl rfl rfl rfl rfl rfl g.tr
  split at h
  · cases h; exact g.same rfl rfl rfl rfl rfl rfl g.tr
  split at h
  · cases h
  rename_i ht
  cases h
  have eq : ∀ u, qc (upd s.queue t (s.queue t ++ [.conn s.conns.length]) u) =
      qc (s.queue u) ++ if u = t then [s.conns.length] else [] := by
    intro u
    by_cases he : u = t
    · subst he; rw [upd_same, qc_append, if_pos rfl]; rfl
    · rw [upd_ne _ _ he, if_neg he, List.append_nil]
  have lt : ∀ u c, c ∈ qc (s.queue u) → c < s.conns.length := fun u c hm => by
    obtain ⟨x, hx, _⟩ := g.q1 u c hm
    exact lt_of_get hx
  refine ⟨g.l.append rfl, ?_, ?_, ?_, ?_, ?_, g.out, ?_, g.tr⟩
  · intro c x hx
    rcases get_append_one hx with h1 | ⟨_, rfl⟩
    · exact g.c c x h1
    · exact ⟨Nat.lt_of_not_le ht, fun u hu => (by cases hu), fun d hd => (by simp at hd)⟩
  · intro u c hm
    rw [eq, List.mem_append] at hm
    rcases hm with hm | hm
    · obtain ⟨x, hx, h1⟩ := g.q1 u c hm
      exact ⟨x, by simp only; rw [List.getElem?_append_left (lt_of_get hx)]; exact hx, h1⟩
    · split at hm
      · rename_i hu
        simp only [List.mem_singleton] at hm
        subst hm hu
        exact ⟨_, List.getElem?_concat_length, rfl, rfl⟩
      · simp at hm
  · intro c x hx hpx
    simp only [eq, List.mem_append]
    rcases get_append_one hx with h1 | ⟨rfl, rfl⟩
    · exact Or.inl (g.q2 c x h1 hpx)
    · right; simp
  · intro u
    simp only [eq]
    split
    · rw [List.nodup_append]
      refine ⟨g.q3 u, by simp, ?_⟩
      intro a ha b hb
      simp only [List.mem_singleton] at hb
      have := lt u a ha
      omega
    · rw [List.append_nil]; exact g.q3 u
  · intro u hu
    by_cases he : u = t
    · subst he
      have := g.sh u hu
      unfold Shape at this ⊢
      simp only [hp, upd_same] at this ⊢
      obtain ⟨h1, h2, cs, h3⟩ := this
      exact ⟨h1, h2, cs ++ [s.conns.length], by rw [h3]; simp⟩
    · exact (g.sh u hu).same rfl rfl (upd_ne _ _ he) rfl
  · intro u c hc
    obtain ⟨x, hx⟩ := g.sd u c hc
    exact ⟨x, by simp only; rw [List.getElem?_append_left (lt_of_get hx)]; exact hx⟩

theorem str_trs {s : S} (g : Str s) {k : Nat} {r q : Tr} (hr : s.trs[k]? = some r) (h1 : q.th = r.th) (h2 : q.limit = r.limit)
    {k' : Nat} {z : Tr} (hz : (s.trs.set k q)[k']? = some z) : z.th < s.n ∧ z.limit < 2 ^ 32 := by
  rcases get_set hz with ⟨rfl, rfl⟩ | ⟨he, hz⟩
  · rw [h1, h2]; exact g.tr _ r hr
  · exact g.tr k' z hz

theorem str_enter {s s1 : S} (g : Str s) {k : Nat} {r : Tr} (hr : s.trs[k]? = some r) (h : enter s k r = some s1) : Str s1 := by
  unfold enter at h
  split at h
  · cases h; exact g.fail _
  split at h
  · cases h; exact g.same rfl rfl rfl rfl rfl rfl fun k' z hz => str_trs g hr (by rfl) (by rfl) hz
  split at h
  · cases h; exact g.same rfl rfl rfl rfl rfl rfl fun k' z hz => str_trs g hr (by rfl) (by rfl) hz
  · cases h; exact g.fail _

theorem str_sdNext {s s1 : S} (g : Str s) {t : Nat} (h : sdNext s t = some s1) : Str s1 := by
  unfold sdNext at h
  split at h
  · cases h
  split at h
  · rename_i c e
    have ht : t < s.n := Classical.byContradiction fun hn => by
      have := (g.out t (by omega)).2
      rw [e] at this
      cases this
    have hp : s.phase = .stop1 ∧ s.queue t = [] := by
      have sh := g.sh t ht
      unfold Shape at sh
      cases hph : s.phase <;> rw [hph] at sh <;> simp only [e] at sh <;> simp at sh
      exact ⟨rfl, sh.2⟩
    have key : ∀ i, sdGo s t i = some s1 → Str s1 := by
      intro i h
      unfold sdGo at h
      split at h
      · cases h
        exact g.sdset ht hp.1 rfl rfl rfl rfl rfl hp.2 (fun u he => rfl) (by rw [hp.2]; rfl) rfl (Or.inl rfl)
      · split at h
        · cases h
        · rename_i x hx
          cases h
          exact (g.mark hx).sdset ht hp.1 rfl rfl rfl rfl rfl hp.2 (fun u he => rfl)
            (by show qc (s.queue t) = []; rw [hp.2]; rfl) rfl
            (Or.inr ⟨_, rfl, _, List.getElem?_eq_getElem (by simpa [S.setC] using lt_of_get hx)⟩)
    split at h
    · split at h
      · exact key _ h
      · split at h
        · exact key _ h
        · cases h; exact g.fail _
    · cases h
  · cases h

end Verif.Listener
