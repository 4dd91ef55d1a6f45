import Verif.Listener.Bad
/-! `TraverseConnections` on all threads, for a connection that stays on its thread. -/
namespace Verif.Listener
open Verif.Common

theorem linked_only {s : S} (st : Str s) {c t u : Nat} {l : List Nat} (h : s.linked c t) (hl : s.lists u = some l) :
    c ∈ l ↔ u = t := by
  obtain ⟨m, hm, hc⟩ := h
  constructor
  · intro hcl
    obtain ⟨x, hx, h1⟩ := (st.l.mem u l c hl).1 hcl
    obtain ⟨y, hy, h2⟩ := (st.l.mem t m c hm).1 hc
    rw [hx] at hy
    cases hy
    rw [h1] at h2
    exact Option.some.inj h2
  · rintro rfl
    rw [hl] at hm
    cases hm
    exact hc

/-- Traversal `k` of thread `u`: when it has ended, it has called the callback on `c` once if `u = t` and never otherwise. -/
def Once (c t u k : Nat) (s : S) : Prop :=
  ∃ r : Tr, s.trs[k]? = some r ∧ r.th = u ∧ r.frm = none ∧ r.limit = 2 ^ 32 - 1 ∧
    ∀ ret, r.pc = .done ret → r.seen.count c = if u = t then 1 else 0

theorem once_step {s s1 : S} (hr : Reachable Init step s) {c t u k : Nat} (hk : s.linked c t) (h : Once c t u k s) {a : Act}
    (hst : step s a = some s1) : Once c t u k s1 := by
  obtain ⟨hb, hst⟩ := step_eq hst
  have ti := tinv_of hr
  have st := (inv_of hr).t
  have g := gate_of hr hb
  obtain ⟨r, hrk, ht, hf, hm, hd⟩ := h
  rcases trs_shape hst with e | ⟨el, rs, e, hrs⟩ | ⟨el, k', r', q, hr', e, mv⟩
  · exact ⟨r, by rw [e]; exact hrk, ht, hf, hm, hd⟩
  · exact ⟨r, by rw [e, List.getElem?_append_left (lt_of_get hrk)]; exact hrk, ht, hf, hm, hd⟩
  · by_cases hkk : k' = k
    · subst hkk
      rw [hrk] at hr'
      cases hr'
      have he : s1.trs[k']? = some q := by rw [e]; simp [lt_of_get hrk]
      have fin : ∀ (cur : Option Nat), r.pc = .visiting cur → Once c t u k' s1 := by
        intro cur hp
        obtain ⟨⟨l, _, _, hl, _⟩, _⟩ := ti.v k' r cur hrk hp
        obtain ⟨h1, h2, h3, h4⟩ := visits_end ti st hrk hp hl mv
        refine ⟨q, he, h1.trans ht, h2.trans hf, h3.trans hm, fun ret hret => ?_⟩
        rcases h4 with h4 | ⟨ret', hp', h5⟩
        · obtain ⟨_, h6⟩ := visits_iff.1 h4
          rw [h6] at hret; cases hret
        · rw [hf, hm] at h5
          have len : l.length ≤ 2 ^ 32 - 1 := by
            have h7 := length_le st hl
            have h8 := g.opn
            have h9 := g.lt
            omega
          have h6 : q.seen = l := by
            have := congrArg Prod.fst h5
            simp only [page] at this
            rw [this, List.take_of_length_le len]
          rw [h6]
          rw [ht] at hl
          have mem := linked_only st hk hl
          by_cases hut : u = t
          · rw [if_pos hut]
            rw [(st.l.nd _ _ hl).count, if_pos (mem.2 hut)]
          · rw [if_neg hut]
            exact List.count_eq_zero.2 fun h => hut (mem.1 h)
      cases mv with
      | skip h1 h2 =>
        refine ⟨_, he, ht, hf, hm, fun ret _ => ?_⟩
        have h3 := ti.fresh k' r hrk (Or.inl h1)
        have h4 : ¬ u = t := by
          rintro rfl
          obtain ⟨m, hm', _⟩ := hk
          rw [ht, hm'] at h2
          cases h2
        rw [if_neg h4]
        simp [h3]
      | wait h1 => exact ⟨_, he, ht, hf, hm, fun ret h => by cases h⟩
      | enter h1 h2 h3 h4 => exact ⟨_, he, ht, hf, hm, fun ret h => by cases h⟩
      | visit h1 _ _ => exact fin _ h1
      | limit h1 _ => exact fin _ h1
      | last h1 _ => exact fin _ h1
    · exact ⟨r, by rw [e, List.getElem?_set_ne hkk]; exact hrk, ht, hf, hm, hd⟩

theorem once_run {s0 s1 s2 : S} (h0 : Reachable Init step s0) (hc : step s0 .callAll = some s1) {c t : Nat}
    (hr : Reach (fun s => s = s1) step (fun s => s.linked c t) s2) {u : Nat} (hu : u < s0.n) :
    Once c t u (s0.trs.length + u) s2 := by
  refine (Reach.invariant (fun s => Reachable Init step s ∧ Once c t u (s0.trs.length + u) s) ?_ ?_ hr).2
  · rintro s rfl _
    refine ⟨.step h0 hc trivial, ?_⟩
    obtain ⟨_, hc⟩ := step_eq hc
    simp only [stepA, callAll] at hc
    split at hc
    · cases hc
    · cases hc
      refine ⟨⟨u, 2 ^ 32 - 1, none, .idle, []⟩, ?_, rfl, rfl, rfl, fun ret h => by cases h⟩
      rw [List.getElem?_append_right (by omega)]
      simp [hu]
  · rintro s a s' ⟨h1, h2⟩ hq hst _
    exact ⟨.step h1 hst trivial, once_step h1 hq h2 hst⟩

end Verif.Listener
