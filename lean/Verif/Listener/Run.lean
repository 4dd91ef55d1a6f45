import Verif.Listener.CalmStep
import Verif.Listener.Spec
import Mathlib.Data.List.Perm.Subperm
/-! A traversal from its entry to its end, and how many connections a list can hold. -/
namespace Verif.Listener
open Verif.Common

theorem page_eq {pre seen rest : List Nat} {frm : Option Nat} (nd : (pre ++ (seen ++ rest)).Nodup)
    (h1 : frm = none → pre = []) (h2 : ∀ c, frm = some c → (seen ++ rest).head? = some c) (limit : Nat) :
    page (pre ++ (seen ++ rest)) frm limit = ((seen ++ rest).take limit, (seen ++ rest)[limit]?) := by
  unfold page
  cases frm with
  | none => simp [h1 rfl]
  | some c =>
    have h3 := h2 c rfl
    cases hr : seen ++ rest with
    | nil => rw [hr] at h3; simp at h3
    | cons a q =>
      rw [hr] at h3 nd
      simp only [List.head?_cons, Option.some.injEq] at h3
      subst h3
      simp only
      rw [List.dropWhile_append_of_pos]
      · simp
      · intro x hx
        rw [decide_eq_true_eq]
        rintro rfl
        rw [List.nodup_append] at nd
        exact nd.2.2 _ hx _ (List.mem_cons_self ..) rfl

/-- Traversal `k` with list `l`: still in its callbacks with the same list, or ended with the page of this list. -/
def Span (k : Nat) (l : List Nat) (t : Nat) (frm : Option Nat) (limit : Nat) (s : S) : Prop :=
  ∃ r : Tr, s.trs[k]? = some r ∧ r.th = t ∧ r.frm = frm ∧ r.limit = limit ∧
    ((r.visits = true ∧ s.lists t = some l) ∨ ∃ ret, r.pc = .done ret ∧ (r.seen, ret) = page l frm limit)

theorem visits_end {s : S} (ti : TInv s) (st : Str s) {k : Nat} {r q : Tr} {cur : Option Nat} {l : List Nat}
    (hr : s.trs[k]? = some r) (hp : r.pc = .visiting cur) (hl : s.lists r.th = some l)
    (mv : TMove s r q) : q.th = r.th ∧ q.frm = r.frm ∧ q.limit = r.limit ∧
      (q.visits = true ∨ ∃ ret, q.pc = .done ret ∧ (q.seen, ret) = page l r.frm r.limit) := by
  obtain ⟨⟨l', pre, rest, h1, h2, h3, h4, h5⟩, h6⟩ := ti.v k r cur hr hp
  rw [hl] at h1
  cases h1
  have nd := st.l.nd _ _ hl
  cases mv with
  | skip h _ => rw [hp] at h; cases h
  | wait h => rw [hp] at h; cases h
  | enter h _ _ _ => rw [hp] at h; rcases h with h | h <;> cases h
  | visit h _ _ => exact ⟨rfl, rfl, rfl, Or.inl rfl⟩
  | @limit c h hlim =>
    rw [hp] at h
    cases h
    refine ⟨rfl, rfl, rfl, Or.inr ⟨some c, rfl, ?_⟩⟩
    rw [h2] at nd ⊢
    rw [page_eq nd h4 h5]
    have e : r.limit = r.seen.length := by omega
    rw [e]
    cases rest with
    | nil => simp at h3
    | cons a q => simp at h3; simp [h3]
  | @last cur' h hn =>
    rw [hp] at h
    cases h
    have hc : cur = none := by
      rcases hn with hn | hn
      · exact hn
      · rw [hl] at hn; cases hn
    refine ⟨rfl, rfl, rfl, Or.inr ⟨none, rfl, ?_⟩⟩
    rw [h2] at nd ⊢
    rw [page_eq nd h4 h5]
    cases rest with
    | nil =>
      simp only [List.append_nil]
      rw [List.take_of_length_le h6, List.getElem?_eq_none h6]
    | cons a q => rw [hc] at h3; simp at h3

theorem done_stays {s : S} {r q : Tr} {ret : Option Nat} (hp : r.pc = .done ret) (mv : TMove s r q) : False := by
  cases mv with
  | skip h _ => rw [hp] at h; cases h
  | wait h => rw [hp] at h; cases h
  | enter h _ _ _ => rw [hp] at h; rcases h with h | h <;> cases h
  | visit h _ _ => rw [hp] at h; cases h
  | limit h _ => rw [hp] at h; cases h
  | last h _ => rw [hp] at h; cases h

theorem span_step {k : Nat} {l : List Nat} {t : Nat} {frm : Option Nat} {limit : Nat} {s s1 : S} (ti : TInv s) (st : Str s)
    (h : Span k l t frm limit s) {a : Act} (hst : stepA s a = some s1) : Span k l t frm limit s1 := by
  obtain ⟨r, hr, ht, hf, hm, hv⟩ := h
  have keep : s1.trs[k]? = some r → Span k l t frm limit s1 := by
    intro h1
    refine ⟨r, h1, ht, hf, hm, ?_⟩
    rcases hv with ⟨hv, hl⟩ | hv
    · obtain ⟨cur, hp⟩ := visits_iff.1 hv
      refine Or.inl ⟨hv, ?_⟩
      rw [← hl, ← ht]
      exact lists_stable hst (busy_of hr hp)
    · exact Or.inr hv
  rcases trs_shape hst with e | ⟨el, rs, e, hrs⟩ | ⟨el, k', r', q, hr', e, mv⟩
  · exact keep (by rw [e]; exact hr)
  · exact keep (by rw [e, List.getElem?_append_left (lt_of_get hr)]; exact hr)
  · by_cases hk : k' = k
    · subst hk
      rw [hr] at hr'
      cases hr'
      rcases hv with ⟨hv, hl⟩ | ⟨ret, hp, _⟩
      · obtain ⟨cur, hp⟩ := visits_iff.1 hv
        subst ht hf hm
        obtain ⟨h1, h2, h3, h4⟩ := visits_end ti st hr hp hl mv
        refine ⟨q, by rw [e]; simp [lt_of_get hr], h1, h2, h3, ?_⟩
        rcases h4 with h4 | h4
        · exact Or.inl ⟨h4, by rw [el]; exact hl⟩
        · exact Or.inr h4
      · exact absurd mv (fun m => done_stays hp m)
    · exact keep (by rw [e, List.getElem?_set_ne hk]; exact hr)

theorem span_run {k : Nat} {l : List Nat} {t : Nat} {frm : Option Nat} {limit : Nat} {s s1 : S} (hs : Reachable Init step s)
    (h : Span k l t frm limit s) (acts : List Act) (he : exec step s acts = some s1) : Span k l t frm limit s1 := by
  induction acts generalizing s with
  | nil => simp only [exec, Option.some.injEq] at he; exact he ▸ h
  | cons a acts ih =>
    simp only [exec] at he
    cases hst : step s a with
    | none => rw [hst] at he; cases he
    | some s2 =>
      rw [hst] at he
      exact ih (.step hs hst trivial) (span_step (tinv_of hs) (inv_of hs).t h (step_eq hst).2) he

/-! The length of a list. -/

theorem countP_range {α : Type} (p : α → Bool) (l : List α) :
    ((List.range l.length).filter fun i => (l[i]?).any p).length = l.countP p := by
  induction l with
  | nil => simp
  | cons a l ih =>
    rw [List.length_cons, List.range_succ_eq_map, List.filter_cons, List.filter_map]
    have e : ((fun i => ((a :: l)[i]?).any p) ∘ Nat.succ) = fun i => (l[i]?).any p := by
      funext i; simp
    rw [e, List.countP_cons]
    by_cases h : p a = true
    · simp [h, ih]
    · simp [h, ih]

theorem length_le {s : S} (st : Str s) {t : Nat} {l : List Nat} (hl : s.lists t = some l) : l.length ≤ s.conns.countP Conn.live := by
  rw [← countP_range]
  refine List.Subperm.length_le (List.subperm_of_subset (st.l.nd t l hl) ?_)
  intro c hc
  obtain ⟨x, hx, hh⟩ := (st.l.mem t l c hl).1 hc
  have := (st.c c x hx).hook t hh
  rw [List.mem_filter, List.mem_range]
  refine ⟨lt_of_get hx, ?_⟩
  simp [hx, Conn.live, this.2.2.1]

end Verif.Listener
