import Verif.Listener.Inv
/-! Traversals: what they see, and that their list stands still while they look at it. -/
namespace Verif.Listener
open Verif.Common

/-- How one traversal moves. -/
inductive TMove (s : S) (r : Tr) : Tr → Prop
  | skip : r.pc = .idle → s.lists r.th = none → TMove s r { r with pc := .done none }
  | wait : r.pc = .idle → TMove s r { r with pc := .waiting }
  | enter {l : List Nat} {cur : Option Nat} : r.pc = .idle ∨ r.pc = .waiting → s.busy r.th = false → s.lists r.th = some l →
      ((r.frm = none ∧ cur = l.head?) ∨ ∃ c, r.frm = some c ∧ c ∈ l ∧ cur = some c) → TMove s r { r with pc := .visiting cur }
  | visit {l : List Nat} {c : Nat} : r.pc = .visiting (some c) → s.lists r.th = some l → r.seen.length < r.limit →
      TMove s r { r with pc := .visiting (after l c), seen := r.seen ++ [c] }
  | limit {c : Nat} : r.pc = .visiting (some c) → r.limit ≤ r.seen.length → TMove s r { r with pc := .done (some c) }
  | last {cur : Option Nat} : r.pc = .visiting cur → (cur = none ∨ s.lists r.th = none) → TMove s r { r with pc := .done none }

/-- What a step does to the traversals. -/
def TShape (s s1 : S) : Prop :=
  s1.trs = s.trs ∨ (s1.lists = s.lists ∧ ∃ rs : List Tr, s1.trs = s.trs ++ rs ∧ ∀ r ∈ rs, r.pc = .idle ∧ r.seen = []) ∨
  (s1.lists = s.lists ∧ ∃ (k : Nat) (r q : Tr), s.trs[k]? = some r ∧ s1.trs = s.trs.set k q ∧ TMove s r q)

theorem sdGo_trs {s s1 : S} {t : Nat} {i : Option Nat} (h : sdGo s t i = some s1) : s1.trs = s.trs ∧ s1.lists = s.lists := by
  unfold sdGo at h
  split at h
  · cases h; exact ⟨rfl, rfl⟩
  · split at h
    · cases h
    · cases h; exact ⟨rfl, rfl⟩

theorem enter_shape {s s0 s1 : S} {k : Nat} {r : Tr} (hr : s.trs[k]? = some r) (h0 : s0.trs = s.trs) (h2 : s0.lists = s.lists)
    (hp : r.pc = .idle ∨ r.pc = .waiting) (hb : s.busy r.th = false) (h : enter s0 k r = some s1) : TShape s s1 := by
  unfold enter at h
  split at h
  · cases h; exact Or.inl h0
  rename_i l hl
  split at h
  · cases h
    refine Or.inr (Or.inr ⟨h2, k, r, { r with pc := .visiting l.head? }, hr, by simp [S.setT, h0], .enter hp hb (by rw [← h2]; exact hl) (Or.inl ⟨by assumption, rfl⟩)⟩)
  · rename_i c hf
    split at h
    · cases h
      exact Or.inr (Or.inr ⟨h2, k, r, { r with pc := .visiting (some c) }, hr, by simp [S.setT, h0],
        .enter hp hb (by rw [← h2]; exact hl) (Or.inr ⟨c, hf, by assumption, rfl⟩)⟩)
    · cases h; exact Or.inl h0

theorem trs_shape {s s1 : S} {a : Act} (h : stepA s a = some s1) : TShape s s1 := by
  cases a with
  | setMax m =>
    simp only [stepA] at h
    split at h <;> cases h
    exact Or.inl rfl
  | setPause b =>
    simp only [stepA] at h
    split at h <;> cases h
    exact Or.inl rfl
  | accept t =>
    simp only [stepA, accept] at h
    repeat' split at h
    all_goals first | (cases h; done) | (cases h; exact Or.inl rfl)
  | pop t =>
    simp only [stepA, pop] at h
    repeat' split at h
    all_goals first | (cases h; done) | (cases h; exact Or.inl rfl) | exact Or.inl (sdGo_trs h).1
  | migBegin c d =>
    simp only [stepA, migBegin] at h
    repeat' split at h
    all_goals first | (cases h; done) | (cases h; exact Or.inl rfl)
  | migAdd c =>
    simp only [stepA, migAdd] at h
    repeat' split at h
    all_goals first | (cases h; done) | (cases h; exact Or.inl rfl)
  | migBack c =>
    simp only [stepA, migBack] at h
    repeat' split at h
    all_goals first | (cases h; done) | (cases h; exact Or.inl rfl)
  | migUnlink c =>
    simp only [stepA, migUnlink] at h
    repeat' split at h
    all_goals first | (cases h; done) | (cases h; exact Or.inl rfl)
  | migArrive c =>
    simp only [stepA, migArrive] at h
    repeat' split at h
    all_goals first | (cases h; done) | (cases h; exact Or.inl rfl)
  | migRelease c =>
    simp only [stepA, migRelease] at h
    repeat' split at h
    all_goals first | (cases h; done) | (cases h; exact Or.inl rfl)
  | finish c =>
    simp only [stepA, finish] at h
    repeat' split at h
    all_goals first | (cases h; done) | (cases h; exact Or.inl rfl)
  | close c =>
    simp only [stepA, close] at h
    repeat' split at h
    all_goals first | (cases h; done) | (cases h; exact Or.inl rfl)
  | callAll =>
    simp only [stepA, callAll] at h
    split at h
    · cases h
    · cases h
      refine Or.inr (Or.inl ⟨rfl, _, rfl, fun r hr => ?_⟩)
      rw [List.mem_map] at hr
      obtain ⟨t, _, rfl⟩ := hr
      exact ⟨rfl, rfl⟩
  | callOne t l fr =>
    simp only [stepA, callOne] at h
    split at h
    · cases h
    · cases h
      refine Or.inr (Or.inl ⟨rfl, _, rfl, fun r hr => ?_⟩)
      rw [List.mem_singleton] at hr
      subst hr
      exact ⟨rfl, rfl⟩
  | trAdd k =>
    simp only [stepA, trAdd] at h
    split at h
    · cases h
    rename_i r hr
    split at h
    · cases h
    rename_i hc
    have hp : r.pc = .idle := Classical.byContradiction fun hn => hc (Or.inl hn)
    have hb : s.busy r.th = false := by
      cases hb : s.busy r.th
      · rfl
      · exact absurd (Or.inr (Or.inl hb)) hc
    split at h
    · cases h; exact Or.inl rfl
    split at h
    · cases h
      exact Or.inr (Or.inr ⟨rfl, k, r, _, hr, rfl, .skip hp (by assumption)⟩)
    · split at h
      · exact enter_shape (s0 := { s with word := add64 s.word 1 }) hr rfl rfl (Or.inl hp) hb h
      · cases h
        exact Or.inr (Or.inr ⟨rfl, k, r, _, hr, rfl, .wait hp⟩)
  | trCheck k =>
    simp only [stepA, trCheck] at h
    split at h
    · cases h
    rename_i r hr
    split at h
    · cases h
    rename_i hc
    have hp : r.pc = .waiting := Classical.byContradiction fun hn => hc (Or.inl hn)
    have hb : s.busy r.th = false := by
      cases hb : s.busy r.th
      · rfl
      · exact absurd (Or.inr hb) hc
    split at h
    · cases h; exact Or.inl rfl
    split at h
    · exact enter_shape hr rfl rfl (Or.inr hp) hb h
    · cases h; exact Or.inl rfl
  | trVisit k =>
    simp only [stepA, trVisit] at h
    split at h
    · cases h
    rename_i r hr
    split at h
    · rename_i cur hp
      split at h
      · rename_i c l hl
        split at h
        · cases h
          exact Or.inr (Or.inr ⟨rfl, k, r, _, hr, rfl, .visit hp hl (by assumption)⟩)
        · cases h
          exact Or.inr (Or.inr ⟨rfl, k, r, _, hr, rfl, .limit hp (by omega)⟩)
      · rename_i cur _ _ hno
        cases h
        refine Or.inr (Or.inr ⟨rfl, k, r, _, hr, rfl, .last hp ?_⟩)
        cases hcur : cur with
        | none => exact Or.inl rfl
        | some c =>
          cases hl : s.lists r.th with
          | none => exact Or.inr rfl
          | some l => exact absurd hl (hno c l hcur)
    · cases h
  | stop =>
    simp only [stepA, stop] at h
    split at h <;> cases h
    exact Or.inl rfl
  | sdNext t =>
    simp only [stepA, sdNext] at h
    repeat' split at h
    all_goals first | (cases h; done) | (cases h; exact Or.inl rfl) | exact Or.inl (sdGo_trs h).1
  | stop2 =>
    simp only [stepA, stop2] at h
    split at h <;> cases h
    exact Or.inl rfl
  | emptied t =>
    simp only [stepA, emptied] at h
    repeat' split at h
    all_goals first | (cases h; done) | (cases h; exact Or.inl rfl)
  | post =>
    simp only [stepA, post] at h
    split at h <;> cases h
    exact Or.inl rfl
  | destroy =>
    simp only [stepA, destroy] at h
    split at h <;> cases h
    exact Or.inl rfl

theorem upd_busy {s : S} {t u : Nat} {v : Option (List Nat)} (hb : s.busy t = true) (hn : ¬ s.busy u = true) :
    upd s.lists u v t = s.lists t := by
  refine upd_ne _ _ ?_
  rintro rfl
  exact hn hb

/-- While callbacks run on a thread, its list does not change. -/
theorem lists_stable {s s1 : S} {a : Act} (h : stepA s a = some s1) {t : Nat} (hb : s.busy t = true) :
    s1.lists t = s.lists t := by
  cases a with
  | setMax m =>
    simp only [stepA] at h
    split at h <;> cases h
    rfl
  | setPause b =>
    simp only [stepA] at h
    split at h <;> cases h
    rfl
  | accept t =>
    simp only [stepA, accept] at h
    repeat' split at h
    all_goals first | (cases h; done) | (cases h; rfl)
  | pop u =>
    simp only [stepA, pop] at h
    repeat' split at h
    all_goals first | (cases h; done) | (cases h; rfl) | (cases h; exact upd_busy hb (by assumption)) | (rw [(sdGo_trs h).2])
  | migBegin c d =>
    simp only [stepA, migBegin] at h
    repeat' split at h
    all_goals first | (cases h; done) | (cases h; rfl)
  | migAdd c =>
    simp only [stepA, migAdd] at h
    repeat' split at h
    all_goals first | (cases h; done) | (cases h; rfl)
  | migBack c =>
    simp only [stepA, migBack] at h
    repeat' split at h
    all_goals first | (cases h; done) | (cases h; rfl)
  | migUnlink c =>
    simp only [stepA, migUnlink] at h
    repeat' split at h
    all_goals first | (cases h; done) | (cases h; rfl) | (cases h; exact upd_busy hb (by assumption))
  | migArrive c =>
    simp only [stepA, migArrive] at h
    repeat' split at h
    all_goals first | (cases h; done) | (cases h; rfl) | (cases h; exact upd_busy hb (by assumption))
  | migRelease c =>
    simp only [stepA, migRelease] at h
    repeat' split at h
    all_goals first | (cases h; done) | (cases h; rfl)
  | finish c =>
    simp only [stepA, finish] at h
    repeat' split at h
    all_goals first | (cases h; done) | (cases h; rfl)
  | close c =>
    simp only [stepA, close] at h
    repeat' split at h
    all_goals first | (cases h; done) | (cases h; rfl) | (cases h; exact upd_busy hb (by assumption))
  | callAll =>
    simp only [stepA, callAll] at h
    split at h <;> cases h
    rfl
  | callOne t l fr =>
    simp only [stepA, callOne] at h
    split at h <;> cases h
    rfl
  | trAdd k =>
    simp only [stepA, trAdd, enter] at h
    repeat' split at h
    all_goals first | (cases h; done) | (cases h; rfl)
  | trCheck k =>
    simp only [stepA, trCheck, enter] at h
    repeat' split at h
    all_goals first | (cases h; done) | (cases h; rfl)
  | trVisit k =>
    simp only [stepA, trVisit] at h
    repeat' split at h
    all_goals first | (cases h; done) | (cases h; rfl)
  | stop =>
    simp only [stepA, stop] at h
    split at h <;> cases h
    rfl
  | sdNext u =>
    simp only [stepA, sdNext] at h
    repeat' split at h
    all_goals first | (cases h; done) | (cases h; rfl) | (rw [(sdGo_trs h).2])
  | stop2 =>
    simp only [stepA, stop2] at h
    split at h <;> cases h
    rfl
  | emptied u =>
    simp only [stepA, emptied] at h
    repeat' split at h
    all_goals first | (cases h; done) | (cases h; exact upd_busy hb (by assumption))
  | post =>
    simp only [stepA, post] at h
    split at h <;> cases h
    rfl
  | destroy =>
    simp only [stepA, destroy] at h
    split at h <;> cases h
    rfl

theorem busy_of {s : S} {k : Nat} {r : Tr} {cur : Option Nat} (hr : s.trs[k]? = some r) (hp : r.pc = .visiting cur) :
    s.busy r.th = true := by
  unfold S.busy
  rw [List.any_eq_true]
  exact ⟨r, List.mem_of_getElem? hr, by simp [Tr.visits, hp]⟩

theorem after_mid {p rest : List Nat} {c : Nat} (h : (p ++ c :: rest).Nodup) : after (p ++ c :: rest) c = rest.head? := by
  unfold after
  rw [List.dropWhile_append_of_pos]
  · simp
  · intro x hx
    rw [decide_eq_true_eq]
    rintro rfl
    rw [List.nodup_append] at h
    exact h.2.2 _ hx _ (List.mem_cons_self ..) rfl

/-- A traversal in its callbacks has seen a piece of the list from the begin or from `from`, and is at what follows. -/
structure VOk (s : S) (r : Tr) (cur : Option Nat) : Prop where
  ex : ∃ (l pre rest : List Nat), s.lists r.th = some l ∧ l = pre ++ (r.seen ++ rest) ∧ cur = rest.head? ∧
    (r.frm = none → pre = []) ∧ (∀ c, r.frm = some c → (r.seen ++ rest).head? = some c)
  lim : r.seen.length ≤ r.limit

structure TInv (s : S) : Prop where
  v : ∀ (k : Nat) (r : Tr) (cur : Option Nat), s.trs[k]? = some r → r.pc = .visiting cur → VOk s r cur
  one : ∀ (k k' : Nat) (r r' : Tr), s.trs[k]? = some r → s.trs[k']? = some r' → r.visits = true → r'.visits = true →
    r.th = r'.th → k = k'
  fresh : ∀ (k : Nat) (r : Tr), s.trs[k]? = some r → r.pc = .idle ∨ r.pc = .waiting → r.seen = []

theorem VOk.lists {s s1 : S} {r : Tr} {cur : Option Nat} (h : VOk s r cur) (e : s1.lists r.th = s.lists r.th) : VOk s1 r cur := by
  obtain ⟨⟨l, pre, rest, h1, h2⟩, h3⟩ := h
  exact ⟨⟨l, pre, rest, by rw [e]; exact h1, h2⟩, h3⟩

theorem visits_iff {r : Tr} : r.visits = true ↔ ∃ cur, r.pc = .visiting cur := by
  unfold Tr.visits
  cases r.pc <;> simp

theorem tinv_step {s s1 : S} (st : Str s) (i : TInv s) {a : Act} (h : stepA s a = some s1) : TInv s1 := by
  have stab : ∀ t, s.busy t = true → s1.lists t = s.lists t := fun t hb => lists_stable h hb
  rcases trs_shape h with e | ⟨el, rs, e, hrs⟩ | ⟨el, k, r, q, hr, e, mv⟩
  · refine ⟨?_, by rw [e]; exact i.one, by rw [e]; exact i.fresh⟩
    intro k r cur hr hp
    rw [e] at hr
    exact (i.v k r cur hr hp).lists (stab _ (busy_of hr hp))
  · have get : ∀ (k : Nat) (r : Tr), s1.trs[k]? = some r → s.trs[k]? = some r ∨ (r.pc = .idle ∧ r.seen = []) := by
      intro k r hr
      rw [e, List.getElem?_append] at hr
      split at hr
      · exact Or.inl hr
      · exact Or.inr (hrs r (List.mem_of_getElem? hr))
    refine ⟨?_, ?_, ?_⟩
    · intro k r cur hr hp
      rcases get k r hr with h1 | h1
      · exact (i.v k r cur h1 hp).lists (by rw [el])
      · rw [h1.1] at hp; cases hp
    · intro k k' r r' hr hr' hv hv' ht
      rcases get k r hr with h1 | h1
      · rcases get k' r' hr' with h2 | h2
        · exact i.one k k' r r' h1 h2 hv hv' ht
        · obtain ⟨cur, hc⟩ := visits_iff.1 hv'
          rw [h2.1] at hc; cases hc
      · obtain ⟨cur, hc⟩ := visits_iff.1 hv
        rw [h1.1] at hc; cases hc
    · intro k r hr hp
      rcases get k r hr with h1 | h1
      · exact i.fresh k r h1 hp
      · exact h1.2
  · have hth : q.th = r.th := by cases mv <;> rfl
    -- the list of another visiting traversal is the same; a new visitor is alone
    have alone : q.visits = true → ∀ (k' : Nat) (z : Tr), s.trs[k']? = some z → z.visits = true → z.th = r.th → k' = k := by
      intro hq k' z hz hv ht
      cases mv with
      | skip hp _ => simp [Tr.visits] at hq
      | wait hp => simp [Tr.visits] at hq
      | enter hp hb _ _ =>
        obtain ⟨cur, hc⟩ := visits_iff.1 hv
        have := busy_of hz hc
        rw [ht, hb] at this
        cases this
      | visit hp _ _ => exact i.one k' k z r hz hr hv (by simp [Tr.visits, hp]) ht
      | limit hp _ => simp [Tr.visits] at hq
      | last hp _ => simp [Tr.visits] at hq
    refine ⟨?_, ?_, ?_⟩
    · intro k' z cur hz hp
      rw [e] at hz
      rcases get_set hz with ⟨rfl, rfl⟩ | ⟨he, hz⟩
      · cases mv with
        | skip h1 _ => cases hp
        | wait h1 => cases hp
        | @enter l cur' h1 hb hl hc =>
          cases hp
          have hs := i.fresh _ r hr h1
          rcases hc with ⟨h2, rfl⟩ | ⟨c, h2, hm, rfl⟩
          · refine ⟨⟨l, [], l, by rw [el]; exact hl, by simp [hs], rfl, fun _ => rfl, fun c hc => ?_⟩, by simp [hs]⟩
            simp only [h2] at hc
            cases hc
          · obtain ⟨p, q, rfl⟩ := List.append_of_mem hm
            refine ⟨⟨_, p, c :: q, by rw [el]; exact hl, by simp [hs], rfl, fun h3 => ?_, fun c' hc' => ?_⟩, by simp [hs]⟩
            · simp only [h2] at h3
              cases h3
            · simp only [h2, Option.some.injEq] at hc'
              simp [hs, hc']
        | @visit l c h1 hl hlt =>
          cases hp
          obtain ⟨⟨l', pre, rest, h3, h4, h5, h6, h7⟩, h8⟩ := i.v _ r _ hr h1
          rw [hl] at h3
          cases h3
          cases rest with
          | nil => simp at h5
          | cons c' rest =>
            simp only [List.head?_cons, Option.some.injEq] at h5
            subst h5
            have nd := st.l.nd _ _ hl
            refine ⟨⟨l, pre, rest, by rw [el]; exact hl, by simp [h4], ?_, h6, ?_⟩, ?_⟩
            · rw [h4, ← List.append_assoc] at nd ⊢
              exact after_mid nd
            · intro c' hc'
              have := h7 c' hc'
              simpa using this
            · simp; omega
        | limit h1 _ => cases hp
        | last h1 _ => cases hp
      · exact (i.v k' z cur hz hp).lists (by rw [el])
    · intro k1 k2 z1 z2 hz1 hz2 v1 v2 ht
      rw [e] at hz1 hz2
      rcases get_set hz1 with ⟨rfl, rfl⟩ | ⟨he1, hy1⟩
      · rcases get_set hz2 with ⟨rfl, rfl⟩ | ⟨he2, hy2⟩
        · rfl
        · exact (alone v1 k2 z2 hy2 v2 (ht.symm.trans hth)).symm
      · rcases get_set hz2 with ⟨rfl, rfl⟩ | ⟨he2, hy2⟩
        · exact alone v2 k1 z1 hy1 v1 (ht.trans hth)
        · exact i.one k1 k2 z1 z2 hy1 hy2 v1 v2 ht
    · intro k' z hz hp
      rw [e] at hz
      rcases get_set hz with ⟨rfl, rfl⟩ | ⟨he, hz⟩
      · cases mv with
        | skip h1 _ => rcases hp with hp | hp <;> cases hp
        | wait h1 => exact i.fresh _ r hr (Or.inl h1)
        | enter h1 _ _ _ => rcases hp with hp | hp <;> cases hp
        | visit h1 _ _ => rcases hp with hp | hp <;> cases hp
        | limit h1 _ => rcases hp with hp | hp <;> cases hp
        | last h1 _ => rcases hp with hp | hp <;> cases hp
      · exact i.fresh k' z hz hp

theorem tinv_of {s : S} (h : Reachable Init step s) : TInv s := by
  refine (Reachable.invariant (fun s => Str s ∧ TInv s) (fun s hi => ⟨(inv_init hi).t, ?_⟩) (fun s a s' hI hst => ?_) h).2
  · obtain ⟨n, max, _, _, rfl⟩ := hi
    exact ⟨by simp [S.init], by simp [S.init], by simp [S.init]⟩
  · obtain ⟨_, hst⟩ := step_eq hst
    exact ⟨str_step hI.1 hst, tinv_step hI.1 hI.2 hst⟩

end Verif.Listener
