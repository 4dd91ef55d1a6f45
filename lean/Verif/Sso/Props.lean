import Verif.Sso.Lemmas
/-! C84: a view stays right while its string is moved. -/
namespace Verif.Sso
open Verif.Common

/-- C84, as long as the string exists unchanged, wherever it has been moved to, each view of it shows its piece of the value that the string has
now. The views are made of the string or of other views, at any time. -/
theorem C84_shows {s : St} (h : Run s) {e : Entry} (he : e ∈ s.views) {bs : List Nat} (hv : Value s e.id bs) :
    e.off + e.len ≤ bs.length ∧ read s e.v = some ((bs.drop e.off).take e.len) := by
  obtain ⟨a, r, ha, hc⟩ := hv
  have hI := inv_run h
  have hg := hI.good e he
  obtain ⟨bs', h1, h2, _⟩ := hg.shows a r ha
  rw [hc] at h1
  cases h1
  exact ⟨h2, good_read hI hg ha hc⟩

/-- C84, a view of a piece of a string can always be made, and it is recorded as what was asked for. -/
theorem C84_take {s : St} (h : Run s) {a i off len : Nat} {r : Rep} {bs : List Nat} (ha : s.objs a = some (r, some i)) (hc : content s r = some bs)
    (hl : off + len ≤ bs.length) : ∃ s' v, step s (.take a off len) = some s' ∧ s'.views = ⟨v, i, off, len⟩ :: s.views ∧
      read s' v = some ((bs.drop off).take len) ∧ v.size = len := by
  have hI := inv_run h
  have hm : ∃ v, mk s ((dataPtr a r).plus off) len = some v := by
    unfold mk
    split
    · cases r with
      | loc l =>
        cases hc
        exact ⟨_, by simp only [dataPtr, Ptr.plus, deref, ha]; rw [Nat.zero_add, if_pos hl]; rfl⟩
      | heap b n =>
        obtain ⟨_, l, h2, h3, _⟩ := hI.mem.block a b n _ ha
        simp only [content, h2, Option.map_some, Option.some.injEq] at hc
        subst hc
        rw [List.length_take] at hl
        exact ⟨_, by simp only [dataPtr, Ptr.plus, deref, h2]; rw [Nat.zero_add, if_pos (by omega)]; rfl⟩
    · exact ⟨_, rfl⟩
  obtain ⟨v, hv⟩ := hm
  have hst : step s (.take a off len) = some { s with views := ⟨v, i, off, len⟩ :: s.views } := by
    simp only [step, ha, hc]
    rw [if_pos hl, hv]
    rfl
  have hI' := inv_step hI hst
  have hg : Good _ ⟨v, i, off, len⟩ := hI'.good _ (List.mem_cons_self ..)
  exact ⟨_, v, hst, rfl, good_read hI' hg ha hc, hg.size⟩

/-- C84, a piece of a view of a string that exists: it can be made exactly when it begins in the view, and it is the piece of the string. -/
theorem C84_substr {s : St} (h : Run s) {k pos n : Nat} {e : Entry} (he : s.views[k]? = some e) {bs : List Nat} (hv : Value s e.id bs) :
    (pos ≤ e.len → ∃ s' v, step s (.sub k pos n) = some s' ∧ s'.views = ⟨v, e.id, e.off + pos, min n (e.len - pos)⟩ :: s.views ∧
      read s' v = some ((((bs.drop e.off).take e.len).drop pos).take n)) ∧
    (e.len < pos → step s (.sub k pos n) = none) := by
  obtain ⟨a, r, ha, hc⟩ := hv
  have hI := inv_run h
  have hg := hI.good e (List.mem_of_getElem? he)
  constructor
  · intro hp
    have hm : ∃ v, substr s e.v pos n = some v := by
      unfold substr
      rw [hg.size, if_neg (by omega)]
      simp only
      obtain ⟨bs', h1, h2, h3⟩ := hg.shows a r ha
      rcases h3 with h3 | ⟨_, b, m, h5, h6⟩
      · rw [h3]; exact ⟨_, rfl⟩
      · rw [h6]
        subst h5
        obtain ⟨_, l, h7, h8, _⟩ := hI.mem.block a b m _ ha
        simp only [content, h7, Option.map_some, Option.some.injEq] at h1
        subst h1
        rw [List.length_take] at h2
        simp only [mk, Ptr.plus]
        split
        · exact ⟨_, by simp only [deref, h7]; rw [if_pos (by omega)]; rfl⟩
        · exact ⟨_, rfl⟩
    obtain ⟨v, hv⟩ := hm
    have hst : step s (.sub k pos n) = some { s with views := ⟨v, e.id, e.off + pos, min n (e.len - pos)⟩ :: s.views } := by
      simp only [step, he, hv]
      rfl
    have hI' := inv_step hI hst
    have hg' : Good _ ⟨v, e.id, e.off + pos, min n (e.len - pos)⟩ := hI'.good _ (List.mem_cons_self ..)
    refine ⟨_, v, hst, rfl, ?_⟩
    have hr := good_read hI' hg' ha hc
    rw [hr]
    show some (List.take (min n (e.len - pos)) (List.drop (e.off + pos) bs)) = _
    congr 1
    rw [List.drop_take, List.take_take, List.drop_drop]
  · intro hp
    simp only [step, he]
    unfold substr
    rw [hg.size, if_pos (by omega)]
    rfl

theorem step_nextId {s s' : St} {a : Act} (h : step s a = some s') : s.nextId ≤ s'.nextId := by
  cases a <;> simp only [step] at h
  all_goals repeat' split at h
  all_goals first
    | (cases h; done)
    | (cases h; simp only; omega)
    | (simp only [Option.map_eq_some_iff] at h; obtain ⟨v, _, h⟩ := h; cases h; simp only; omega)

theorem content_heap {s s' : St} {r : Rep} (h : ∀ b n, r = .heap b n → s'.heap b = s.heap b) : content s' r = content s r := by
  cases r with
  | loc l => rfl
  | heap b n => simp only [content]; rw [h b n rfl]

/-- A string that is there after a step was there before with the same value, unless it is a new one. -/
theorem step_back {s s' : St} {a : Act} (hI : Inv s) (h : step s a = some s') {x i : Nat} {r : Rep} (hx : s'.objs x = some (r, some i)) (hi : i < s.nextId) :
    ∃ x0 r0, s.objs x0 = some (r0, some i) ∧ content s' r = content s r0 := by
  cases a with
  | new a bs big =>
    simp only [step] at h
    split at h
    · cases h
    · split at h
      · cases h
        rcases upd_cases hx with ⟨_, h2⟩ | ⟨_, h2⟩
        · simp only [Option.some.injEq, Prod.mk.injEq] at h2; omega
        · exact ⟨x, r, h2, rfl⟩
      · cases h
        rcases upd_cases hx with ⟨_, h2⟩ | ⟨_, h2⟩
        · simp only [Option.some.injEq, Prod.mk.injEq] at h2; omega
        · refine ⟨x, r, h2, content_heap ?_⟩
          intro b n hr
          subst hr
          have := (hI.mem.block x b n _ h2).1
          exact upd_ne _ _ (by omega)
  | moveCtor dst src =>
    simp only [step] at h
    split at h
    · rename_i r1 i1 hd hs
      cases h
      rcases upd_cases hx with ⟨_, h2⟩ | ⟨_, h2⟩
      · cases h2
      · rcases upd_cases h2 with ⟨_, h4⟩ | ⟨_, h4⟩
        · cases h4; exact ⟨src, r, hs, rfl⟩
        · exact ⟨x, r, h4, rfl⟩
    · cases h
  | moveAssign dst src =>
    simp only [step] at h
    split at h
    · cases h
    · split at h
      · rename_i r1 i1 hd hs
        cases h
        rcases upd_cases hx with ⟨_, h2⟩ | ⟨_, h2⟩
        · cases h2
        · rcases upd_cases h2 with ⟨_, h4⟩ | ⟨_, h4⟩
          · cases h4; exact ⟨src, r, hs, rfl⟩
          · exact ⟨x, r, h4, rfl⟩
      · rename_i b n j b' n' i1 hd hs
        cases h
        rcases upd_cases hx with ⟨_, h2⟩ | ⟨_, h2⟩
        · cases h2
        · rcases upd_cases h2 with ⟨_, h4⟩ | ⟨_, h4⟩
          · cases h4; exact ⟨src, _, hs, rfl⟩
          · exact ⟨x, r, h4, rfl⟩
      · rename_i b n j bs i1 hd hs
        cases h
        obtain ⟨_, old, hb2, _, _⟩ := hI.mem.block dst b n j hd
        rcases upd_cases hx with ⟨_, h2⟩ | ⟨_, h2⟩
        · cases h2
        · rcases upd_cases h2 with ⟨_, h4⟩ | ⟨h3, h4⟩
          · cases h4
            refine ⟨src, _, hs, ?_⟩
            show (upd s.heap b _ b).map _ = some bs
            rw [upd_same, hb2]
            simp
          · refine ⟨x, r, h4, content_heap ?_⟩
            intro b' n' hr
            subst hr
            exact upd_ne _ _ (fun e => h3 (by rw [e] at h4; exact hI.mem.uniq x dst b n' n _ j h4 hd))
      · cases h
  | destroy a =>
    simp only [step] at h
    split at h
    · cases h
    · cases h
      rcases upd_cases hx with ⟨_, h2⟩ | ⟨_, h2⟩
      · cases h2
      · exact ⟨x, r, h2, rfl⟩
    · rename_i b n j ha
      cases h
      rcases upd_cases hx with ⟨_, h2⟩ | ⟨h3, h2⟩
      · cases h2
      · refine ⟨x, r, h2, content_heap ?_⟩
        intro b' n' hr
        subst hr
        exact upd_ne _ _ (fun e => h3 (by rw [e] at h2; exact hI.mem.uniq x a b n' n _ j h2 ha))
  | poke a k c =>
    simp only [step] at h
    split at h
    · split at h
      · cases h
        rcases upd_cases hx with ⟨_, h2⟩ | ⟨_, h2⟩
        · simp only [Option.some.injEq, Prod.mk.injEq] at h2; omega
        · exact ⟨x, r, h2, rfl⟩
      · cases h
    · rename_i b n j ha
      split at h
      · cases h
        rcases upd_cases hx with ⟨_, h2⟩ | ⟨h3, h2⟩
        · simp only [Option.some.injEq, Prod.mk.injEq] at h2; omega
        · refine ⟨x, r, h2, content_heap ?_⟩
          intro b' n' hr
          subst hr
          exact upd_ne _ _ (fun e => h3 (by rw [e] at h2; exact hI.mem.uniq x a b n' n _ _ h2 ha))
      · cases h
    · cases h
  | take a off len =>
    simp only [step] at h
    split at h
    · split at h
      · split at h
        · simp only [Option.map_eq_some_iff] at h
          obtain ⟨v, _, h⟩ := h
          cases h
          exact ⟨x, r, hx, rfl⟩
        · cases h
      · cases h
    · cases h
  | sub k pos n =>
    simp only [step] at h
    split at h
    · simp only [Option.map_eq_some_iff] at h
      obtain ⟨v, _, h⟩ := h
      cases h
      exact ⟨x, r, hx, rfl⟩
    · cases h

/-- C84, a string keeps its value when it is moved, so that a view of it shows the same bytes as when it was made, whatever was done since
to the strings, as long as it exists. -/
theorem C84_moved {s s' : St} (h : Run s) (acts : List Act) (hx : exec step s acts = some s') {i : Nat} (hi : i < s.nextId) {bs : List Nat}
    (hv : Value s' i bs) : Value s i bs := by
  induction acts generalizing s with
  | nil => cases hx; exact hv
  | cons x acts ih =>
    simp only [exec] at hx
    cases hs : step s x with
    | none => rw [hs] at hx; cases hx
    | some s1 =>
      rw [hs] at hx
      obtain ⟨a, r, ha, hc⟩ := ih (.step h hs trivial) hx (Nat.lt_of_lt_of_le hi (step_nextId hs))
      obtain ⟨x0, r0, h0, h1⟩ := step_back (inv_run h) hs ha hi
      exact ⟨x0, r0, h0, by rw [← h1, hc]⟩

/-- C84, and there is only one value. -/
theorem C84_one_value {s : St} (h : Run s) {i : Nat} {bs bs' : List Nat} (hv : Value s i bs) (hv' : Value s i bs') : bs = bs' := by
  obtain ⟨a, r, ha, hc⟩ := hv
  obtain ⟨a', r', ha', hc'⟩ := hv'
  have := (inv_run h).mem.idone a a' r r' i ha ha'
  subst this
  rw [ha] at ha'
  cases ha'
  rw [hc] at hc'
  cases hc'
  rfl

/-- C84, together: a view made of a string shows, after any moves, what it showed at first. -/
theorem C84_same {s s1 s' : St} (h : Run s) {a i off len : Nat} {r : Rep} (ha : s.objs a = some (r, some i)) (h1 : step s (.take a off len) = some s1)
    (acts : List Act) (hx : exec step s1 acts = some s') {bs : List Nat} (hv : Value s' i bs) {v : View} (hm : ⟨v, i, off, len⟩ ∈ s1.views)
    (hm' : ⟨v, i, off, len⟩ ∈ s'.views) : read s' v = read s1 v := by
  have hr1 : Run s1 := .step h h1 trivial
  have hr' : Run s' := Reachable.exec hr1 acts hx
  have hv1 : Value s1 i bs :=
    C84_moved hr1 acts hx (Nat.lt_of_lt_of_le ((inv_run h).mem.idlt a r i ha) (step_nextId h1)) hv
  rw [(C84_shows hr' hm' hv).2, (C84_shows hr1 hm hv1).2]

example : ∃ s, Run s ∧ (s.views.map (·.v)) = [.far (.inBlock 0 1) 16, .copied [7, 8]] ∧ Value s 0 [7, 8] :=
  ⟨_, Reachable.exec (.init rfl trivial)
    [.new 0 [7, 8] false, .new 1 [1, 2, 3, 4, 5, 6, 7, 8, 9, 10, 11, 12, 13, 14, 15, 16, 17] false, .take 0 0 2, .take 1 1 16,
     .moveCtor 2 0, .moveCtor 3 1, .destroy 0, .destroy 1] rfl, rfl, 2, .loc [7, 8], rfl, rfl⟩

/-- C84 is what a plain view does not do: the same move of a short string leaves it with bytes that are gone. -/
theorem C84_plain_fails : ∃ s s' v, Run s ∧ plain s 0 = some v ∧ exec step s [.moveCtor 1 0, .destroy 0] = some s' ∧ Value s 0 [7, 8] ∧ Value s' 0 [7, 8] ∧
    read s v = some [7, 8] ∧ read s' v = none :=
  ⟨_, _, _, Reachable.exec (.init rfl trivial) [.new 0 [7, 8] false] rfl, rfl, rfl, ⟨0, .loc [7, 8], rfl, rfl⟩, ⟨1, .loc [7, 8], rfl, rfl⟩, rfl, rfl⟩

/-- C84, the limit of it: when the string is changed in place, a view of a long piece shows the change, one of a short piece does not. -/
theorem C84_changed : ∃ s s' v w, Run s ∧ s.views.map (·.v) = [v, w] ∧ step s (.poke 0 0 99) = some s' ∧
    read s w = some [1, 2] ∧ read s' w = some [1, 2] ∧
    read s v = some [1, 2, 3, 4, 5, 6, 7, 8, 9, 10, 11, 12, 13, 14, 15, 16] ∧
    read s' v = some [99, 2, 3, 4, 5, 6, 7, 8, 9, 10, 11, 12, 13, 14, 15, 16] :=
  ⟨_, _, _, _, Reachable.exec (.init rfl trivial)
    [.new 0 [1, 2, 3, 4, 5, 6, 7, 8, 9, 10, 11, 12, 13, 14, 15, 16] false, .take 0 0 2, .take 0 0 16] rfl, rfl, rfl, rfl, rfl, rfl, rfl⟩

end Verif.Sso
