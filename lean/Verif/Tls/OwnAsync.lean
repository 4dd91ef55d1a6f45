import Verif.Tls.Own

/-! # The invariant `Own` and the asynchronous requests -/
namespace Verif.Tls

/-- A request that runs: nothing in flight, not deferred. -/
structure FreeQ (s : S) (ρ : Role) : Prop where
  w : s.wown ≠ some (.req ρ)
  r : s.rown ≠ some (.req ρ)
  b : s.blocked ≠ some ρ

theorem up_setReq (s : S) (ρ ρ' : Role) (q : Option Req) :
    (s.setReq ρ q).up ρ' = if ρ' = ρ then upOf q else s.up ρ' := by
  by_cases h : ρ' = ρ <;> simp [S.up, S.setReq, h]

theorem own_setReq {s : S} {ρ : Role} {q : Option Req} (h : Own s) (hf : FreeQ s ρ)
    (hu : ∀ x, q = some x → x.up = .none) (hk : ∀ x, q = some x → x.kind.ok ρ) : Own (s.setReq ρ q) := by
  have hq : upOf q = Up.none := by cases q <;> simp_all [upOf]
  obtain ⟨f1, f2, f3⟩ := hf
  obtain ⟨h1, h2, h3, h4, h5, h6, h7, h8, h9, h10⟩ := h
  refine ⟨h1, h2, ?_, h4, ?_, h6, ?_, h8, ?_, ?_⟩
  · intro g; rw [up_setReq, hq]; have := h3 g
    by_cases hg : g = ρ
    · subst hg; simpa [S.setReq, upOf, Up.isW] using f1
    · simpa [S.setReq, hg] using this
  · intro g; rw [up_setReq, hq]; have := h5 g
    by_cases hg : g = ρ
    · subst hg; simp [upOf, Up.isW]
    · simpa [S.setReq, hg] using this
  · intro g; rw [up_setReq, hq]; have := h7 g
    by_cases hg : g = ρ
    · subst hg; simpa [S.setReq, upOf, Up.isR] using f2
    · simpa [S.setReq, hg] using this
  · intro g x; have := h9 g x
    by_cases hg : g = ρ
    · subst hg; simpa [S.setReq] using hk x
    · simpa [S.setReq, hg] using this
  · intro g; rw [up_setReq, hq]; have := h10 g
    by_cases hg : g = ρ
    · subst hg; intro hb; exact absurd hb f3
    · simpa [S.setReq, hg] using this

theorem own_modReq {s : S} {ρ : Role} {g : Req → Req} (h : Own s) (hf : FreeQ s ρ)
    (hg : ∀ q, (g q).kind = q.kind ∧ (g q).up = q.up) : Own (s.modReq ρ g) := by
  refine own_setReq h hf ?_ ?_
  · intro x hx
    cases hq : s.req ρ with
    | none => simp [hq] at hx
    | some q =>
      simp only [hq, Option.map_some, Option.some.injEq] at hx; subst hx
      rw [(hg q).2]
      have h3 := h.wq ρ; have h7 := h.rq ρ
      simp only [S.up, hq, upOf] at h3 h7
      cases hu : q.up with
      | none => rfl
      | wr b => exact absurd (h3.1 (by rw [hu]; rfl)) hf.w
      | rd b => exact absurd (h7.1 (by rw [hu]; rfl)) hf.r
  · intro x hx
    cases hq : s.req ρ with
    | none => simp [hq] at hx
    | some q =>
      simp only [hq, Option.map_some, Option.some.injEq] at hx; subst hx
      rw [(hg q).1]; exact h.kq ρ q hq

theorem own_block {s : S} {ρ : Role} (h : Own s) (hf : FreeQ s ρ) (hq : s.req ρ ≠ none) : Own { s with blocked := some ρ } := by
  obtain ⟨h1, h2, h3, h4, h5, h6, h7, h8, h9, h10⟩ := h
  refine ⟨h1, h2, h3, h4, h5, h6, h7, h8, h9, ?_⟩
  intro g hg
  simp only [Option.some.injEq] at hg; subst hg
  refine ⟨?_, hq⟩
  show s.up ρ = .none
  cases hu : s.up ρ with
  | none => rfl
  | wr b => exact absurd ((h3 ρ).1 (by rw [hu]; rfl)) hf.w
  | rd b => exact absurd ((h7 ρ).1 (by rw [hu]; rfl)) hf.r

theorem own_startUpW {s s1 : S} {ρ : Role} (h : Own s) (hf : FreeQ s ρ) (hq : s.req ρ ≠ none)
    (e : s.startUpW ρ = some s1) : Own s1 := by
  unfold S.startUpW at e
  split at e
  · split at e
    · simp at e
    · simp only [Option.some.injEq] at e; subst e; exact own_block h hf hq
  · rename_i hw
    split at e
    · simp at e
    rename_i ho
    simp only [Option.some.injEq] at e; subst e
    obtain ⟨q, hq⟩ := Option.ne_none_iff_exists'.1 hq
    obtain ⟨f1, f2, f3⟩ := hf
    obtain ⟨h1, h2, h3, h4, h5, h6, h7, h8, h9, h10⟩ := h
    unfold S.modReq
    simp only [hq, Option.map_some]
    refine ⟨h1, ?_, ?_, h4, ?_, h6, ?_, h8, ?_, ?_⟩
    · intro g; have := h2 g; simp only [S.setReq]; rw [this]; simp [hw]
    · intro g; rw [up_setReq]; have := h3 g
      by_cases hg : g = ρ
      · subst hg; simp [S.setReq, upOf, Up.isW]
      · have hg' : ¬ ρ = g := fun e => hg e.symm
        simp only [hg, if_false, S.setReq]
        show (s.up g).isW = true ↔ _
        rw [this]; simp [hw, hg']
    · intro g; rw [up_setReq]; have := h5 g
      by_cases hg : g = ρ
      · subst hg; intro _; simp [S.setReq, upOf, Up.buf, ho]
      · simp only [hg, if_false, S.setReq]; exact this
    · intro g; rw [up_setReq]; have := h7 g
      by_cases hg : g = ρ
      · subst hg; simp [S.setReq, upOf, Up.isR, f2]
      · simp only [hg, if_false, S.setReq]; exact this
    · intro g x; have := h9 g x
      by_cases hg : g = ρ
      · subst hg; simp only [S.setReq, if_true, Option.some.injEq]; intro hx; subst hx; exact h9 g q hq
      · simpa [S.setReq, hg] using this
    · intro g; rw [up_setReq]; have := h10 g
      by_cases hg : g = ρ
      · subst hg; intro hb; exact absurd hb f3
      · simp only [hg, if_false, S.setReq]; exact this

theorem own_startUpR {s s1 : S} {ρ : Role} (h : Own s) (hf : FreeQ s ρ) (hq : s.req ρ ≠ none)
    (e : s.startUpR ρ = some s1) : Own s1 := by
  unfold S.startUpR at e
  split at e
  · split at e
    · simp at e
    · simp only [Option.some.injEq] at e; subst e
      have h2 := own_modReq (g := fun q => { q with shouldRead := false }) h hf (fun q => ⟨rfl, rfl⟩)
      exact own_congr (own_block h2 ⟨hf.w, hf.r, hf.b⟩ (by
        obtain ⟨q, hq⟩ := Option.ne_none_iff_exists'.1 hq
        simp [S.modReq, S.setReq, hq])) rfl rfl rfl rfl rfl rfl rfl
  · rename_i hw
    simp only [Option.some.injEq] at e; subst e
    obtain ⟨q, hq⟩ := Option.ne_none_iff_exists'.1 hq
    obtain ⟨f1, f2, f3⟩ := hf
    obtain ⟨h1, h2, h3, h4, h5, h6, h7, h8, h9, h10⟩ := h
    unfold S.modReq
    simp only [hq, Option.map_some]
    refine ⟨h1, h2, ?_, h4, ?_, ?_, ?_, h8, ?_, ?_⟩
    · intro g; rw [up_setReq]; have := h3 g
      by_cases hg : g = ρ
      · subst hg; simp [S.setReq, upOf, Up.isW, f1]
      · simp only [hg, if_false, S.setReq]; exact this
    · intro g; rw [up_setReq]; have := h5 g
      by_cases hg : g = ρ
      · subst hg; simp [upOf, Up.isW]
      · simp only [hg, if_false, S.setReq]; exact this
    · intro g; have := h6 g; simp only [S.setReq]; rw [this]; simp [hw]
    · intro g; rw [up_setReq]; have := h7 g
      by_cases hg : g = ρ
      · subst hg; simp [S.setReq, upOf, Up.isR]
      · have hg' : ¬ ρ = g := fun e => hg e.symm
        simp only [hg, if_false, S.setReq]
        show (s.up g).isR = true ↔ _
        rw [this]; simp [hw, hg']
    · intro g x; have := h9 g x
      by_cases hg : g = ρ
      · subst hg; simp only [S.setReq, if_true, Option.some.injEq]; intro hx; subst hx; exact h9 g q hq
      · simpa [S.setReq, hg] using this
    · intro g; rw [up_setReq]; have := h10 g
      by_cases hg : g = ρ
      · subst hg; intro hb; exact absurd hb f3
      · simp only [hg, if_false, S.setReq]; exact this

theorem own_complete {s : S} {ρ : Role} {x : Except Err Nat} (h : Own s) (hf : FreeQ s ρ) :
    Own (s.complete ρ x) := by
  unfold S.complete
  split
  · exact h
  · have h2 := own_setReq (q := none) h hf (by simp) (by simp)
    simp only
    split
    · exact own_emit h2 _
    · exact own_emit h2 _
    · exact h2
    · exact own_congr h2 rfl rfl rfl rfl rfl rfl rfl

theorem own_handleOp {s s1 : S} {ρ : Role} {o : Op} (h : Own s) (hf : FreeQ s ρ) (hq : s.req ρ ≠ none)
    (e : s.handleOp ρ o = some s1) : Own s1 := by
  unfold S.handleOp at e
  split at e
  · split at e
    · refine own_startUpW (own_modReq (g := fun q => { q with shouldRead := true }) h hf (fun q => ⟨rfl, rfl⟩)) ⟨hf.w, hf.r, hf.b⟩ ?_ e
      obtain ⟨q, hq⟩ := Option.ne_none_iff_exists'.1 hq
      simp [S.modReq, S.setReq, hq]
    · exact own_startUpR h hf hq e
  · exact own_startUpW h hf hq e
  · simp only [Option.some.injEq] at e; subst e; exact own_complete h hf
  · simp only [Option.some.injEq] at e; subst e; exact own_complete h hf

/-- No request: it has nothing in flight. -/
theorem Own.freeQ_none {s : S} {ρ : Role} (h : Own s) (hq : s.req ρ = none) (hb : s.blocked ≠ some ρ) : FreeQ s ρ := by
  refine ⟨?_, ?_, hb⟩
  · intro e; have := (h.wq ρ).2 e; simp [S.up, upOf, hq, Up.isW] at this
  · intro e; have := (h.rq ρ).2 e; simp [S.up, upOf, hq, Up.isR] at this

theorem Own.freeQ_up {s : S} {ρ : Role} (h : Own s) (hq : s.up ρ = .none) (hb : s.blocked ≠ some ρ) : FreeQ s ρ := by
  refine ⟨?_, ?_, hb⟩
  · intro e; have := (h.wq ρ).2 e; simp [hq, Up.isW] at this
  · intro e; have := (h.rq ρ).2 e; simp [hq, Up.isR] at this

theorem setReq_same (s : S) (ρ : Role) (q : Option Req) : (s.setReq ρ q).req ρ = q := by simp [S.setReq]

theorem own_asyncRead {s s1 : S} {n : Nat} (h : Own s) (hb : s.blocked ≠ some .reader)
    (e : s.asyncRead n = some s1) : Own s1 := by
  unfold S.asyncRead at e
  split at e
  · simp at e
  rename_i hq
  have hq : s.req .reader = none := by
    by_cases hh : s.req .reader = none
    · exact hh
    · exact absurd (Or.inl hh) hq
  have hf := h.freeQ_none hq hb
  cases hr : s.e.read n with
  | mk r e1 =>
    rw [hr] at e
    have hs := read_spec hr
    have h2 := own_ext h hs.1
    split at e
    · simp only [Option.some.injEq] at e; subst e; rename_i hh; cases hh; exact own_emit h2 _
    · simp only [Option.some.injEq] at e; subst e; rename_i hh; cases hh; exact own_emit h2 _
    · simp only [Option.some.injEq] at e; subst e; rename_i hh; cases hh; exact own_emit h2 _
    · rename_i o e1' _ _ hh
      simp only [Prod.mk.injEq] at hh
      obtain ⟨rfl, rfl⟩ := hh
      have h3 := own_setReq (q := some ⟨.read n, 0, false, .none⟩) h2 (ρ := .reader) ⟨hf.w, hf.r, hf.b⟩
        (by simp) (by simp [Kind.ok])
      exact own_handleOp h3 ⟨hf.w, hf.r, hf.b⟩ (by rw [setReq_same]; simp) e

theorem flatten_ne {iov : List (List Nat)} (h : GoodIov iov) : iov.flatten ≠ [] := by
  obtain ⟨h1, h2⟩ := h
  cases iov with
  | nil => simp at h1
  | cons v l =>
    intro he
    simp only [List.flatten_cons, List.append_eq_nil_iff] at he
    exact h2 (by rw [he.1]; simp)

theorem own_asyncWrite {s s1 : S} {iov : List (List Nat)} (h : Own s) (hb : s.blocked ≠ some .writer)
    (e : s.asyncWrite iov = some s1) : Own s1 := by
  unfold S.asyncWrite at e
  split at e
  · simp at e
  rename_i hq
  have hq : s.req .writer = none := Classical.byContradiction hq
  have hf := h.freeQ_none hq hb
  split at e
  · simp at e
  · rename_i p hp
    have hp := push_spec hp
    have h2 := own_setReq (ρ := .writer) (q := some ⟨.user iov, p.written, false, .none⟩)
      (own_emit (own_ext h hp.ext) [.enc .async (iov.flatten.take p.written)]) ⟨hf.w, hf.r, hf.b⟩ (by simp)
      (by simp [Kind.ok])
    simp only at e
    split at e
    · exact own_startUpW h2 ⟨hf.w, hf.r, hf.b⟩ (by rw [setReq_same]; simp) e
    · exact own_handleOp h2 ⟨hf.w, hf.r, hf.b⟩ (by rw [setReq_same]; simp) e

/-! ### What asynchronous requests leave alone -/

/-- Log entries of asynchronous requests. -/
def Obs.isA : Role → Obs → Bool
  | .writer, .call .async _ | .writer, .enc .async _ | .writer, .ret .async _ | .writer, .fail .async _ => true
  | .reader, .rcall .async | .reader, .dec .async _ | .reader, .rret .async _ | .reader, .rfail .async _ => true
  | .writer, .wake _ => true
  | _, _ => false

theorem Kind.ok_user {ρ : Role} {l} (h : Kind.ok ρ (.user l)) : ρ = .writer := by cases ρ <;> simp_all [Kind.ok]
theorem Kind.ok_flush {ρ : Role} {d} (h : Kind.ok ρ (.flush d)) : ρ = .writer := by cases ρ <;> simp_all [Kind.ok]
theorem Kind.ok_read {ρ : Role} {n} (h : Kind.ok ρ (.read n)) : ρ = .reader := by cases ρ <;> simp_all [Kind.ok]

/-- What an action on the request `ρ` leaves alone. -/
structure FrameA (ρ : Role) (s s1 : S) : Prop where
  fib : s1.fib = s.fib
  hook : s1.hook = s.hook
  shut : s1.shut = s.shut
  next : s1.nextShut = s.nextShut
  wire : s1.wire = s.wire
  arr : s1.arrived = s.arrived
  mark : s1.wmark = s.wmark
  req : ∀ g, g ≠ ρ → s1.req g = s.req g
  blk : s1.blocked = s.blocked ∨ s.blocked = none ∧ s1.blocked = some ρ
  own : s1.wown = none → s.wown = none
  ext : Ext s.e s1.e
  log : ∃ l, s1.log = s.log ++ l ∧ ∀ o ∈ l, o.isA ρ = true

theorem FrameA.refl (ρ : Role) (s : S) : FrameA ρ s s :=
  ⟨rfl, rfl, rfl, rfl, rfl, rfl, rfl, fun _ _ => rfl, Or.inl rfl, id, Ext.refl _, [], by simp⟩

theorem FrameA.trans {ρ : Role} {a b c : S} (h : FrameA ρ a b) (k : FrameA ρ b c) : FrameA ρ a c := by
  obtain ⟨h1, h2, h3, h4, h5, h6, h6', h7, h8, h8', h9, l, h10, h11⟩ := h
  obtain ⟨k1, k2, k3, k4, k5, k6, k6', k7, k8, k8', k9, m, k10, k11⟩ := k
  refine ⟨k1.trans h1, k2.trans h2, k3.trans h3, k4.trans h4, k5.trans h5, k6.trans h6, k6'.trans h6',
    fun g hg => (k7 g hg).trans (h7 g hg), ?_, fun x => h8' (k8' x), h9.trans k9, l ++ m, by simp [k10, h10], ?_⟩
  · rcases k8 with k8 | k8
    · rw [k8]; exact h8
    · rcases h8 with h8 | h8
      · exact Or.inr ⟨h8 ▸ k8.1, k8.2⟩
      · rw [h8.2] at k8; simp at k8
  · intro o ho
    rcases List.mem_append.1 ho with ho | ho
    · exact h11 o ho
    · exact k11 o ho

theorem frame_setReq (ρ : Role) (s : S) (q : Option Req) : FrameA ρ s (s.setReq ρ q) :=
  ⟨rfl, rfl, rfl, rfl, rfl, rfl, rfl, fun g hg => by simp [S.setReq, hg], Or.inl rfl, id, Ext.refl _, [], by simp [S.setReq]⟩

theorem frame_ext (ρ : Role) (s : S) {e1 : Eng} (h : Ext s.e e1) : FrameA ρ s { s with e := e1 } :=
  ⟨rfl, rfl, rfl, rfl, rfl, rfl, rfl, fun _ _ => rfl, Or.inl rfl, id, h, [], by simp⟩

theorem frame_emit (ρ : Role) (s : S) (l : List Obs) (h : ∀ o ∈ l, o.isA ρ = true) : FrameA ρ s (s.emit l) :=
  ⟨rfl, rfl, rfl, rfl, rfl, rfl, rfl, fun _ _ => rfl, Or.inl rfl, id, Ext.refl _, l, rfl, h⟩

theorem frame_startUpW {ρ : Role} {s s1 : S} (e : s.startUpW ρ = some s1) : FrameA ρ s s1 := by
  unfold S.startUpW at e
  split at e
  · split at e
    · simp at e
    · rename_i hb
      simp only [Option.some.injEq] at e; subst e
      exact ⟨rfl, rfl, rfl, rfl, rfl, rfl, rfl, fun _ _ => rfl, Or.inr ⟨Classical.byContradiction hb, rfl⟩, id, Ext.refl _, [], by simp⟩
  · split at e
    · simp at e
    · simp only [Option.some.injEq] at e; subst e
      exact ⟨rfl, rfl, rfl, rfl, rfl, rfl, rfl, fun g hg => by simp [S.modReq, S.setReq, hg], Or.inl rfl, fun x => by simp [S.modReq, S.setReq] at x, Ext.refl _, [],
        by simp [S.modReq, S.setReq]⟩

theorem frame_startUpR {ρ : Role} {s s1 : S} (e : s.startUpR ρ = some s1) : FrameA ρ s s1 := by
  unfold S.startUpR at e
  split at e
  · split at e
    · simp at e
    · rename_i hb
      simp only [Option.some.injEq] at e; subst e
      exact ⟨rfl, rfl, rfl, rfl, rfl, rfl, rfl, fun g hg => by simp [S.modReq, S.setReq, hg],
        Or.inr ⟨Classical.byContradiction hb, rfl⟩, id, Ext.refl _, [],
        by simp [S.modReq, S.setReq]⟩
  · simp only [Option.some.injEq] at e; subst e
    exact ⟨rfl, rfl, rfl, rfl, rfl, rfl, rfl, fun g hg => by simp [S.modReq, S.setReq, hg], Or.inl rfl, id, Ext.refl _, [],
      by simp [S.modReq, S.setReq]⟩

theorem frame_complete (ρ : Role) (s : S) (x : Except Err Nat) (hk : ∀ q, s.req ρ = some q → q.kind.ok ρ) :
    FrameA ρ s (s.complete ρ x) := by
  unfold S.complete
  split
  · exact FrameA.refl _ _
  · rename_i q hq
    have hk := hk q hq
    simp only
    split <;> rename_i hkd <;> rw [hkd] at hk
    · have := Kind.ok_user hk; subst this
      refine (frame_setReq .writer s none).trans (frame_emit _ _ _ ?_); cases x <;> simp [Obs.isA]
    · have := Kind.ok_read hk; subst this
      refine (frame_setReq .reader s none).trans (frame_emit _ _ _ ?_); cases x <;> simp [Obs.isA]
    · exact frame_setReq ρ s none
    · have := Kind.ok_flush hk; subst this
      refine (frame_setReq .writer s none).trans ⟨rfl, rfl, rfl, rfl, rfl, rfl, rfl, fun _ _ => rfl, Or.inl rfl, id, Ext.refl _, _, rfl, ?_⟩
      split <;> simp [Obs.isA]

theorem frame_handleOp {ρ : Role} {s s1 : S} {o : Op} (hk : ∀ q, s.req ρ = some q → q.kind.ok ρ) (e : s.handleOp ρ o = some s1) : FrameA ρ s s1 := by
  unfold S.handleOp at e
  split at e
  · split at e
    · exact (frame_setReq ρ s _).trans (frame_startUpW e)
    · exact frame_startUpR e
  · exact frame_startUpW e
  · simp only [Option.some.injEq] at e; subst e; exact frame_complete _ _ _ hk
  · simp only [Option.some.injEq] at e; subst e; exact frame_complete _ _ _ hk

theorem frame_asyncRead {s s1 : S} {n : Nat} (e : s.asyncRead n = some s1) : FrameA .reader s s1 := by
  unfold S.asyncRead at e
  split at e
  · simp at e
  cases hr : s.e.read n with
  | mk r e1 =>
    rw [hr] at e
    have hs := frame_ext .reader s (read_spec hr).1
    split at e
    · simp only [Option.some.injEq] at e; subst e; rename_i hh; cases hh
      exact hs.trans (frame_emit _ _ _ (by simp [Obs.isA]))
    · simp only [Option.some.injEq] at e; subst e; rename_i hh; cases hh
      exact hs.trans (frame_emit _ _ _ (by simp [Obs.isA]))
    · simp only [Option.some.injEq] at e; subst e; rename_i hh; cases hh
      exact hs.trans (frame_emit _ _ _ (by simp [Obs.isA]))
    · rename_i hh
      simp only [Prod.mk.injEq] at hh
      obtain ⟨rfl, rfl⟩ := hh
      exact hs.trans ((frame_setReq _ _ _).trans (frame_handleOp (by simp [S.setReq, Kind.ok]) e))

theorem frame_asyncWrite {s s1 : S} {iov : List (List Nat)} (e : s.asyncWrite iov = some s1) :
    FrameA .writer s s1 := by
  unfold S.asyncWrite at e
  split at e
  · simp at e
  split at e
  · simp at e
  · rename_i p hp
    have hs := ((frame_ext .writer s (push_spec hp).ext).trans
      (frame_emit _ _ [.enc .async (iov.flatten.take p.written)] (by simp [Obs.isA]))).trans
      (frame_setReq _ _ (some ⟨.user iov, p.written, false, .none⟩))
    simp only at e
    split at e
    · exact hs.trans (frame_startUpW e)
    · exact hs.trans (frame_handleOp (by simp [S.setReq, Kind.ok]) e)

theorem frame_roleAction {ρ : Role} {s s1 : S} (hk : ∀ q, s.req ρ = some q → q.kind.ok ρ) (e : s.roleAction ρ = some s1) : FrameA ρ s s1 := by
  unfold S.roleAction at e
  split at e
  · simp only [Option.some.injEq] at e; subst e; exact FrameA.refl _ _
  rename_i q hq
  split at e
  · rename_i n hkd
    have := hk q hq
    rw [hkd] at this
    have := Kind.ok_read this; subst this
    cases hr : s.e.read n with
    | mk r e1 =>
      rw [hr] at e
      have hs := frame_ext .reader s (read_spec hr).1
      cases r with
      | ok bs =>
        simp only [Option.some.injEq] at e; subst e
        exact (hs.trans (frame_emit _ _ _ (by simp [Obs.isA]))).trans (frame_complete _ _ _ hk)
      | error o => exact hs.trans (frame_handleOp hk e)
  · simp only [Option.some.injEq] at e; subst e; exact frame_complete _ _ _ hk
  · split at e
    · simp only [Option.some.injEq] at e; subst e; exact frame_complete _ _ _ hk
    · split at e
      · simp at e
      · rename_i iov hkd _ _ p hp
        have hk1 := hk q hq
        have hk2 := hk1
        rw [hkd] at hk1
        have := Kind.ok_user hk1; subst this
        have hs := ((frame_ext .writer s (push_spec hp).ext).trans
          (frame_emit _ _ [.enc .async (iov.flatten.take p.written)] (by simp [Obs.isA]))).trans
          (frame_setReq _ _ (some { q with written := p.written }))
        simp only at e
        split at e
        · exact hs.trans (frame_startUpW e)
        · exact hs.trans (frame_handleOp (by simpa [S.setReq] using hk2) e)

theorem own_roleAction {s s1 : S} {ρ : Role} (h : Own s) (hf : FreeQ s ρ) (e : s.roleAction ρ = some s1) :
    Own s1 := by
  unfold S.roleAction at e
  split at e
  · simp only [Option.some.injEq] at e; subst e; exact h
  rename_i q hq
  have hf' : ∀ t : S, t.wown = s.wown → t.rown = s.rown → t.blocked = s.blocked → FreeQ t ρ :=
    fun t t1 t2 t3 => ⟨by rw [t1]; exact hf.w, by rw [t2]; exact hf.r, by rw [t3]; exact hf.b⟩
  split at e
  · rename_i n _
    cases hr : s.e.read n with
    | mk r e1 =>
      rw [hr] at e
      have hs := own_ext h (read_spec hr).1
      cases r with
      | ok bs =>
        simp only [Option.some.injEq] at e; subst e
        exact own_complete (own_emit hs _) (hf' _ rfl rfl rfl)
      | error o => exact own_handleOp hs (hf' _ rfl rfl rfl) (by simp [hq]) e
  · simp only [Option.some.injEq] at e; subst e; exact own_complete h hf
  · split at e
    · simp only [Option.some.injEq] at e; subst e; exact own_complete h hf
    · split at e
      · simp at e
      · rename_i iov hkd _ _ p hp
        have hup : q.up = .none := by
          have h3 := h.wq ρ; have h7 := h.rq ρ
          simp only [S.up, hq, upOf] at h3 h7
          cases hu : q.up with
          | none => rfl
          | wr b => exact absurd (h3.1 (by rw [hu]; rfl)) hf.w
          | rd b => exact absurd (h7.1 (by rw [hu]; rfl)) hf.r
        have h2 := own_setReq (ρ := ρ) (q := some { q with written := p.written })
          (own_emit (own_ext h (push_spec hp).ext) [.enc .async (iov.flatten.take p.written)]) (hf' _ rfl rfl rfl)
          (by simp [hup]) (by simpa using h.kq ρ q hq)
        simp only at e
        split at e
        · exact own_startUpW h2 (hf' _ rfl rfl rfl) (by rw [setReq_same]; simp) e
        · exact own_handleOp h2 (hf' _ rfl rfl rfl) (by rw [setReq_same]; simp) e

theorem own_unblock {s : S} (h : Own s) : Own { s with blocked := none } := by
  obtain ⟨h1, h2, h3, h4, h5, h6, h7, h8, h9, h10⟩ := h
  exact ⟨h1, h2, h3, h4, h5, h6, h7, h8, h9, by simp⟩

/-- `RunPending` touches only the deferred request. -/
theorem own_runPending {s s1 : S} {ρ : Role} (h : Own s) (hb : s.blocked ≠ some ρ) (e : s.runPending = some s1) :
    Own s1 ∧ s1.req ρ = s.req ρ ∧ s1.blocked ≠ some ρ ∧
      (s1 = s ∨ ∃ ρ', ρ' ≠ ρ ∧ s.blocked = some ρ' ∧ FrameA ρ' { s with blocked := none } s1) := by
  unfold S.runPending at e
  split at e
  · simp only [Option.some.injEq] at e; subst e
    exact ⟨h, rfl, hb, Or.inl rfl⟩
  · rename_i ρ' hb'
    have hne : ρ ≠ ρ' := fun x => hb (by rw [hb', x])
    have hne' : ρ' ≠ ρ := fun x => hne x.symm
    have hu := (h.bl ρ' hb').1
    have h1 := own_unblock h
    have hf : FreeQ { s with blocked := none } ρ' := h1.freeQ_up hu (by simp)
    have fin : FrameA ρ' { s with blocked := none } s1 → Own s1 →
        Own s1 ∧ s1.req ρ = s.req ρ ∧ s1.blocked ≠ some ρ ∧
          (s1 = s ∨ ∃ ρ', ρ' ≠ ρ ∧ s.blocked = some ρ' ∧ FrameA ρ' { s with blocked := none } s1) := by
      intro f o
      refine ⟨o, f.req ρ hne, ?_, Or.inr ⟨ρ', hne', hb', f⟩⟩
      rcases f.blk with b | b
      · rw [b]; simp
      · rw [b.2]; simpa using hne'
    simp only at e
    split at e
    · simp only [Option.some.injEq] at e; subst e
      exact fin (FrameA.refl _ _) h1
    · rename_i q hq
      split at e
      · exact fin (frame_startUpR e) (own_startUpR h1 hf (by simp [hq]) e)
      · have h2 := own_setReq (q := none) h1 hf (by simp) (by simp)
        have hk := h.kq ρ' q hq
        split at e
        · rename_i hkd
          have hw : ρ' = .writer := by rw [hkd] at hk; cases ρ' <;> simp_all [Kind.ok]
          subst hw
          exact fin ((frame_setReq _ _ none).trans (frame_asyncWrite e)) (own_asyncWrite h2 (by simp [S.setReq]) e)
        · rename_i hkd
          have hw : ρ' = .writer := by rw [hkd] at hk; cases ρ' <;> simp_all [Kind.ok]
          subst hw
          exact fin ((frame_setReq _ _ none).trans (frame_asyncWrite e)) (own_asyncWrite h2 (by simp [S.setReq]) e)
        · rename_i hkd
          have hw : ρ' = .reader := by rw [hkd] at hk; cases ρ' <;> simp_all [Kind.ok]
          subst hw
          exact fin ((frame_setReq _ _ none).trans (frame_asyncRead e)) (own_asyncRead h2 (by simp [S.setReq]) e)

/-- A request's write is over. -/
theorem own_releaseQW {s : S} {ρ : Role} {q : Req} {buf : List Nat} (h : Own s) (hq : s.req ρ = some q)
    (hu : q.up = .wr buf) : Own { s.setReq ρ (some { q with up := .none }) with wown := none } ∧
      s.rown ≠ some (.req ρ) ∧ s.blocked ≠ some ρ := by
  have hup : s.up ρ = .wr buf := by simp [S.up, hq, upOf, hu]
  have hw := (h.wq ρ).1 (by rw [hup]; rfl)
  have hr : s.rown ≠ some (.req ρ) := fun e => by have := (h.rq ρ).2 e; simp [hup, Up.isR] at this
  have hb : s.blocked ≠ some ρ := fun e => by have := (h.bl ρ e).1; simp [hup] at this
  refine ⟨?_, hr, hb⟩
  obtain ⟨h1, h2, h3, h4, h5, h6, h7, h8, h9, h10⟩ := h
  have key : ∀ g, ({ s.setReq ρ (some { q with up := .none }) with wown := none } : S).up g =
      if g = ρ then .none else s.up g := fun g => up_setReq s ρ g _
  refine ⟨h1, ?_, ?_, h4, ?_, h6, ?_, h8, ?_, ?_⟩
  · intro g; have := h2 g; simp only [S.setReq]; rw [this]; simp [hw]
  · intro g; rw [key]; have := h3 g
    by_cases hg : g = ρ
    · subst hg; simp [Up.isW]
    · have hg' : ¬ ρ = g := fun e => hg e.symm
      simp only [hg, if_false]; rw [this]; simp [hw, hg']
  · intro g; rw [key]; have := h5 g
    by_cases hg : g = ρ
    · subst hg; simp [Up.isW]
    · simp only [hg, if_false, S.setReq]; exact this
  · intro g; rw [key]; have := h7 g
    by_cases hg : g = ρ
    · subst hg; simp [Up.isR, S.setReq, hr]
    · simp only [hg, if_false, S.setReq]; exact this
  · intro g x; have := h9 g x
    by_cases hg : g = ρ
    · subst hg; simp only [S.setReq, if_true, Option.some.injEq]; intro hx; subst hx; exact h9 g q hq
    · simpa [S.setReq, hg] using this
  · intro g; rw [key]; have := h10 g
    by_cases hg : g = ρ
    · subst hg; intro hb'; exact absurd hb' hb
    · simp only [hg, if_false, S.setReq]; exact this

/-- A request's read is over. -/
theorem own_releaseQR {s : S} {ρ : Role} {q : Req} {pos : Nat} (h : Own s) (hq : s.req ρ = some q)
    (hu : q.up = .rd pos) : Own { s.setReq ρ (some { q with up := .none }) with rown := none } ∧
      s.wown ≠ some (.req ρ) ∧ s.blocked ≠ some ρ := by
  have hup : s.up ρ = .rd pos := by simp [S.up, hq, upOf, hu]
  have hr := (h.rq ρ).1 (by rw [hup]; rfl)
  have hw : s.wown ≠ some (.req ρ) := fun e => by have := (h.wq ρ).2 e; simp [hup, Up.isW] at this
  have hb : s.blocked ≠ some ρ := fun e => by have := (h.bl ρ e).1; simp [hup] at this
  refine ⟨?_, hw, hb⟩
  obtain ⟨h1, h2, h3, h4, h5, h6, h7, h8, h9, h10⟩ := h
  have key : ∀ g, ({ s.setReq ρ (some { q with up := .none }) with rown := none } : S).up g =
      if g = ρ then .none else s.up g := fun g => up_setReq s ρ g _
  refine ⟨h1, h2, ?_, h4, ?_, ?_, ?_, h8, ?_, ?_⟩
  · intro g; rw [key]; have := h3 g
    by_cases hg : g = ρ
    · subst hg; simp [Up.isW, S.setReq, hw]
    · simp only [hg, if_false, S.setReq]; exact this
  · intro g; rw [key]; have := h5 g
    by_cases hg : g = ρ
    · subst hg; simp [Up.isW]
    · simp only [hg, if_false, S.setReq]; exact this
  · intro g; have := h6 g; simp only [S.setReq]; rw [this]; simp [hr]
  · intro g; rw [key]; have := h7 g
    by_cases hg : g = ρ
    · subst hg; simp [Up.isR]
    · have hg' : ¬ ρ = g := fun e => hg e.symm
      simp only [hg, if_false]; rw [this]; simp [hr, hg']
  · intro g x; have := h9 g x
    by_cases hg : g = ρ
    · subst hg; simp only [S.setReq, if_true, Option.some.injEq]; intro hx; subst hx; exact h9 g q hq
    · simpa [S.setReq, hg] using this
  · intro g; rw [key]; have := h10 g
    by_cases hg : g = ρ
    · subst hg; intro hb'; exact absurd hb' hb
    · simp only [hg, if_false, S.setReq]; exact this

theorem own_aWDone {s s1 : S} {ρ : Role} {k : Option Nat} (h : Own s) (e : s.aWDone ρ k = some s1) : Own s1 := by
  unfold S.aWDone at e
  split at e
  · simp only [Option.some.injEq] at e; subst e; exact h
  rename_i q hq
  split at e
  · rename_i buf hu
    have hup : s.up ρ = .wr buf := by simp [S.up, hq, upOf, hu]
    obtain ⟨hrel, hr, hb⟩ := own_releaseQW h hq hu
    obtain ⟨hb1, hb2⟩ := h.bq ρ (by rw [hup]; rfl)
    rw [hup] at hb1 hb2
    simp only [Up.buf] at hb1 hb2
    simp only at e
    split at e
    · split at e
      · simp at e
      · rename_i s2 he
        simp only [Option.some.injEq] at e; subst e
        obtain ⟨o2, q2, b2, _⟩ := own_runPending (ρ := ρ) (own_emit hrel [.upFail]) hb he
        exact own_complete o2 (o2.freeQ_up (by simp [S.up, q2, S.setReq, S.emit, upOf]) b2)
    · rename_i k
      have htake : buf.take (k + 1) = s.e.out.take (min (k + 1) buf.length) := by
        obtain ⟨t, ht⟩ := hb2
        rw [← ht, List.take_append, show min (k + 1) buf.length - buf.length = 0 from by omega]
        simp
      have hs := own_sent hrel htake rfl
      split at e
      · rename_i ho
        simp only [Option.some.injEq] at e; subst e
        have hst : S.startUpW { s.setReq ρ (some { q with up := .none }) with
            wire := s.wire ++ buf.take (k + 1)
            e := s.e.consume (min (k + 1) buf.length)
            wown := none } ρ = some (S.modReq { s.setReq ρ (some { q with up := .none }) with
            wire := s.wire ++ buf.take (k + 1)
            e := s.e.consume (min (k + 1) buf.length)
            wown := some (.req ρ) } ρ fun q => { q with up := .wr (s.e.consume (min (k + 1) buf.length)).out }) := by
          simp only [S.startUpW]
          exact if_neg ho
        have h3 := own_startUpW (own_congr hs rfl rfl rfl rfl rfl rfl rfl) ⟨by simp, hr, hb⟩ (by simp [S.setReq]) hst
        refine own_congr h3 rfl ?_ rfl rfl ?_ rfl rfl
        · exact (h.wq ρ).1 (by rw [hup]; rfl)
        · funext g; by_cases hg : g = ρ <;> simp [S.modReq, S.setReq, hg]
      · split at e
        · simp at e
        · rename_i s2 he
          obtain ⟨o2, q2, b2, _⟩ := own_runPending (ρ := ρ) (own_congr hs rfl rfl rfl rfl rfl rfl rfl) hb he
          have hf2 : FreeQ s2 ρ := o2.freeQ_up (by simp [S.up, q2, S.setReq, upOf]) b2
          split at e
          · exact own_startUpR o2 hf2 (by rw [q2]; simp [S.setReq]) e
          · exact own_roleAction o2 hf2 e
  · simp only [Option.some.injEq] at e; subst e; exact h

theorem own_aRDone {s s1 : S} {ρ : Role} {r : Rd} (h : Own s) (e : s.aRDone ρ r = some s1) : Own s1 := by
  unfold S.aRDone at e
  split at e
  · simp only [Option.some.injEq] at e; subst e; exact h
  rename_i q hq
  split at e
  · rename_i pos hu
    obtain ⟨hrel, hw, hb⟩ := own_releaseQR h hq hu
    simp only at e
    split at e
    · simp at e
    · rename_i s2 he
      obtain ⟨o2, q2, b2, _⟩ := own_runPending (ρ := ρ) hrel hb he
      have hf2 : FreeQ s2 ρ := o2.freeQ_up (by simp [S.up, q2, S.setReq, upOf]) b2
      split at e
      · simp only [Option.some.injEq] at e; subst e; exact own_complete o2 hf2
      · simp only [Option.some.injEq] at e; subst e; exact own_complete o2 hf2
      · rename_i bs
        split at e
        · simp only [Option.some.injEq] at e; subst e; exact own_complete o2 hf2
        · split at e
          · simp at e
          · exact own_roleAction (own_commit o2) ⟨hf2.w, hf2.r, hf2.b⟩ e
  · simp only [Option.some.injEq] at e; subst e; exact h

end Verif.Tls
