import Verif.EventCount.Wake
/-!
What one step of the event count machine does to the client: nothing, a client step, or the return of a call.
-/
namespace Verif.EventCount
open Verif.Common
variable {G L C : Type} {P : Client G L C}

/-- A thread inside an operation is at the call that started it. -/
def CInv (P : Client G L C) (s : State G L) : Prop :=
  ∀ (t : Nat) (x : Th L), s.th[t]? = some x →
    (∀ j, waitIx x.ep = some j → ∃ tm, P.call x.cl = .wait j tm) ∧
    (isPull x.ep = true → ∃ j tm, P.call x.cl = .wait j tm) ∧
    (∀ j, notIx x.ep = some j → ∃ all, P.call x.cl = .notify j all)

/-- The effect of a step on the client's part of the state. -/
def ClientStep (P : Client G L C) (s s' : State G L) : Prop :=
  (s'.g = s.g ∧ s'.lcl = s.lcl ∧ s'.key = s.key) ∨
  (∃ t l c g' l', s.lcl t = some l ∧ s.ep t = some .cl ∧ P.call l = .loc ∧ P.loc s.g l t c = some (g', l') ∧ s'.g = g' ∧
    s'.lcl = upd s.lcl t (some l') ∧ s'.key = s.key) ∨
  (∃ t l b, s.lcl t = some l ∧ P.call l ≠ .loc ∧ s'.g = s.g ∧ s'.lcl = upd s.lcl t (some (P.ret l b)) ∧
    match P.call l with
    | .prep j => b = true ∧ s.key t = none ∧ ∃ k, k.ix = j ∧ s'.key = upd s.key t (some k)
    | .drop => b = true ∧ (∃ k, s.key t = some k) ∧ s'.key = upd s.key t none
    | .wait j _ => (∃ k, s.key t = some k ∧ k.ix = j) ∧ s'.key = s.key
    | _ => s'.key = s.key)

theorem step_client {s s' : State G L} {a : Act C} (hE : EInv s) (hC : CInv P s) (hs : step P s a = some s') :
    ClientStep P s s' ∧ CInv P s' := by
  have cset : ∀ {t : Nat} {x y : Th L} {s1 : State G L}, s.th[t]? = some x → s1.th = s.th.set t y →
      (∀ j, waitIx y.ep = some j → ∃ tm, P.call y.cl = .wait j tm) →
      (isPull y.ep = true → ∃ j tm, P.call y.cl = .wait j tm) →
      (∀ j, notIx y.ep = some j → ∃ all, P.call y.cl = .notify j all) → CInv P s1 := by
    intro t x y s1 ht he h1 h2 h3 u z hz
    rw [he] at hz
    rcases get_set hz with ⟨-, rfl⟩ | ⟨-, hz⟩
    · exact ⟨h1, h2, h3⟩
    · exact hC u z hz
  have lset : ∀ {t : Nat} {x y : Th L} {s1 : State G L}, s.th[t]? = some x → s1.th = s.th.set t y →
      s1.lcl = upd s.lcl t (some y.cl) ∧ s1.key = upd s.key t y.key := by
    intro t x y s1 ht he
    have e1 : s1.lcl = (s.put t y).lcl := by unfold State.lcl State.put; rw [he]
    have e2 : s1.key = (s.put t y).key := by unfold State.key State.put; rw [he]
    exact ⟨by rw [e1, lcl_put ht], by rw [e2, key_put ht]⟩
  have move : ∀ {t : Nat} {x y : Th L} {s1 : State G L}, s.th[t]? = some x → s1.th = s.th.set t y → s1.g = s.g →
      y.cl = x.cl → y.key = x.key →
      (∀ j, waitIx y.ep = some j → ∃ tm, P.call y.cl = .wait j tm) →
      (isPull y.ep = true → ∃ j tm, P.call y.cl = .wait j tm) →
      (∀ j, notIx y.ep = some j → ∃ all, P.call y.cl = .notify j all) → ClientStep P s s1 ∧ CInv P s1 := by
    intro t x y s1 ht he hg hcl hk h1 h2 h3
    obtain ⟨l1, l2⟩ := lset ht he
    refine ⟨.inl ⟨hg, ?_, ?_⟩, cset ht he h1 h2 h3⟩
    · rw [l1, hcl, ← lcl_of ht, upd_self]
    · rw [l2, hk, ← key_of ht, upd_self]
  have retn : ∀ {t : Nat} {x y : Th L} {s1 : State G L} {b : Bool}, s.th[t]? = some x → s1.th = s.th.set t y → s1.g = s.g →
      y.cl = P.ret x.cl b → y.ep = .cl → P.call x.cl ≠ .loc →
      (match P.call x.cl with
        | .prep j => b = true ∧ s.key t = none ∧ ∃ k, k.ix = j ∧ y.key = some k
        | .drop => b = true ∧ (∃ k, s.key t = some k) ∧ y.key = none
        | .wait j _ => (∃ k, s.key t = some k ∧ k.ix = j) ∧ y.key = x.key
        | _ => y.key = x.key) → ClientStep P s s1 ∧ CInv P s1 := by
    intro t x y s1 b ht he hg hcl hep hc hk
    obtain ⟨l1, l2⟩ := lset ht he
    refine ⟨.inr (.inr ⟨t, x.cl, b, lcl_of ht, hc, hg, by rw [l1, hcl], ?_⟩), ?_⟩
    · cases hcc : P.call x.cl <;> rw [hcc] at hk <;> simp only at hk ⊢
      · exact absurd hcc hc
      · obtain ⟨h1, h2, k, h3, h4⟩ := hk
        exact ⟨h1, h2, k, h3, by rw [l2, h4]⟩
      · obtain ⟨h1, h2, h3⟩ := hk
        exact ⟨h1, h2, by rw [l2, h3]⟩
      · obtain ⟨h2, h3⟩ := hk
        exact ⟨h2, by rw [l2, h3, ← key_of ht, upd_self]⟩
      · rw [l2, hk, ← key_of ht, upd_self]
    · exact cset ht he (by simp [hep, waitIx]) (by simp [hep, isPull]) (by simp [hep, notIx])
  cases a with
  | timer t =>
    simp only [step] at hs
    cases ht : s.th[t]? with
    | none => simp [ht] at hs
    | some x =>
      have hC1 := hC t x ht
      simp only [ht] at hs
      split at hs
      · rename_i j hx
        simp only [Option.some.injEq] at hs
        subst hs
        refine move ht (y := { x with ep := .woken j true true }) rfl rfl rfl rfl ?_ (by simp [isPull]) (by simp [notIx])
        intro j' hj'; exact hC1.1 j' (by rw [hx]; exact hj')
      · simp at hs
  | go t c =>
    simp only [step] at hs
    cases ht : s.th[t]? with
    | none => simp [ht] at hs
    | some x =>
      have hC1 := hC t x ht
      have hky := key_of ht
      have hep := ep_of ht
      simp only [ht] at hs
      split at hs
      · rename_i hx
        unfold stepCall at hs
        cases hc : P.call x.cl with
        | loc =>
          simp only [hc, Option.map_eq_some_iff] at hs
          obtain ⟨⟨g', l'⟩, hs, rfl⟩ := hs
          obtain ⟨l1, l2⟩ := lset (y := { x with cl := l' }) (s1 := { s.put t { x with cl := l' } with g := g' }) ht rfl
          refine ⟨.inr (.inl ⟨t, x.cl, c, g', l', lcl_of ht, by rw [hep, hx], hc, hs, rfl, l1, ?_⟩), ?_⟩
          · rw [l2]; show upd s.key t x.key = s.key; rw [← hky, upd_self]
          · refine cset (y := { x with cl := l' }) ht rfl ?_ ?_ ?_ <;> simp [hx, waitIx, isPull, notIx]
        | prep j =>
          simp only [hc] at hs
          cases hk : x.key with
          | some k => simp [hk] at hs
          | none =>
            simp only [hk, Option.some.injEq] at hs
            subst hs
            refine retn (b := true) ht (y := { x with cl := P.ret x.cl true, key := some ⟨j, (s.ec j).val / 2 ^ 32, (s.ec j).ntf⟩ }) rfl rfl rfl hx (by simp [hc]) ?_
            simp only [hc]
            exact ⟨trivial, by rw [hky, hk], ⟨j, (s.ec j).val / 2 ^ 32, (s.ec j).ntf⟩, rfl, rfl⟩
        | drop =>
          simp only [hc] at hs
          cases hk : x.key with
          | none => simp [hk] at hs
          | some k =>
            simp only [hk, Option.some.injEq] at hs
            subst hs
            refine retn (b := true) ht (y := { x with cl := P.ret x.cl true, key := none }) rfl rfl rfl hx (by simp [hc]) ?_
            simp only [hc]
            exact ⟨trivial, ⟨k, by rw [hky, hk]⟩, trivial⟩
        | wait j tm =>
          simp only [hc] at hs
          cases hk : x.key with
          | none => simp [hk] at hs
          | some k =>
            cases hlk : (s.ec j).lock with
            | some u => simp [hk, hlk] at hs
            | none =>
              simp only [hk, hlk] at hs
              split at hs
              · simp only [Option.some.injEq] at hs
                subst hs
                refine move ht (y := { cl := x.cl, ep := .wCheck j tm, key := some k }) rfl rfl rfl hk.symm ?_ (by simp [isPull]) (by simp [notIx])
                intro j' hj'; simp only [waitIx, Option.some.injEq] at hj'; subst hj'; exact ⟨tm, hc⟩
              · simp at hs
        | notify j all =>
          simp only [hc] at hs
          split at hs
          · simp only [Option.some.injEq] at hs
            subst hs
            refine retn (b := false) ht (y := { x with cl := P.ret x.cl false }) rfl rfl rfl hx (by simp [hc]) ?_
            simp only [hc]
          · simp only [Option.some.injEq] at hs
            subst hs
            refine move ht (y := { x with ep := .nLock j all }) rfl rfl rfl rfl (by simp [waitIx]) (by simp [isPull]) ?_
            intro j' hj'; simp only [notIx, Option.some.injEq] at hj'; subst hj'; exact ⟨all, hc⟩
      · unfold stepEp at hs
        cases hx : x.ep with
        | cl => simp [hx] at hs
        | asleep j tm => simp [hx] at hs
        | wCheck j tm =>
          rw [hx] at hs hC1 hep
          simp only at hs
          obtain ⟨tm0, hcall⟩ := hC1.1 j rfl
          obtain ⟨k2, hk2, hix⟩ := hE.a.wkey t _ j hep rfl
          cases hk : x.key with
          | none => simp [hk] at hs
          | some k =>
            simp only [hk] at hs
            split at hs
            · simp only [Option.some.injEq] at hs
              subst hs
              exact move ht (y := { cl := x.cl, ep := .wLink j tm, key := some k }) rfl rfl rfl hk.symm
                (by intro j' hj'; exact hC1.1 j' hj') (by simp [isPull]) (by simp [notIx])
            · simp only [Option.some.injEq] at hs
              subst hs
              refine retn (b := tm) ht (y := { cl := P.ret x.cl tm, ep := .cl, key := some k }) rfl rfl rfl rfl (by simp [hcall]) ?_
              simp only [hcall]
              exact ⟨⟨k2, hk2, hix⟩, hk.symm⟩
        | wLink j tm =>
          rw [hx] at hs hC1 hep
          simp only [Option.some.injEq] at hs
          subst hs
          exact move ht (y := { x with ep := .asleep j tm }) rfl rfl rfl rfl
                (by intro j' hj'; exact hC1.1 j' hj') (by simp [isPull]) (by simp [notIx])
        | woken j tm to =>
          rw [hx] at hs hC1 hep
          simp only at hs
          cases hlk : (s.ec j).lock with
          | some u => simp [hlk] at hs
          | none =>
            simp only [hlk, Option.some.injEq] at hs
            subst hs
            exact move ht (y := { x with ep := .wPost j tm to }) rfl rfl rfl rfl
                (by intro j' hj'; exact hC1.1 j' hj') (by simp [isPull]) (by simp [notIx])
        | wPost j tm to =>
          rw [hx] at hs hC1 hep
          simp only at hs
          obtain ⟨tm0, hcall⟩ := hC1.1 j rfl
          obtain ⟨k2, hk2, hix⟩ := hE.a.wkey t _ j hep rfl
          cases tm with
          | true =>
            simp only [if_true] at hs
            split at hs
            · simp only [Option.some.injEq] at hs
              subst hs
              exact move ht (y := { x with ep := .wPull j true false }) rfl rfl rfl rfl
                (by intro j' hj'; exact hC1.1 j' hj') (fun _ => ⟨j, tm0, hcall⟩) (by simp [notIx])
            · simp only [Option.some.injEq] at hs
              subst hs
              exact move ht (y := { x with ep := .wPull j to true }) rfl rfl rfl rfl
                (by intro j' hj'; exact hC1.1 j' hj') (fun _ => ⟨j, tm0, hcall⟩) (by simp [notIx])
          | false =>
            simp only [Bool.false_eq_true, if_false, Option.some.injEq] at hs
            subst hs
            refine retn (b := true) ht (y := { x with ep := .cl, cl := P.ret x.cl true }) rfl rfl rfl rfl (by simp [hcall]) ?_
            simp only [hcall]
            exact ⟨⟨k2, hk2, hix⟩, trivial⟩
        | wPull j to clr =>
          rw [hx] at hs hC1 hep
          simp only at hs
          obtain ⟨tm0, hcall⟩ := hC1.1 j rfl
          obtain ⟨k2, hk2, hix⟩ := hE.a.wkey t _ j hep rfl
          have fin : ∀ (t' : Nat → Bool) (b' : Bool),
              ClientStep P s { s.put t { x with ep := .cl, cl := P.ret x.cl (!to) } with tok := t', bad := b' } ∧
              CInv P { s.put t { x with ep := .cl, cl := P.ret x.cl (!to) } with tok := t', bad := b' } := by
            intro t' b'
            refine retn (b := !to) ht (y := { x with ep := .cl, cl := P.ret x.cl (!to) }) rfl rfl rfl rfl (by simp [hcall]) ?_
            simp only [hcall]
            exact ⟨⟨k2, hk2, hix⟩, trivial⟩
          cases clr with
          | true =>
            simp only [if_true, Option.some.injEq] at hs
            subst hs
            exact fin _ _
          | false =>
            simp only [Bool.false_eq_true, if_false, Option.some.injEq] at hs
            subst hs
            exact fin _ _
        | nLock j all =>
          rw [hx] at hs hC1 hep
          simp only at hs
          cases hlk : (s.ec j).lock with
          | some u => simp [hlk] at hs
          | none =>
            simp only [hlk, Option.some.injEq] at hs
            subst hs
            exact move ht (y := { x with ep := .nLoop j all false }) rfl rfl rfl rfl
                (by simp [waitIx]) (by simp [isPull]) (by intro j' hj'; exact hC1.2.2 j' hj')
        | nLoop j all any =>
          rw [hx] at hs hC1 hep
          simp only at hs
          obtain ⟨all0, hcall⟩ := hC1.2.2 j rfl
          cases hq : (s.ec j).queue with
          | nil =>
            simp only [hq, Option.some.injEq] at hs
            subst hs
            refine retn (b := any) ht (y := { x with ep := .cl, cl := P.ret x.cl any }) rfl rfl rfl rfl (by simp [hcall]) ?_
            simp only [hcall]
          | cons w q =>
            simp only [hq, Option.some.injEq] at hs
            subst hs
            exact move ht (y := { x with ep := .nAct j all w }) rfl rfl rfl rfl
                (by simp [waitIx]) (by simp [isPull]) (by intro j' hj'; exact hC1.2.2 j' hj')
        | nAct j all w =>
          rw [hx] at hs hC1 hep
          simp only [Option.some.injEq] at hs
          subst hs
          obtain ⟨all0, hcall⟩ := hC1.2.2 j rfl
          obtain ⟨a1, a2, a3⟩ := hE.a.act t j all w hep
          have hwt : w ≠ t := by rintro rfl; rw [hep] at a3; simp at a3
          rcases a3 with ⟨tm, hw⟩ | hw
          · obtain ⟨z, hz, hze⟩ : ∃ z, s.th[w]? = some z ∧ z.ep = .asleep j tm := by
              simp only [State.ep, Option.map_eq_some_iff] at hw; exact hw
            have e1 : s.activate w = s.put w { z with ep := .woken j tm false } := by
              simp only [State.activate, hz, hze]
            rw [e1]
            have ht' : (s.put w { z with ep := .woken j tm false }).th[t]? = some x := by
              simp only [State.put]; rw [List.getElem?_set_ne hwt]; exact ht
            have hC2 : CInv P (s.put w { z with ep := .woken j tm false }) := by
              refine cset (y := { z with ep := .woken j tm false }) hz rfl ?_ (by simp [isPull]) (by simp [notIx])
              intro j' hj'; exact (hC w z hz).1 j' (by rw [hze]; exact hj')
            refine ⟨.inl ⟨rfl, ?_, ?_⟩, ?_⟩
            · rw [lcl_put ht', lcl_put hz]
              show upd (upd s.lcl w (some z.cl)) t (some x.cl) = _
              rw [← lcl_of hz, upd_self, ← lcl_of ht, upd_self]
            · rw [key_put ht', key_put hz]
              show upd (upd s.key w z.key) t x.key = _
              rw [← key_of hz, upd_self, ← key_of ht, upd_self]
            · intro u y hy
              rcases get_set hy with ⟨-, rfl⟩ | ⟨-, hy⟩
              · refine ⟨?_, ?_, ?_⟩
                · cases all <;> simp [waitIx]
                · cases all <;> simp [isPull]
                · intro j' hj'
                  have : j = j' := by cases all <;> simpa [notIx] using hj'
                  subst this; exact ⟨all0, hcall⟩
              · exact hC2 u y hy
          · obtain ⟨z, hz, hze⟩ : ∃ z, s.th[w]? = some z ∧ z.ep = .woken j true true := by
              simp only [State.ep, Option.map_eq_some_iff] at hw; exact hw
            have e1 : s.activate w = { s with tok := upd s.tok w true, bad := s.bad || s.tok w } := by
              simp only [State.activate, hz, hze]
            rw [e1]
            refine move ht (y := { x with ep := if all = true then EPc.nLoop j all true else .nDone j }) rfl rfl rfl rfl ?_ ?_ ?_
            · cases all <;> simp [waitIx]
            · cases all <;> simp [isPull]
            · intro j' hj'
              have : j = j' := by cases all <;> simpa [notIx] using hj'
              subst this; exact ⟨all0, hcall⟩
        | nDone j =>
          rw [hx] at hs hC1 hep
          simp only [Option.some.injEq] at hs
          subst hs
          obtain ⟨all0, hcall⟩ := hC1.2.2 j rfl
          refine retn (b := true) ht (y := { x with ep := .cl, cl := P.ret x.cl true }) rfl rfl rfl rfl (by simp [hcall]) ?_
          simp only [hcall]

theorem cinv_init {I : G → Prop} {J : L → Prop} {s : State G L} (h : Init I J s) : CInv P s := by
  intro t x hx
  have := (h.2.2.1 x (List.mem_of_getElem? hx)).2.1
  simp [this, waitIx, isPull, notIx]

theorem cinv_reach {I : G → Prop} {J : L → Prop} {Q : State G L → Prop} (hQ : ∀ s, Q s → s.th.length < 2 ^ 32)
    {s : State G L} (h : Reach (Init I J) (step P) Q s) : CInv P s := by
  induction h with
  | init hi _ => exact cinv_init hi
  | step hr hst _ ih => exact (step_client (einv_reach hQ hr) ih hst).2

/-- Key bookkeeping of a returning call. -/
def KeyRet (P : Client G L C) (K : Nat → Option Key) (t : Nat) (l : L) (b : Bool) (K' : Nat → Option Key) : Prop :=
  match P.call l with
  | .prep j => b = true ∧ K t = none ∧ ∃ k, k.ix = j ∧ K' = upd K t (some k)
  | .drop => b = true ∧ (∃ k, K t = some k) ∧ K' = upd K t none
  | .wait j _ => (∃ k, K t = some k ∧ k.ix = j) ∧ K' = K
  | _ => K' = K

/-- Invariants of a client program: they only have to survive client steps and returns. -/
theorem client_reach {I : G → Prop} {J : L → Prop} {Q : State G L → Prop} (hQ : ∀ s, Q s → s.th.length < 2 ^ 32)
    (R : G → (Nat → Option L) → (Nat → Option Key) → Prop)
    (hinit : ∀ s, Init I J s → Q s → R s.g s.lcl s.key)
    (hloc : ∀ g F K t l c g' l', R g F K → F t = some l → P.call l = .loc → P.loc g l t c = some (g', l') →
      R g' (upd F t (some l')) K)
    (hret : ∀ g F K K' t l b, R g F K → F t = some l → P.call l ≠ .loc → KeyRet P K t l b K' →
      R g (upd F t (some (P.ret l b))) K')
    {s : State G L} (h : Reach (Init I J) (step P) Q s) : R s.g s.lcl s.key := by
  induction h with
  | init hi hq => exact hinit _ hi hq
  | step hr hst _ ih =>
    rcases (step_client (einv_reach hQ hr) (cinv_reach hQ hr) hst).1 with ⟨h1, h2, h3⟩ | ⟨t, l, c, g', l', h1, -, h2, h3, h4, h5, h6⟩ |
      ⟨t, l, b, h1, h2, h3, h4, h5⟩
    · rw [h1, h2, h3]; exact ih
    · rw [h4, h5, h6]; exact hloc _ _ _ _ _ _ _ _ ih h1 h2 h3
    · rw [h3, h4]
      refine hret _ _ _ _ _ _ _ ih h1 h2 ?_
      unfold KeyRet
      exact h5

/-- The same with a property `D` of the client's part of the state that the executions considered satisfy throughout. -/
theorem client_reach_q {I : G → Prop} {J : L → Prop} {Q : State G L → Prop} (hQ : ∀ s, Q s → s.th.length < 2 ^ 32)
    (D : G → (Nat → Option L) → Prop) (hD : ∀ s, Q s → D s.g s.lcl)
    (R : G → (Nat → Option L) → Prop)
    (hinit : ∀ s, Init I J s → Q s → R s.g s.lcl)
    (hloc : ∀ g F t l c g' l', R g F → D g F → D g' (upd F t (some l')) → F t = some l → P.call l = .loc →
      P.loc g l t c = some (g', l') → R g' (upd F t (some l')))
    (hret : ∀ g F t l b, R g F → D g F → D g (upd F t (some (P.ret l b))) → F t = some l → P.call l ≠ .loc →
      R g (upd F t (some (P.ret l b))))
    {s : State G L} (h : Reach (Init I J) (step P) Q s) : R s.g s.lcl := by
  induction h with
  | init hi hq => exact hinit _ hi hq
  | step hr hst hq ih =>
    have hd := hD _ hr.q
    have hd' := hD _ hq
    rcases (step_client (einv_reach hQ hr) (cinv_reach hQ hr) hst).1 with ⟨h1, h2, h3⟩ | ⟨t, l, c, g', l', h1, -, h2, h3, h4, h5, h6⟩ |
      ⟨t, l, b, h1, h2, h3, h4, h5⟩
    · rw [h1, h2]; exact ih
    · rw [h4, h5] at hd' ⊢; exact hloc _ _ _ _ _ _ _ ih hd hd' h1 h2 h3
    · rw [h3, h4] at hd' ⊢; exact hret _ _ _ _ _ ih hd hd' h1 h2

/-- The client's control state determines which event count's key a thread holds. -/
structure KeyDisc (P : Client G L C) (kd : L → Option Nat) : Prop where
  loc : ∀ g l t c g' l', P.call l = .loc → P.loc g l t c = some (g', l') → kd l' = kd l
  prep : ∀ l j, P.call l = .prep j → kd (P.ret l true) = some j
  drop : ∀ l, P.call l = .drop → kd (P.ret l true) = none
  other : ∀ l b, (∃ j tm, P.call l = .wait j tm) ∨ (∃ j all, P.call l = .notify j all) → kd (P.ret l b) = kd l

theorem keydisc_reach {I : G → Prop} {J : L → Prop} {Q : State G L → Prop} (hQ : ∀ s, Q s → s.th.length < 2 ^ 32)
    {kd : L → Option Nat} (hK : KeyDisc P kd) (hJ : ∀ l, J l → kd l = none)
    {s : State G L} (h : Reach (Init I J) (step P) Q s) {t : Nat} {l : L} (hl : s.lcl t = some l) :
    (s.key t).map Key.ix = kd l := by
  refine client_reach hQ (R := fun _ F K => ∀ t l, F t = some l → (K t).map Key.ix = kd l) ?_ ?_ ?_ h t l hl
  · intro s hi _ t l hl
    simp only [State.lcl, Option.map_eq_some_iff] at hl
    obtain ⟨x, hx, rfl⟩ := hl
    have := hi.2.2.1 x (List.mem_of_getElem? hx)
    simp [State.key, hx, this.2.2, hJ _ this.1]
  · intro g F K t l c g' l' hR hF hc hs u m hm
    by_cases e : u = t
    · subst e
      simp only [upd_same, Option.some.injEq] at hm; subst hm
      rw [hK.loc _ _ _ _ _ _ hc hs]; exact hR u l hF
    · rw [upd_ne _ _ e] at hm; exact hR u m hm
  · intro g F K K' t l b hR hF hc hs u m hm
    unfold KeyRet at hs
    by_cases e : u = t
    · subst e
      simp only [upd_same, Option.some.injEq] at hm; subst hm
      cases hcl : P.call l <;> rw [hcl] at hs <;> simp only at hs
      · exact absurd hcl hc
      · obtain ⟨rfl, _, k, hk, rfl⟩ := hs
        simp [hK.prep _ _ hcl, hk]
      · obtain ⟨rfl, _, rfl⟩ := hs
        simp [hK.drop _ hcl]
      · obtain ⟨_, rfl⟩ := hs
        rw [hK.other _ _ (.inl ⟨_, _, hcl⟩)]; exact hR u l hF
      · subst hs
        rw [hK.other _ _ (.inr ⟨_, _, hcl⟩)]; exact hR u l hF
    · rw [upd_ne _ _ e] at hm
      have : K' u = K u := by
        split at hs
        · obtain ⟨_, _, _, _, rfl⟩ := hs; exact upd_ne _ _ e
        · obtain ⟨_, _, rfl⟩ := hs; exact upd_ne _ _ e
        · obtain ⟨_, rfl⟩ := hs; rfl
        · rw [hs]
      rw [this]; exact hR u m hm

/-- The kind of the notification a thread is in. -/
def notKind : EPc → Option (Nat × Bool)
  | .nLock i all => some (i, all)
  | .nLoop i all _ => some (i, all)
  | .nAct i all _ => some (i, all)
  | _ => none

def NInv (P : Client G L C) (s : State G L) : Prop :=
  ∀ (t : Nat) (x : Th L), s.th[t]? = some x → ∀ j all, notKind x.ep = some (j, all) → P.call x.cl = .notify j all

theorem ninv_step {s s' : State G L} {a : Act C} (hN : NInv P s) (hs : step P s a = some s') : NInv P s' := by
  have set : ∀ {t : Nat} {x y : Th L} {s1 : State G L}, s.th[t]? = some x → s1.th = s.th.set t y →
      (∀ j all, notKind y.ep = some (j, all) → P.call y.cl = .notify j all) → NInv P s1 := by
    intro t x y s1 ht he h1 u z hz
    rw [he] at hz
    rcases get_set hz with ⟨-, rfl⟩ | ⟨-, hz⟩
    · exact h1
    · exact hN u z hz
  cases a with
  | timer t =>
    simp only [step] at hs
    cases ht : s.th[t]? with
    | none => simp [ht] at hs
    | some x =>
      simp only [ht] at hs
      split at hs
      · rename_i j hx
        simp only [Option.some.injEq] at hs
        subst hs
        exact set ht (y := { x with ep := .woken j true true }) rfl (by simp [notKind])
      · simp at hs
  | go t c =>
    simp only [step] at hs
    cases ht : s.th[t]? with
    | none => simp [ht] at hs
    | some x =>
      have h1 := hN t x ht
      simp only [ht] at hs
      split at hs
      · rename_i hx
        unfold stepCall at hs
        repeat' split at hs
        all_goals simp only [reduceCtorEq, Option.some.injEq, Option.map_eq_some_iff] at hs
        all_goals first
          | (subst hs; refine set ht rfl ?_; simp_all [notKind]; done)
          | (obtain ⟨r, -, rfl⟩ := hs; refine set (y := { x with cl := r.2 }) ht rfl ?_; simp_all [notKind]; done)
      · cases hep : x.ep <;> rw [hep] at hs h1 <;> simp only [stepEp] at hs
        case nAct i all w =>
          simp only [Option.some.injEq] at hs
          subst hs
          intro u z hz
          simp only [State.put] at hz
          rcases get_set hz with ⟨-, rfl⟩ | ⟨-, hz⟩
          · simp only
            intro j b hb
            cases all <;> simp [notKind] at hb
            obtain ⟨rfl, rfl⟩ := hb
            exact h1 i true rfl
          · unfold State.activate at hz
            split at hz
            · rename_i y hy
              split at hz
              · simp only [State.put] at hz
                rcases get_set hz with ⟨-, rfl⟩ | ⟨-, hz⟩
                · intro j b hb; simp [notKind] at hb
                · exact hN u z hz
              · exact hN u z hz
              · exact hN u z hz
            · exact hN u z hz
        all_goals repeat' split at hs
        all_goals simp only [reduceCtorEq, Option.some.injEq] at hs
        all_goals subst hs; refine set ht rfl ?_; simp_all [notKind]

theorem ninv_reach {I : G → Prop} {J : L → Prop} {Q : State G L → Prop} {s : State G L} (h : Reach (Init I J) (step P) Q s) : NInv P s := by
  induction h with
  | init hi _ =>
    intro t x hx j all hk
    rw [(hi.2.2.1 x (List.mem_of_getElem? hx)).2.1] at hk
    simp [notKind] at hk
  | step _ hst _ ih => exact ninv_step ih hst

end Verif.EventCount
