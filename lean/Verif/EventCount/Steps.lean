import Verif.EventCount.Lemmas
namespace Verif.EventCount
open Verif.Common
variable {G L C : Type} {P : Client G L C}

theorem ep_of {s : State G L} {t : Nat} {x : Th L} (ht : s.th[t]? = some x) : s.ep t = some x.ep := by
  simp [State.ep, ht]

theorem key_of {s : State G L} {t : Nat} {x : Th L} (ht : s.th[t]? = some x) : s.key t = x.key := by
  simp [State.key, ht]

theorem upd_self {β : Type} (f : Nat → β) (i : Nat) : upd f i (f i) = f := by
  funext j; by_cases e : j = i <;> simp [upd, e]

/-- A step that changes no key and no counter. -/
theorem einv_same {s : State G L} {t : Nat} {x y : Th L} {g : G} {ec' : Nat → EC} {tok' : Nat → Bool}
    (h : EInv s) (ht : s.th[t]? = some x) (hy : y.key = x.key)
    (hv : ∀ j, (ec' j).val = (s.ec j).val ∧ (ec' j).ntf = (s.ec j).ntf)
    (ha : AInv ec' (upd s.ep t (some y.ep)) s.key tok') :
    EInv { g := g, ec := ec', th := s.th.set t y, tok := tok', bad := false } := by
  have hk : (s.put t y).key = s.key := by
    rw [key_put ht, hy, ← key_of ht]; exact upd_self _ _
  refine ⟨by simpa using h.len, ?_, ?_, ?_, rfl⟩
  · intro i
    have h1 := nkeys_put (y := y) ht i
    have h2 : hasKey i y = hasKey i x := by simp [hasKey, hy]
    have h3 := h.val i
    have h4 : State.nkeys { g := g, ec := ec', th := s.th.set t y, tok := tok', bad := false } i = (s.put t y).nkeys i := rfl
    rw [h2] at h1
    rw [h4]
    simp only [hv]
    omega
  · intro u k hu
    have hu' : (s.put t y).key u = some k := hu
    rw [hk] at hu'
    simp only [hv]
    exact h.key u k hu'
  · have e1 : State.ep { g := g, ec := ec', th := s.th.set t y, tok := tok', bad := false } = (s.put t y).ep := rfl
    have e2 : State.key { g := g, ec := ec', th := s.th.set t y, tok := tok', bad := false } = (s.put t y).key := rfl
    rw [e1, e2, hk, ep_put ht]
    exact ha

theorem einv_call {s s' : State G L} {t : Nat} {x : Th L} {c : C} (h : EInv s) (ht : s.th[t]? = some x)
    (hx : x.ep = .cl) (hs : stepCall P s t x c = some s') : EInv s' := by
  have hep : s.ep t = some .cl := by rw [ep_of ht, hx]
  have hky := key_of ht
  have hbad := h.bad
  unfold stepCall at hs
  cases hc : P.call x.cl with
  | loc =>
    simp only [hc, Option.map_eq_some_iff] at hs
    obtain ⟨r, _, rfl⟩ := hs
    simp only [State.put, hbad]
    exact einv_same h ht rfl (fun _ => ⟨rfl, rfl⟩) (by simpa [hx] using ainv_id h.a hep)
  | prep i =>
    simp only [hc] at hs
    cases hk : x.key with
    | some k => simp [hk] at hs
    | none =>
      simp only [hk, Option.some.injEq] at hs
      subst hs
      have h1 := fun j => nkeys_put (y := { x with cl := P.ret x.cl true, key := some ⟨i, (s.ec i).val / 2 ^ 32, (s.ec i).ntf⟩ }) ht j
      have h2 := h.val
      have h3 : ∀ j, (s.put t { x with cl := P.ret x.cl true, key := some ⟨i, (s.ec i).val / 2 ^ 32, (s.ec i).ntf⟩ }).nkeys j < 2 ^ 32 := by
        intro j; apply nkeys_lt; simpa [State.put] using h.len
      refine ⟨by simpa [State.put, State.setEc] using h.len, ?_, ?_, ?_, hbad⟩
      · intro j
        have h1 := h1 j
        have h3 := h3 j
        have h2 := h2 j
        simp only [hasKey, hk] at h1
        show (upd s.ec i _ j).val = (upd s.ec i _ j).ntf % _ * _ + State.nkeys (s.put t _) j
        by_cases e : j = i
        · subst e
          simp only [upd_same]
          simp only [decide_true, if_true] at h1
          simp only [Bool.false_eq_true, if_false] at h1
          rw [Nat.mod_eq_of_lt] <;> omega
        · have e' : ¬ i = j := fun c => e c.symm
          simp only [upd_ne _ _ e]
          simp only [e', decide_false, Bool.false_eq_true, if_false] at h1
          omega
      · intro u k hu
        have hu' : (s.put t { x with cl := P.ret x.cl true, key := some ⟨i, (s.ec i).val / 2 ^ 32, (s.ec i).ntf⟩ }).key u = some k := hu
        rw [key_put ht] at hu'
        show _ ∧ k.gh ≤ (upd s.ec i _ k.ix).ntf
        have hn : (upd s.ec i { s.ec i with val := ((s.ec i).val + 1) % 2 ^ 64 } k.ix).ntf = (s.ec k.ix).ntf := by
          by_cases e : k.ix = i <;> simp [upd, e]
        rw [hn]
        by_cases e : u = t
        · subst e
          simp only [upd_same, Option.some.injEq] at hu'
          subst hu'
          exact ⟨epoch_eq h i, Nat.le_refl _⟩
        · rw [upd_ne _ _ e] at hu'
          exact h.key u k hu'
      · have e1 : State.ep ((s.setEc i { s.ec i with val := ((s.ec i).val + 1) % 2 ^ 64 }).put t
            { x with cl := P.ret x.cl true, key := some ⟨i, (s.ec i).val / 2 ^ 32, (s.ec i).ntf⟩ }) = s.ep := by
          have : State.ep ((s.setEc i { s.ec i with val := ((s.ec i).val + 1) % 2 ^ 64 }).put t
            { x with cl := P.ret x.cl true, key := some ⟨i, (s.ec i).val / 2 ^ 32, (s.ec i).ntf⟩ }) = State.ep (s.put t { x with cl := P.ret x.cl true, key := some ⟨i, (s.ec i).val / 2 ^ 32, (s.ec i).ntf⟩ }) := rfl
          rw [this, ep_put ht]
          show upd s.ep t (some x.ep) = s.ep
          rw [← ep_of ht]; exact upd_self _ _
        have e2 : State.key ((s.setEc i { s.ec i with val := ((s.ec i).val + 1) % 2 ^ 64 }).put t
            { x with cl := P.ret x.cl true, key := some ⟨i, (s.ec i).val / 2 ^ 32, (s.ec i).ntf⟩ }) = upd s.key t (some ⟨i, (s.ec i).val / 2 ^ 32, (s.ec i).ntf⟩) :=
          key_put ht
        rw [e1, e2]
        exact ainv_key (ainv_val h.a) hep
  | drop =>
    simp only [hc] at hs
    cases hk : x.key with
    | none => simp [hk] at hs
    | some k =>
      simp only [hk, Option.some.injEq] at hs
      subst hs
      have h1 := fun j => nkeys_put (y := { x with cl := P.ret x.cl true, key := none }) ht j
      have h2 := h.val
      refine ⟨by simpa [State.put, State.setEc] using h.len, ?_, ?_, ?_, hbad⟩
      · intro j
        have h1 := h1 j
        have h2 := h2 j
        have h5 := nkeys_lt h.len j
        simp only [hasKey, hk] at h1
        show (upd s.ec k.ix _ j).val = (upd s.ec k.ix _ j).ntf % _ * _ + State.nkeys (s.put t _) j
        by_cases e : j = k.ix
        · subst e
          simp only [upd_same]
          simp only [decide_true, if_true] at h1
          simp only [Bool.false_eq_true, if_false] at h1
          omega
        · have e' : ¬ k.ix = j := fun c => e c.symm
          simp only [upd_ne _ _ e]
          simp only [e', decide_false, Bool.false_eq_true, if_false] at h1
          omega
      · intro u k' hu
        have hu' : (s.put t { x with cl := P.ret x.cl true, key := none }).key u = some k' := hu
        rw [key_put ht] at hu'
        show _ ∧ k'.gh ≤ (upd s.ec k.ix _ k'.ix).ntf
        have hn : (upd s.ec k.ix { s.ec k.ix with val := ((s.ec k.ix).val + (2 ^ 64 - 1)) % 2 ^ 64 } k'.ix).ntf = (s.ec k'.ix).ntf := by
          by_cases e : k'.ix = k.ix <;> simp [upd, e]
        rw [hn]
        by_cases e : u = t
        · subst e
          simp only [upd_same, reduceCtorEq] at hu'
        · rw [upd_ne _ _ e] at hu'
          exact h.key u k' hu'
      · have e1 : State.ep ((s.setEc k.ix { s.ec k.ix with val := ((s.ec k.ix).val + (2 ^ 64 - 1)) % 2 ^ 64 }).put t
            { x with cl := P.ret x.cl true, key := none }) = s.ep := by
          have : State.ep ((s.setEc k.ix { s.ec k.ix with val := ((s.ec k.ix).val + (2 ^ 64 - 1)) % 2 ^ 64 }).put t
            { x with cl := P.ret x.cl true, key := none }) = State.ep (s.put t { x with cl := P.ret x.cl true, key := none }) := rfl
          rw [this, ep_put ht]
          show upd s.ep t (some x.ep) = s.ep
          rw [← ep_of ht]; exact upd_self _ _
        have e2 : State.key ((s.setEc k.ix { s.ec k.ix with val := ((s.ec k.ix).val + (2 ^ 64 - 1)) % 2 ^ 64 }).put t
            { x with cl := P.ret x.cl true, key := none }) = upd s.key t none :=
          key_put ht
        rw [e1, e2]
        exact ainv_key (ainv_val h.a) hep
  | wait i tm =>
    simp only [hc] at hs
    cases hk : x.key with
    | none => simp [hk] at hs
    | some k =>
      cases hl : (s.ec i).lock with
      | some u => simp [hk, hl] at hs
      | none =>
        simp only [hk, hl] at hs
        split at hs
        · rename_i hix
          simp only [Option.some.injEq] at hs
          subst hs
          have htok : s.tok t = false := by
            cases htt : s.tok t with
            | false => rfl
            | true => exfalso; have := h.a.tok t htt; rw [hep] at this; simp at this
          simp only [State.put, State.setEc, hbad, htok, Bool.and_false, Bool.or_false]
          exact einv_same h ht (y := { cl := x.cl, ep := .wCheck i tm, key := some k }) hk.symm
            (fun j => by by_cases e : j = i <;> simp [upd, e])
            (ainv_lock h.a hep hl (.inl ⟨rfl, ⟨tm, rfl⟩, k, by rw [hky, hk], hix⟩))
        · simp at hs
  | notify i all =>
    simp only [hc] at hs
    have hval : ∀ (y : Th L), y.key = x.key → (p : y.ep = .cl ∨ ∃ i all, y.ep = .nLock i all) →
        EInv ((s.setEc i { s.ec i with val := ((s.ec i).val + 2 ^ 32) % 2 ^ 64, ntf := (s.ec i).ntf + 1 }).put t y) := by
      intro y hy hp
      refine ⟨by simpa [State.put, State.setEc] using h.len, ?_, ?_, ?_, hbad⟩
      · intro j
        have h1 := nkeys_put (y := y) ht j
        have h2 : hasKey j y = hasKey j x := by simp [hasKey, hy]
        have h3 := h.val j
        have h5 := nkeys_lt h.len j
        rw [h2] at h1
        show (upd s.ec i _ j).val = (upd s.ec i _ j).ntf % _ * _ + State.nkeys (s.put t _) j
        by_cases e : j = i
        · subst e
          simp only [upd_same]
          omega
        · simp only [upd_ne _ _ e]
          omega
      · intro u k hu
        have hu' : (s.put t y).key u = some k := hu
        rw [key_put ht, hy, ← hky, upd_self] at hu'
        have := h.key u k hu'
        refine ⟨this.1, ?_⟩
        show k.gh ≤ (upd s.ec i _ k.ix).ntf
        by_cases e : k.ix = i
        · subst e; simp only [upd_same]; omega
        · simp only [upd_ne _ _ e]; exact this.2
      · have e1 : State.ep ((s.setEc i { s.ec i with val := ((s.ec i).val + 2 ^ 32) % 2 ^ 64, ntf := (s.ec i).ntf + 1 }).put t y)
            = upd s.ep t (some y.ep) := ep_put ht
        have e2 : State.key ((s.setEc i { s.ec i with val := ((s.ec i).val + 2 ^ 32) % 2 ^ 64, ntf := (s.ec i).ntf + 1 }).put t y)
            = s.key := by
          have : State.key ((s.setEc i { s.ec i with val := ((s.ec i).val + 2 ^ 32) % 2 ^ 64, ntf := (s.ec i).ntf + 1 }).put t y) = upd s.key t y.key := key_put ht
          rw [this, hy, ← hky, upd_self]
        rw [e1, e2]
        exact ainv_plain (ainv_val h.a) hep (.inl rfl) hp
    split at hs
    · simp only [Option.some.injEq] at hs
      subst hs
      exact hval _ rfl (.inl hx)
    · simp only [Option.some.injEq] at hs
      subst hs
      exact hval _ rfl (.inr ⟨i, all, rfl⟩)

theorem einv_ep {s s' : State G L} {t : Nat} {x : Th L} (h : EInv s) (ht : s.th[t]? = some x)
    (hs : stepEp P s t x x.ep = some s') : EInv s' := by
  have hep := ep_of ht
  have hky := key_of ht
  have hbad := h.bad
  unfold stepEp at hs
  cases hx : x.ep with
  | cl => simp [hx] at hs
  | asleep i tm => simp [hx] at hs
  | wCheck i tm =>
    rw [hx] at hs hep
    simp only at hs
    cases hk : x.key with
    | none => simp [hk] at hs
    | some k =>
      simp only [hk] at hs
      split at hs
      · simp only [Option.some.injEq] at hs
        subst hs
        simp only [State.put, hbad]
        exact einv_same h ht (y := { cl := x.cl, ep := .wLink i tm, key := some k }) hk.symm (fun _ => ⟨rfl, rfl⟩) (ainv_match h.a hep)
      · simp only [Option.some.injEq] at hs
        subst hs
        simp only [State.put, State.setEc, hbad]
        exact einv_same h ht (y := { cl := P.ret x.cl tm, ep := .cl, key := some k }) hk.symm
          (fun j => by by_cases e : j = i <;> simp [upd, e]) (ainv_unlock h.a hep (.inl ⟨tm, rfl⟩))
  | wLink i tm =>
    rw [hx] at hs hep
    simp only [Option.some.injEq] at hs
    subst hs
    simp only [State.put, State.setEc, hbad]
    exact einv_same h ht (y := { x with ep := .asleep i tm }) rfl
      (fun j => by by_cases e : j = i <;> simp [upd, e]) (ainv_link h.a hep)
  | woken i tm to =>
    rw [hx] at hs hep
    simp only at hs
    cases hl : (s.ec i).lock with
    | some u => simp [hl] at hs
    | none =>
      simp only [hl, Option.some.injEq] at hs
      subst hs
      simp only [State.put, State.setEc, hbad]
      exact einv_same h ht (y := { x with ep := .wPost i tm to }) rfl
        (fun j => by by_cases e : j = i <;> simp [upd, e]) (ainv_lock h.a hep hl (.inr (.inl ⟨tm, to, rfl, rfl⟩)))
  | wPost i tm to =>
    rw [hx] at hs hep
    simp only at hs
    cases tm with
    | true =>
      simp only [if_true] at hs
      split at hs
      · rename_i hm
        simp only [Option.some.injEq] at hs
        subst hs
        simp only [State.put, State.setEc, hbad]
        exact einv_same h ht (y := { x with ep := .wPull i true false }) rfl
          (fun j => by by_cases e : j = i <;> simp [upd, e]) (ainv_unlink h.a hep hm)
      · rename_i hm
        simp only [Option.some.injEq] at hs
        subst hs
        simp only [State.put, State.setEc, hbad]
        exact einv_same h ht (y := { x with ep := .wPull i to true }) rfl
          (fun j => by by_cases e : j = i <;> simp [upd, e]) (ainv_post h.a hep hm)
    | false =>
      simp only [Bool.false_eq_true, if_false, Option.some.injEq] at hs
      subst hs
      simp only [State.put, State.setEc, hbad]
      exact einv_same h ht (y := { x with ep := .cl, cl := P.ret x.cl true }) rfl
        (fun j => by by_cases e : j = i <;> simp [upd, e]) (ainv_unlock h.a hep (.inr (.inl ⟨to, rfl⟩)))
  | wPull i to clr =>
    rw [hx] at hs hep
    simp only at hs
    cases clr with
    | true =>
      simp only [if_true, Option.some.injEq] at hs
      subst hs
      simp only [State.put, hbad]
      exact einv_same h ht (y := { x with ep := .cl, cl := P.ret x.cl (!to) }) rfl (fun _ => ⟨rfl, rfl⟩) (ainv_pull h.a hep)
    | false =>
      simp only [Bool.false_eq_true, if_false, Option.some.injEq] at hs
      subst hs
      have htok : s.tok t = false := by
        cases htt : s.tok t with
        | false => rfl
        | true => exfalso; have := h.a.tok t htt; rw [hep] at this; simp at this
      simp only [State.put, hbad, htok, Bool.or_false]
      exact einv_same h ht (y := { x with ep := .cl, cl := P.ret x.cl (!to) }) rfl (fun _ => ⟨rfl, rfl⟩) (ainv_pull2 h.a hep)
  | nLock i all =>
    rw [hx] at hs hep
    simp only at hs
    cases hl : (s.ec i).lock with
    | some u => simp [hl] at hs
    | none =>
      simp only [hl, Option.some.injEq] at hs
      subst hs
      simp only [State.put, State.setEc, hbad]
      exact einv_same h ht (y := { x with ep := .nLoop i all false }) rfl
        (fun j => by by_cases e : j = i <;> simp [upd, e]) (ainv_lock h.a hep hl (.inr (.inr ⟨all, rfl, rfl⟩)))
  | nLoop i all any =>
    rw [hx] at hs hep
    simp only at hs
    cases hq : (s.ec i).queue with
    | nil =>
      simp only [hq, Option.some.injEq] at hs
      subst hs
      simp only [State.put, State.setEc, hbad]
      have := ainv_unlock h.a hep (.inr (.inr (.inl ⟨all, any, rfl⟩)))
      simp only [hq] at this
      exact einv_same h ht (y := { x with ep := .cl, cl := P.ret x.cl any }) rfl
        (fun j => by by_cases e : j = i <;> simp [upd, e]) this
    | cons w q =>
      simp only [hq, Option.some.injEq] at hs
      subst hs
      simp only [State.put, State.setEc, hbad]
      exact einv_same h ht (y := { x with ep := .nAct i all w }) rfl
        (fun j => by by_cases e : j = i <;> simp [upd, e]) (ainv_pop h.a hep hq)
  | nAct i all w =>
    rw [hx] at hs hep
    simp only [Option.some.injEq] at hs
    subst hs
    obtain ⟨a1, a2, a3⟩ := h.a.act t i all w hep
    have hwt : w ≠ t := by rintro rfl; rw [hep] at a3; simp at a3
    have hp : (if all = true then EPc.nLoop i all true else EPc.nDone i) = .nLoop i all true ∨
        (if all = true then EPc.nLoop i all true else EPc.nDone i) = .nDone i := by cases all <;> simp
    rcases a3 with ⟨tm, hw⟩ | hw
    · obtain ⟨z, hz, hze⟩ : ∃ z, s.th[w]? = some z ∧ z.ep = .asleep i tm := by
        simp only [State.ep, Option.map_eq_some_iff] at hw; exact hw
      have e1 : s.activate w = s.put w { z with ep := .woken i tm false } := by
        simp only [State.activate, hz, hze]
      rw [e1]
      have hb : (s.put w { z with ep := .woken i tm false }).bad = false := hbad
      have ht' : (s.put w { z with ep := .woken i tm false }).th[t]? = some x := by
        simp only [State.put]; rw [List.getElem?_set_ne hwt]; exact ht
      -- both updates at once
      refine ⟨by simpa [State.put] using h.len, ?_, ?_, ?_, hbad⟩
      · intro j
        have n1 := nkeys_put (y := { x with ep := if all = true then EPc.nLoop i all true else .nDone i }) ht' j
        have n2 := nkeys_put (y := { z with ep := .woken i tm false }) hz j
        have e1 : hasKey j { x with ep := if all = true then EPc.nLoop i all true else .nDone i } = hasKey j x := rfl
        have e2 : hasKey j { z with ep := .woken i tm false } = hasKey j z := rfl
        rw [e1] at n1
        rw [e2] at n2
        have := h.val j
        show (s.ec j).val = (s.ec j).ntf % _ * _ + _
        omega
      · intro u k hu
        rw [key_put ht'] at hu
        rw [key_put hz] at hu
        show _ ∧ k.gh ≤ (s.ec k.ix).ntf
        have e : upd (upd s.key w z.key) t x.key = s.key := by
          rw [← key_of hz, upd_self, ← hky, upd_self]
        have hu' : upd (upd s.key w z.key) t x.key u = some k := hu
        rw [e] at hu'
        exact h.key u k hu'
      · rw [key_put ht', key_put hz, ep_put ht', ep_put hz]
        have e : upd (upd s.key w z.key) t x.key = s.key := by
          rw [← key_of hz, upd_self, ← hky, upd_self]
        show AInv s.ec _ (upd (upd s.key w z.key) t x.key) s.tok
        rw [e]
        exact ainv_act1 h.a hep hw hp
    · obtain ⟨z, hz, hze⟩ : ∃ z, s.th[w]? = some z ∧ z.ep = .woken i true true := by
        simp only [State.ep, Option.map_eq_some_iff] at hw; exact hw
      have e1 : s.activate w = { s with tok := upd s.tok w true, bad := false } := by
        simp only [State.activate, hz, hze, hbad, a2, Bool.or_false]
      rw [e1]
      simp only [State.put]
      exact einv_same h ht (y := { x with ep := if all = true then EPc.nLoop i all true else .nDone i }) rfl
        (fun _ => ⟨rfl, rfl⟩) (ainv_act2 h.a hep hw hp)
  | nDone i =>
    rw [hx] at hs hep
    simp only [Option.some.injEq] at hs
    subst hs
    simp only [State.put, State.setEc, hbad]
    exact einv_same h ht (y := { x with ep := .cl, cl := P.ret x.cl true }) rfl
      (fun j => by by_cases e : j = i <;> simp [upd, e]) (ainv_unlock h.a hep (.inr (.inr (.inr rfl))))

theorem einv_step {s s' : State G L} {a : Act C} (h : EInv s) (hs : step P s a = some s') : EInv s' := by
  cases a with
  | go t c =>
    simp only [step] at hs
    cases ht : s.th[t]? with
    | none => simp [ht] at hs
    | some x =>
      simp only [ht] at hs
      split at hs
      · rename_i hx; exact einv_call h ht hx hs
      · exact einv_ep h ht hs
  | timer t =>
    simp only [step] at hs
    cases ht : s.th[t]? with
    | none => simp [ht] at hs
    | some x =>
      simp only [ht] at hs
      split at hs
      · rename_i i hx
        simp only [Option.some.injEq] at hs
        subst hs
        have hbad := h.bad
        simp only [State.put, hbad]
        exact einv_same h ht (y := { x with ep := .woken i true true }) rfl (fun _ => ⟨rfl, rfl⟩)
          (ainv_timer h.a (by rw [ep_of ht, hx]))
      · simp at hs

theorem einv_init {I : G → Prop} {J : L → Prop} {s : State G L} (h : Init I J s) (hl : s.th.length < 2 ^ 32) : EInv s := by
  obtain ⟨_, hec, hth, htok, hbad⟩ := h
  have he : ∀ t p, s.ep t = some p → p = .cl := by
    intro t p hp
    simp only [State.ep, Option.map_eq_some_iff] at hp
    obtain ⟨x, hx, rfl⟩ := hp
    exact (hth x (List.mem_of_getElem? hx)).2.1
  have hk : ∀ t k, s.key t ≠ some k := by
    intro t k hp
    simp only [State.key, Option.bind_eq_some_iff] at hp
    obtain ⟨x, hx, hp⟩ := hp
    rw [(hth x (List.mem_of_getElem? hx)).2.2] at hp
    simp at hp
  refine ⟨hl, ?_, ?_, ?_, hbad⟩
  · intro i
    have : s.nkeys i = 0 := by
      simp only [State.nkeys, List.countP_eq_zero]
      intro x hx
      simp [hasKey, (hth x hx).2.2]
    simp [hec, this]
  · intro t k h; exact absurd h (hk t k)
  · constructor
    · intro t p i hp hw; have := he t p hp; subst this; simp [waitIx] at hw
    · intro t p i hp hw; have := he t p hp; subst this; simp [holdsLock] at hw
    · intro i t h; simp [hec] at h
    · intro i; simp [hec]
    · intro i t h; simp [hec] at h
    · intro t i tm h; have := he _ _ h; simp at this
    · intro t i al w h; have := he _ _ h; simp at this
    · intro t h; simp [htok] at h

theorem step_length {s s' : State G L} {a : Act C} (hs : step P s a = some s') : s'.th.length = s.th.length := by
  have act : ∀ (s : State G L) w, (s.activate w).th.length = s.th.length := by
    intro s w; simp only [State.activate]; split <;> (try split) <;> simp [State.put]
  cases a with
  | go t c =>
    simp only [step] at hs
    cases ht : s.th[t]? with
    | none => simp [ht] at hs
    | some x =>
      simp only [ht] at hs
      split at hs
      · unfold stepCall at hs
        repeat' split at hs
        all_goals first
          | simp at hs; done
          | (simp only [Option.map_eq_some_iff] at hs; obtain ⟨r, _, rfl⟩ := hs; simp [State.put]; done)
          | (simp only [Option.some.injEq] at hs; subst hs; simp [State.put, State.setEc]; done)
      · unfold stepEp at hs
        repeat' split at hs
        all_goals first
          | simp at hs; done
          | (simp only [Option.some.injEq] at hs; subst hs; simp [State.put, State.setEc, act]; done)
  | timer t =>
    simp only [step] at hs
    repeat' split at hs
    all_goals first
      | simp at hs; done
      | (simp only [Option.some.injEq] at hs; subst hs; simp [State.put]; done)

theorem einv_reach {I : G → Prop} {J : L → Prop} {Q : State G L → Prop} (hQ : ∀ s, Q s → s.th.length < 2 ^ 32)
    {s : State G L} (h : Reach (Init I J) (step P) Q s) : EInv s :=
  h.invariant EInv (fun _ hi hq => einv_init hi (hQ _ hq)) (fun _ _ _ hI _ hs _ => einv_step hI hs)

end Verif.EventCount
