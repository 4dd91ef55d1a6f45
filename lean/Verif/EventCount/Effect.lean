import Verif.EventCount.Client
/-!
What one step of the event count machine does, in terms of what each thread is doing, its key and its client state.
-/
namespace Verif.EventCount
open Verif.Common
variable {G L C : Type} {P : Client G L C}

inductive Eff (P : Client G L C) (s s' : State G L) : Prop
  | loc (t : Nat) (l : L) (c : C) (l' : L) : s.ep t = some .cl → s.lcl t = some l → P.call l = .loc → P.loc s.g l t c = some (s'.g, l') →
      s'.ep = s.ep → s'.key = s.key → s'.lcl = upd s.lcl t (some l') → (∀ j, (s'.ec j).ntf = (s.ec j).ntf) → Eff P s s'
  | ret (t : Nat) (l : L) (b : Bool) (p : EPc) : s.ep t = some p → s.lcl t = some l → P.call l ≠ .loc → s'.g = s.g → s'.ep = upd s.ep t (some .cl) →
      s'.lcl = upd s.lcl t (some (P.ret l b)) → (∀ u, u ≠ t → s'.key u = s.key u) →
      (s'.key t = s.key t ∨ (∃ j, P.call l = .prep j) ∨ P.call l = .drop) →
      ((∀ j, (s'.ec j).ntf = (s.ec j).ntf) ∨ ∃ i all, P.call l = .notify i all ∧ p = .cl ∧ ∀ j, (s'.ec j).ntf = if j = i then (s.ec i).ntf + 1 else (s.ec j).ntf) →
      (∀ i all, P.call l = .notify i all → s.nkeys i = 0 ∨ p = .nDone i ∨ (∃ a' any, p = .nLoop i a' any ∧ (s.ec i).queue = [])) → Eff P s s'
  | ntf (t : Nat) (l : L) (i : Nat) (all : Bool) : s.ep t = some .cl → s.lcl t = some l → P.call l = .notify i all → s'.g = s.g → s'.ep = upd s.ep t (some (.nLock i all)) →
      s'.lcl = s.lcl → s'.key = s.key → (∀ j, (s'.ec j).ntf = if j = i then (s.ec i).ntf + 1 else (s.ec j).ntf) → Eff P s s'
  | move (t : Nat) (p p' : EPc) : s.ep t = some p → s'.g = s.g → s'.ep = upd s.ep t (some p') → s'.lcl = s.lcl → s'.key = s.key → (∀ j, (s'.ec j).ntf = (s.ec j).ntf) →
      (∀ i tm, p' = .asleep i tm → p = .wLink i tm) → (∀ i, p' ≠ .nDone i) → p' ≠ .cl → (∀ i all, p = .nLock i all → (s.ec i).lock = none) →
      (∀ i tm, p' = .wLink i tm → ∃ k, s.key t = some k ∧ k.ix = i ∧ k.ep32 = (s.ec i).val / 2 ^ 32) →
      (p = .cl → ∃ l i tm, s.lcl t = some l ∧ P.call l = .wait i tm) → Eff P s s'
  | act (t i w : Nat) (all : Bool) (p' : EPc) (q : Option EPc) : s.ep t = some (.nAct i all w) → t ≠ w → ((∃ tm, s.ep w = some (.asleep i tm)) ∨ s.ep w = some (.woken i true true)) → s'.g = s.g → s'.ep = upd (upd s.ep w q) t (some p') → s'.lcl = s.lcl → s'.key = s.key →
      (∀ j, (s'.ec j).ntf = (s.ec j).ntf) → (∀ j tm, q ≠ some (.asleep j tm)) → (∃ to tm, q = some (.woken i tm to)) → (p' = .nLoop i all true ∨ p' = .nDone i) → Eff P s s'

theorem step_eff {s s' : State G L} {a : Act C} (hE : EInv s) (hC : CInv P s) (hs : step P s a = some s') : Eff P s s' := by
  have E1 : ∀ {t : Nat} {x y : Th L} {s1 : State G L}, s.th[t]? = some x → s1.th = s.th.set t y →
      s1.ep = upd s.ep t (some y.ep) ∧ s1.lcl = upd s.lcl t (some y.cl) ∧ s1.key = upd s.key t y.key := by
    intro t x y s1 ht he
    have e0 : s1.ep = (s.put t y).ep := by unfold State.ep State.put; rw [he]
    have e1 : s1.lcl = (s.put t y).lcl := by unfold State.lcl State.put; rw [he]
    have e2 : s1.key = (s.put t y).key := by unfold State.key State.put; rw [he]
    exact ⟨by rw [e0, ep_put ht], by rw [e1, lcl_put ht], by rw [e2, key_put ht]⟩
  cases a with
  | timer t =>
    simp only [step] at hs
    cases ht : s.th[t]? with
    | none => simp [ht] at hs
    | some x =>
      simp only [ht] at hs
      split at hs
      · rename_i j hx
        simp only [Option.some.injEq] at hs
        subst hs
        obtain ⟨e1, e2, e3⟩ := E1 (y := { x with ep := .woken j true true }) (s1 := s.put t { x with ep := .woken j true true }) ht rfl
        refine .move t _ _ (ep_of ht) rfl e1 ?_ ?_ (fun _ => rfl) (by simp) (by simp) (by simp) (by simp [hx]) (by simp) (by simp [hx])
        · rw [e2, ← lcl_of ht, upd_self]
        · rw [e3]; show upd s.key t x.key = _; rw [← key_of ht, upd_self]
      · simp at hs
  | go t c =>
    simp only [step] at hs
    cases ht : s.th[t]? with
    | none => simp [ht] at hs
    | some x =>
      have hlt := lcl_of ht
      have hkt := key_of ht
      have het := ep_of ht
      simp only [ht] at hs
      split at hs
      · rename_i hx
        rw [hx] at het
        unfold stepCall at hs
        cases hc : P.call x.cl with
        | loc =>
          simp only [hc, Option.map_eq_some_iff] at hs
          obtain ⟨⟨g', l'⟩, hs, rfl⟩ := hs
          obtain ⟨e1, e2, e3⟩ := E1 (y := { x with cl := l' }) (s1 := { s.put t { x with cl := l' } with g := g' }) ht rfl
          refine .loc t x.cl c l' het hlt hc hs ?_ ?_ e2 (fun _ => rfl)
          · rw [e1]; show upd s.ep t (some x.ep) = _; rw [hx, ← het, upd_self]
          · rw [e3]; show upd s.key t x.key = _; rw [← hkt, upd_self]
        | prep i =>
          simp only [hc] at hs
          cases hk : x.key with
          | some k => simp [hk] at hs
          | none =>
            simp only [hk, Option.some.injEq] at hs
            subst hs
            obtain ⟨e1, e2, e3⟩ := E1 (y := { x with cl := P.ret x.cl true, key := some ⟨i, (s.ec i).val / 2 ^ 32, (s.ec i).ntf⟩ }) (s1 := (s.setEc i { s.ec i with val := ((s.ec i).val + 1) % 2 ^ 64 }).put t
              { x with cl := P.ret x.cl true, key := some ⟨i, (s.ec i).val / 2 ^ 32, (s.ec i).ntf⟩ }) ht rfl
            refine .ret t x.cl true .cl het hlt (by simp [hc]) rfl (by rw [e1]; simp [hx]) e2 (fun u hu => by rw [e3]; simp [upd_apply, hu]) (.inr (.inl ⟨i, hc⟩)) (.inl ?_) (by simp [hc])
            intro j; by_cases hj : j = i <;> simp [State.put, State.setEc, upd_apply, hj]
        | drop =>
          simp only [hc] at hs
          cases hk : x.key with
          | none => simp [hk] at hs
          | some k =>
            simp only [hk, Option.some.injEq] at hs
            subst hs
            obtain ⟨e1, e2, e3⟩ := E1 (y := { x with cl := P.ret x.cl true, key := none }) (s1 := (s.setEc k.ix { s.ec k.ix with val := ((s.ec k.ix).val + (2 ^ 64 - 1)) % 2 ^ 64 }).put t
              { x with cl := P.ret x.cl true, key := none }) ht rfl
            refine .ret t x.cl true .cl het hlt (by simp [hc]) rfl (by rw [e1]; simp [hx]) e2 (fun u hu => by rw [e3]; simp [upd_apply, hu]) (.inr (.inr hc)) (.inl ?_) (by simp [hc])
            intro j; by_cases hj : j = k.ix <;> simp [State.put, State.setEc, upd_apply, hj]
        | wait i tm =>
          simp only [hc] at hs
          split at hs
          · split at hs
            · simp only [Option.some.injEq] at hs
              subst hs
              obtain ⟨e1, e2, e3⟩ := E1 (y := { x with ep := .wCheck i tm }) (s1 := { (s.setEc i { s.ec i with lock := some t }).put t { x with ep := .wCheck i tm } with
                 bad := s.bad || (tm && s.tok t) }) ht rfl
              refine .move t .cl _ het rfl e1 ?_ ?_ ?_ (by simp) (by simp) (by simp) (by simp) (by simp) (fun _ => ⟨x.cl, i, tm, hlt, hc⟩)
              · rw [e2, ← hlt, upd_self]
              · rw [e3]; show upd s.key t x.key = _; rw [← hkt, upd_self]
              · intro j; by_cases hj : j = i <;> simp [State.put, State.setEc, upd_apply, hj]
            · simp at hs
          · simp at hs
        | notify i all =>
          simp only [hc] at hs
          have hw := waiters_eq hE i
          split at hs
          · rename_i h0
            simp only [Option.some.injEq] at hs
            subst hs
            obtain ⟨e1, e2, e3⟩ := E1 (y := { x with cl := P.ret x.cl false }) (s1 := (s.setEc i { s.ec i with val := ((s.ec i).val + 2 ^ 32) % 2 ^ 64, ntf := (s.ec i).ntf + 1 }).put t { x with cl := P.ret x.cl false }) ht rfl
            refine .ret t x.cl false .cl het hlt (by simp [hc]) rfl (by rw [e1]; simp [hx]) e2 (fun u hu => by rw [e3]; simp [upd_apply, hu]) (.inl ?_) (.inr ⟨i, all, hc, rfl, ?_⟩) ?_
            · rw [e3]; simp [hkt]
            · intro j; by_cases hj : j = i <;> simp [State.put, State.setEc, upd_apply, hj]
            · intro i' all' h
              rw [hc] at h; cases h
              left; rw [← hw]; exact h0
          · simp only [Option.some.injEq] at hs
            subst hs
            obtain ⟨e1, e2, e3⟩ := E1 (y := { x with ep := .nLock i all }) (s1 := (s.setEc i { s.ec i with val := ((s.ec i).val + 2 ^ 32) % 2 ^ 64, ntf := (s.ec i).ntf + 1 }).put t { x with ep := .nLock i all }) ht rfl
            refine .ntf t x.cl i all het hlt hc rfl e1 ?_ ?_ ?_
            · rw [e2, ← hlt, upd_self]
            · rw [e3]; show upd s.key t x.key = _; rw [← hkt, upd_self]
            · intro j; by_cases hj : j = i <;> simp [State.put, State.setEc, upd_apply, hj]
      · have hC1 := hC t x ht
        have retn : ∀ {p : EPc} (b : Bool) {s1 : State G L} {ec' : Nat → EC}, x.ep = p → P.call x.cl ≠ .loc → s1.g = s.g → s1.ec = ec' → (∀ j, (ec' j).ntf = (s.ec j).ntf) →
            s1.th = s.th.set t { x with ep := .cl, cl := P.ret x.cl b } →
            (∀ i all, P.call x.cl = .notify i all → s.nkeys i = 0 ∨ p = .nDone i ∨ (∃ a' any, p = .nLoop i a' any ∧ (s.ec i).queue = [])) → Eff P s s1 := by
          intro p b s1 ec' hp hcl hg hec hn hth hno
          obtain ⟨e1, e2, e3⟩ := E1 ht hth
          refine .ret t x.cl b p (by rw [het, hp]) hlt hcl hg e1 e2 (fun u hu => by rw [e3]; simp [upd_apply, hu]) (.inl (by rw [e3]; simp [hkt])) (.inl fun j => by rw [hec, hn]) hno
        have movn : ∀ {p : EPc} (p' : EPc) {s1 : State G L}, x.ep = p → s1.g = s.g → (∀ j, (s1.ec j).ntf = (s.ec j).ntf) → s1.th = s.th.set t { x with ep := p' } →
            (∀ i tm, p' = .asleep i tm → p = .wLink i tm) → (∀ i, p' ≠ .nDone i) → p' ≠ .cl → (∀ i all, p = .nLock i all → (s.ec i).lock = none) →
            (∀ i tm, p' = .wLink i tm → ∃ k, s.key t = some k ∧ k.ix = i ∧ k.ep32 = (s.ec i).val / 2 ^ 32) → Eff P s s1 := by
          intro p p' s1 hp hg hn hth h1 h2 h3 h4 h5
          obtain ⟨e1, e2, e3⟩ := E1 ht hth
          refine .move t p p' (by rw [het, hp]) hg e1 ?_ ?_ hn h1 h2 h3 h4 h5 (fun h => absurd (hp.trans h) (by assumption))
          · rw [e2, ← hlt, upd_self]
          · rw [e3]; show upd s.key t x.key = _; rw [← hkt, upd_self]
        have ntfs : ∀ (i : Nat) (e : EC), e.ntf = (s.ec i).ntf → ∀ j, (upd s.ec i e j).ntf = (s.ec j).ntf := by
          intro i e he j; by_cases hj : j = i
          · subst hj; simpa [upd_apply] using he
          · simp [upd_apply, hj]
        cases hep : x.ep with
        | cl => rename_i hx; exact absurd hep hx
        | wCheck i tm =>
          rw [hep] at hs; simp only [stepEp] at hs
          cases hk : x.key with
          | none => simp [hk] at hs
          | some k =>
            simp only [hk] at hs
            obtain ⟨tm', hcall⟩ := hC1.1 i (by rw [hep]; rfl)
            split at hs
            · rename_i heq
              have hki : k.ix = i := by
                obtain ⟨k', f1, f2⟩ := hE.a.wkey t _ i het (by rw [hep]; rfl)
                rw [hkt, hk] at f1; cases f1; exact f2
              simp only [Option.some.injEq] at hs; subst hs
              exact movn (.wLink i tm) hep rfl (fun _ => rfl) (by rw [← hk]; rfl) (by simp) (by simp) (by simp) (by simp) (by intro i' tm' h; cases h; exact ⟨k, by rw [hkt, hk], hki, heq.symm⟩)
            · simp only [Option.some.injEq] at hs; subst hs
              exact retn tm (ec' := upd s.ec i { s.ec i with lock := none }) hep (by simp [hcall]) rfl rfl (ntfs i _ rfl) (by rw [← hk]; rfl) (by simp [hcall])
        | wLink i tm =>
          rw [hep] at hs; simp only [stepEp, Option.some.injEq] at hs; subst hs
          exact movn (.asleep i tm) hep rfl (ntfs i _ rfl) rfl (by simp) (by simp) (by simp) (by simp) (by simp)
        | asleep i tm => rw [hep] at hs; simp [stepEp] at hs
        | woken i tm to =>
          rw [hep] at hs; simp only [stepEp] at hs
          split at hs
          · simp only [Option.some.injEq] at hs; subst hs
            exact movn (.wPost i tm to) hep rfl (ntfs i _ rfl) rfl (by simp) (by simp) (by simp) (by simp) (by simp)
          · simp at hs
        | wPost i tm to =>
          rw [hep] at hs; simp only [stepEp] at hs
          obtain ⟨tm', hcall⟩ := hC1.1 i (by rw [hep]; rfl)
          split at hs
          · split at hs
            · simp only [Option.some.injEq] at hs; subst hs
              exact movn (.wPull i true false) hep rfl (ntfs i _ rfl) rfl (by simp) (by simp) (by simp) (by simp) (by simp)
            · simp only [Option.some.injEq] at hs; subst hs
              exact movn (.wPull i to true) hep rfl (ntfs i _ rfl) rfl (by simp) (by simp) (by simp) (by simp) (by simp)
          · simp only [Option.some.injEq] at hs; subst hs
            exact retn true (ec' := upd s.ec i { s.ec i with lock := none }) hep (by simp [hcall]) rfl rfl (ntfs i _ rfl) rfl (by simp [hcall])
        | wPull i to clr =>
          rw [hep] at hs; simp only [stepEp] at hs
          obtain ⟨j, tm', hcall⟩ := hC1.2.1 (by rw [hep]; rfl)
          split at hs
          · simp only [Option.some.injEq] at hs; subst hs
            exact retn (!to) (ec' := s.ec) hep (by simp [hcall]) rfl rfl (fun _ => rfl) rfl (by simp [hcall])
          · simp only [Option.some.injEq] at hs; subst hs
            exact retn (!to) (ec' := s.ec) hep (by simp [hcall]) rfl rfl (fun _ => rfl) rfl (by simp [hcall])
        | nLock i all =>
          rw [hep] at hs; simp only [stepEp] at hs
          split at hs
          · rename_i hlk
            simp only [Option.some.injEq] at hs; subst hs
            exact movn (.nLoop i all false) hep rfl (ntfs i _ rfl) rfl (by simp) (by simp) (by simp) (by intro i' all' h; cases h; exact hlk) (by simp)
          · simp at hs
        | nLoop i all any =>
          rw [hep] at hs; simp only [stepEp] at hs
          obtain ⟨all', hcall⟩ := hC1.2.2 i (by rw [hep]; rfl)
          split at hs
          · rename_i hq
            simp only [Option.some.injEq] at hs; subst hs
            exact retn any (ec' := upd s.ec i { s.ec i with lock := none }) hep (by simp [hcall]) rfl rfl (ntfs i _ rfl) rfl (by
              intro i' a' h; rw [hcall] at h; cases h; exact .inr (.inr ⟨all, any, rfl, hq⟩))
          · simp only [Option.some.injEq] at hs; subst hs
            exact movn (.nAct i all _) hep rfl (ntfs i _ rfl) rfl (by simp) (by simp) (by simp) (by simp) (by simp)
        | nDone i =>
          rw [hep] at hs; simp only [stepEp, Option.some.injEq] at hs; subst hs
          obtain ⟨all', hcall⟩ := hC1.2.2 i (by rw [hep]; rfl)
          exact retn true (ec' := upd s.ec i { s.ec i with lock := none }) hep (by simp [hcall]) rfl rfl (ntfs i _ rfl) rfl (by
              intro i' a' h; rw [hcall] at h; cases h; exact .inr (.inl rfl))
        | nAct i all w =>
          rw [hep] at hs; simp only [stepEp, Option.some.injEq] at hs; subst hs
          rw [hep] at het
          obtain ⟨hq, htok, hw⟩ := hE.a.act t i all w het
          have htw : t ≠ w := by
            rintro rfl
            rcases hw with ⟨tm, h⟩ | h <;> rw [het] at h <;> simp at h
          obtain ⟨p', hp'⟩ : ∃ p', p' = (if all = true then EPc.nLoop i all true else .nDone i) := ⟨_, rfl⟩
          have hp1 : p' = .nLoop i all true ∨ p' = .nDone i := by rw [hp']; cases all <;> simp
          rw [← hp']
          rcases hw with ⟨tm, h⟩ | h
          · obtain ⟨y, hy, hye⟩ : ∃ y, s.th[w]? = some y ∧ y.ep = .asleep i tm := by
              simp only [State.ep, Option.map_eq_some_iff] at h; exact h
            have ha : s.activate w = s.put w { y with ep := .woken i tm false } := by simp [State.activate, hy, hye]
            rw [ha]
            have hxt : (s.put w { y with ep := .woken i tm false }).th[t]? = some x := by
              simp only [State.put]; rw [List.getElem?_set_ne (Ne.symm htw)]; exact ht
            refine .act t i w all p' (some (.woken i tm false)) het htw (.inl ⟨tm, h⟩) rfl ?_ ?_ ?_ (fun _ => rfl) (by simp) ⟨false, tm, rfl⟩ hp1
            · rw [ep_put hxt, ep_put hy]
            · rw [lcl_put hxt, lcl_put hy]
              show upd (upd s.lcl w (some y.cl)) t (some x.cl) = _
              rw [← lcl_of hy, upd_self, ← hlt, upd_self]
            · rw [key_put hxt, key_put hy]
              show upd (upd s.key w y.key) t x.key = _
              rw [← key_of hy, upd_self, ← hkt, upd_self]
          · obtain ⟨y, hy, hye⟩ : ∃ y, s.th[w]? = some y ∧ y.ep = .woken i true true := by
              simp only [State.ep, Option.map_eq_some_iff] at h; exact h
            have ha : s.activate w = { s with tok := upd s.tok w true, bad := s.bad || s.tok w } := by simp [State.activate, hy, hye]
            rw [ha]
            obtain ⟨e1, e2, e3⟩ := E1 (y := { x with ep := p' }) (s1 := State.put { s with tok := upd s.tok w true, bad := s.bad || s.tok w } t { x with ep := p' }) ht rfl
            refine .act t i w all p' (some (.woken i true true)) het htw (.inr h) rfl ?_ ?_ ?_ (fun _ => rfl) (by simp) ⟨true, true, rfl⟩ hp1
            · rw [e1, ← h, upd_self]
            · rw [e2, ← hlt, upd_self]
            · rw [e3]; show upd s.key t x.key = _; rw [← hkt, upd_self]

end Verif.EventCount
