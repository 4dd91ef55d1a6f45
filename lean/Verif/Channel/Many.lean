import Verif.Channel.Props
import Verif.EventCount.Effect
/-!
# One consumer and any number of producers

A failed dequeue wakes a single sleeping producer, and a producer never wakes another one. Still, while the consumer
sleeps on an empty queue, one of the producers that found it full is awake and on its way back to the queue.
-/
namespace Verif.Channel
open Verif.Common Verif.EventCount
variable {α : Type}

/-- In the loop of `Push`, or in its first attempt. -/
def Retry : Pc α → Bool
  | .pPrep _ | .push .fast _ | .push .slow _ | .pWait _ _ | .pDropL _ => true
  | _ => false

/-- The consumer has found position `h` unreadable and its notification is done (or has picked whom to wake). -/
def Waits (h : Nat) (p : Option EPc) : Pc α → Prop
  | .qChk h' | .qWait h' => h' = h
  | .ntfPush .slow h' => h' = h ∧ p = some (.nDone 0)
  | _ => False

structure MInv (s : State (G α) (Pc α)) : Prop where
  l1 : ∀ t tm k, s.ep t = some (.wLink 0 tm) → s.key t = some k → k.gh = (s.ec 0).ntf ∨ ∃ u all, s.ep u = some (.nLock 0 all)
  l2 : ∀ t v k kk, s.lcl t = some (.pWait v k) → s.key t = some kk → kk.gh = (s.ec 0).ntf →
    k = s.g.empties ∨ ∃ u m h, s.lcl u = some (.ntfPush m h) ∧ s.ep u = some .cl
  j : ∀ u l h t v k i tm, s.lcl u = some l → Waits h (s.ep u) l → s.g.q.tail ≤ h → s.lcl t = some (.pWait v k) → s.ep t = some (.asleep i tm) →
    ∃ w l', s.lcl w = some l' ∧ Retry l' = true ∧ ∀ i tm, s.ep w ≠ some (.asleep i tm)

theorem nkeys_none {s : State (G α) (Pc α)} {i : Nat} (h : s.nkeys i = 0) {t : Nat} {k : Key} (hk : s.key t = some k) : k.ix ≠ i := by
  unfold State.nkeys at h
  rw [List.countP_eq_zero] at h
  simp only [State.key, Option.bind_eq_some_iff] at hk
  obtain ⟨x, hx, hk⟩ := hk
  have := h x (List.mem_of_getElem? hx)
  simpa [hasKey, hk] using this

theorem wait_lcl {s : State (G α) (Pc α)} (hC : CInv (chan α) s) {t i : Nat} {p : EPc} (hp : s.ep t = some p) (hw : waitIx p = some i) :
    ∃ l tm, s.lcl t = some l ∧ cCall l = .wait i tm := by
  simp only [State.ep, Option.map_eq_some_iff] at hp
  obtain ⟨x, hx, rfl⟩ := hp
  obtain ⟨tm, h⟩ := (hC t x hx).1 i hw
  exact ⟨x.cl, tm, lcl_of hx, h⟩

theorem ntf_lcl {s : State (G α) (Pc α)} (hC : CInv (chan α) s) {t i : Nat} {p : EPc} (hp : s.ep t = some p) (hw : notIx p = some i) :
    ∃ l all, s.lcl t = some l ∧ cCall l = .notify i all := by
  simp only [State.ep, Option.map_eq_some_iff] at hp
  obtain ⟨x, hx, rfl⟩ := hp
  obtain ⟨tm, h⟩ := (hC t x hx).2.2 i hw
  exact ⟨x.cl, tm, lcl_of hx, h⟩

theorem wait0 {l : Pc α} {tm : Bool} (h : cCall l = .wait 0 tm) : ∃ v k, l = .pWait v k := by
  cases l <;> simp [cCall] at h <;> simp

theorem waits_any {h : Nat} {p p' : Option EPc} {l : Pc α} (hw : Waits h p l) (hp : p ≠ some (.nDone 0)) : Waits h p' l := by
  unfold Waits at hw ⊢
  split at hw
  · exact hw
  · exact hw
  · exact absurd hw.2 hp
  · exact hw.elim

set_option maxHeartbeats 1000000 in
theorem minv_step {s s' : State (G α) (Pc α)} (hE : EInv s) (hC : CInv (chan α) s) (hN : NoWrap s) (hD : OneCF s.lcl)
    (hH : HInv s.g s.lcl) (hP : PInv s.g s.lcl) (hK : ∀ t k, s.key t = some k → ∃ l, s.lcl t = some l ∧ cKey l = some k.ix)
    (hM : MInv s) (he : Eff (chan α) s s') : MInv s' := by
  obtain ⟨l1, l2, j⟩ := hM
  -- a producer inside `wait` holds a key of event count 0
  have kw : ∀ t v k kk, s.lcl t = some (.pWait v k) → s.key t = some kk → kk.ix = 0 := by
    intro t v k kk h1 h2
    obtain ⟨l, h3, h4⟩ := hK t kk h2
    rw [h1] at h3; cases h3; simpa [cKey] using h4.symm
  have slk : ∀ t v k i tm, s.lcl t = some (.pWait v k) → s.ep t = some (.asleep i tm) → i = 0 ∧ ∃ kk, s.key t = some kk ∧ kk.ix = 0 := by
    intro t v k i tm h1 h2
    obtain ⟨kk, h3, h4⟩ := hE.a.wkey t _ i h2 rfl
    have := kw t v k kk h1 h3
    exact ⟨by omega, kk, h3, this⟩
  have wat : ∀ u l h, s.lcl u = some l → Waits h (s.ep u) l → atH l = some h := by
    intro u l h _ hw
    unfold Waits at hw
    split at hw
    · simp [atH, hw]
    · simp [atH, hw]
    · simp [atH, hw.1]
    · exact hw.elim
  -- one thread moves inside the event count
  have je : ∀ t p', (∀ l i tm, s.lcl t = some l → p' = EPc.asleep i tm → Retry l = false) →
      (∀ l h, s.lcl t = some l → Waits h (some p') l → Waits h (s.ep t) l) →
      ∀ u l h t0 v k i tm, s.lcl u = some l → Waits h (upd s.ep t (some p') u) l → s.g.q.tail ≤ h → s.lcl t0 = some (.pWait v k) →
        upd s.ep t (some p') t0 = some (.asleep i tm) → ∃ w l', s.lcl w = some l' ∧ Retry l' = true ∧ ∀ i tm, upd s.ep t (some p') w ≠ some (.asleep i tm) := by
    intro t p' c1 c2 u l h t0 v k i tm e1 e2 e3 e4 e5
    have e6 : t0 ≠ t := by
      rintro rfl
      rw [upd_same] at e5
      have := c1 _ i tm e4 (by simpa using e5)
      simp [Retry] at this
    rw [upd_ne _ _ e6] at e5
    have e7 : Waits h (s.ep u) l := by
      by_cases e : u = t
      · subst e; rw [upd_same] at e2; exact c2 l h e1 e2
      · rwa [upd_ne _ _ e] at e2
    obtain ⟨w, lw, g1, g2, g3⟩ := j u l h t0 v k i tm e1 e7 e3 e4 e5
    refine ⟨w, lw, g1, g2, ?_⟩
    intro i' tm' e
    by_cases e' : w = t
    · subst e'; rw [upd_same] at e
      have := c1 _ i' tm' g1 (by simpa using e)
      rw [g2] at this; simp at this
    · rw [upd_ne _ _ e'] at e; exact g3 i' tm' e
  cases he with
  | loc t l c l' h1 h2 h3 h4 h5 h6 h7 h8 =>
    have ht := hH.q.ht
    have hr := hH.r
    have hpop : ∀ {l : Pc α} {h}, atH l = some h → Popping l = true := popping_atH
    have hH1 : ∀ u l h, s.lcl u = some l → Waits h (s.ep u) l → h = s.g.q.head := fun u l h h1 h2 => hr u l h h1 (wat u l h h1 h2)
    have hH2 : ∀ u l h, s.lcl u = some l → Waits h (s.ep u) l → Popping l = true := fun u l h h1 h2 => hpop (wat u l h h1 h2)
    constructor
    · rw [h5, h6, h8]; exact l1
    · rw [h5, h6, h7, h8]
      rcases loc_cases h4 with ⟨hg, rfl, hl⟩ | ⟨hg, rfl, rfl⟩ | ⟨m, x, rfl, hr, rfl, hg⟩ | ⟨m, x, rfl, hr, rfl, hg⟩ | ⟨m, p, x, rfl, rfl, hg⟩ |
        ⟨m, v, rfl, hv, rfl, hg⟩ | ⟨m, rfl, hv, rfl, hg⟩ | ⟨m, p, v, rfl, rfl, hg⟩ | ⟨h0, rfl, hg, hl⟩ | ⟨r, rfl, hg, rfl⟩ <;> rw [hg]
      · grind [upd_apply]
      · grind [upd_apply]
      · grind [upd_apply]
      · cases m <;> grind [upd_apply, pushFail]
      · grind [upd_apply]
      · grind [upd_apply]
      · intro t' v k kk _ _ _
        exact .inr ⟨t, m, _, upd_same _ _ _, h1⟩
      · cases m <;> grind [upd_apply, popDone]
      · grind [upd_apply]
      · grind [upd_apply]
    · rw [h5, h7]
      have jl : (Retry l = true → Retry l' = true) → (∀ h, Waits h (some .cl) l' → Waits h (some .cl) l) → s.g.q.tail ≤ s'.g.q.tail →
          ∀ u l0 h t0 v k i tm, upd s.lcl t (some l') u = some l0 → Waits h (s.ep u) l0 → s'.g.q.tail ≤ h → upd s.lcl t (some l') t0 = some (.pWait v k) →
          s.ep t0 = some (.asleep i tm) → ∃ w l'', upd s.lcl t (some l') w = some l'' ∧ Retry l'' = true ∧ ∀ i tm, s.ep w ≠ some (.asleep i tm) := by
        intro c1 c2 c3 u l0 h t0 v k i tm e1 e2 e3 e4 e5
        have e6 : t0 ≠ t := by rintro rfl; rw [h1] at e5; simp at e5
        rw [upd_ne _ _ e6] at e4
        have : ∃ l0', s.lcl u = some l0' ∧ Waits h (s.ep u) l0' := by
          by_cases e : u = t
          · subst e; rw [upd_same] at e1; cases e1; rw [h1] at e2; exact ⟨l, h2, by rw [h1]; exact c2 h e2⟩
          · rw [upd_ne _ _ e] at e1; exact ⟨l0, e1, e2⟩
        obtain ⟨l0', f1, f2⟩ := this
        obtain ⟨w, lw, g1, g2, g3⟩ := j u l0' h t0 v k i tm f1 f2 (by omega) e4 e5
        by_cases e : w = t
        · subst e; rw [h2] at g1; cases g1; exact ⟨w, l', upd_same _ _ _, c1 g2, g3⟩
        · exact ⟨w, lw, by rw [upd_ne _ _ e]; exact g1, g2, g3⟩
      rcases loc_cases h4 with ⟨hg, rfl, hl⟩ | ⟨hg, rfl, rfl⟩ | ⟨m, x, rfl, hr, rfl, hg⟩ | ⟨m, x, rfl, hr, rfl, hg⟩ | ⟨m, p, x, rfl, rfl, hg⟩ |
        ⟨m, v, rfl, hv, rfl, hg⟩ | ⟨m, rfl, hv, rfl, hg⟩ | ⟨m, p, v, rfl, rfl, hg⟩ | ⟨h0, rfl, hg, hl⟩ | ⟨r, rfl, hg, rfl⟩
      · refine jl (by simp [Retry]) ?_ (by rw [hg]; omega)
        rcases hl with ⟨x, rfl⟩ | ⟨x, rfl⟩ | rfl | rfl <;> simp [Waits]
      · exact jl (by simp [Retry]) (by simp [Waits]) (by rw [hg]; simp)
      · intro u l0 h t0 v k i tm e1 e2 e3 e4 e5
        exfalso
        have e : u ≠ t := by rintro rfl; rw [upd_same] at e1; cases e1; simp [Waits] at e2
        rw [upd_ne _ _ e] at e1
        have := hH1 u l0 h e1 e2
        rw [hg] at e3; simp at e3; omega
      · refine jl ?_ ?_ (by rw [hg]; omega)
        · cases m <;> simp [Retry, pushFail]
        · cases m <;> simp [Waits, pushFail]
      · exact jl (by simp [Retry]) (by simp [Waits]) (by rw [hg]; simp)
      · exact jl (by simp [Retry]) (by simp [Waits]) (by rw [hg]; simp)
      · refine jl (by simp [Retry]) ?_ (by rw [hg]; simp)
        cases m <;> simp [Waits]
      · refine jl (by simp [Retry]) ?_ (by rw [hg]; simp)
        cases m <;> simp [Waits, popDone]
      · refine jl (by simp [Retry]) ?_ (by rw [hg]; omega)
        rcases hl with ⟨_, rfl⟩ | ⟨_, rfl⟩ <;> simp [Waits]
      · exact jl (by simp [Retry]) (by simp [Waits]) (by rw [hg]; omega)
  | ret t l b p h1 h2 h3 h4 h5 h6 h7 h8 h9 h10 =>
    simp only [chan] at h3 h6 h8 h9 h10
    -- what a notification leaves behind
    have n0 : ∀ i all, cCall l = .notify i all → (∃ i, p = .nDone i) ∨ (∃ i a b, p = .nLoop i a b) ∨ s.nkeys i = 0 := by
      intro i all hc
      rcases h10 i all hc with e | e | ⟨a, b, e, -⟩
      · exact .inr (.inr e)
      · exact .inl ⟨_, e⟩
      · exact .inr (.inl ⟨_, _, _, e⟩)
    have bump : ∀ t' kk, s.key t' = some kk → kk.ix = 0 → (s'.ec 0).ntf = (s.ec 0).ntf := by
      intro t' kk f1 f2
      rcases h9 with e | ⟨i, all, hc, rfl, e⟩
      · exact e 0
      · rw [e]
        split
        · rename_i hi; subst hi
          rcases n0 _ all hc with ⟨_, e⟩ | ⟨_, _, _, e⟩ | e
          · cases e
          · cases e
          · exact absurd f2 (nkeys_none e f1)
        · rfl
    constructor
    · rw [h5]
      intro t' tm k e1 e2
      have e3 : t' ≠ t := by rintro rfl; simp at e1
      rw [upd_ne _ _ e3] at e1
      rw [h7 t' e3] at e2
      obtain ⟨k', f1, f2⟩ := hE.a.wkey t' _ 0 e1 rfl
      rw [e2] at f1; cases f1
      rw [bump t' k e2 f2]
      rcases l1 t' tm k e1 e2 with f | ⟨u, a, f⟩
      · exact .inl f
      · right
        refine ⟨u, a, ?_⟩
        rw [upd_ne _ _ ?_]; · exact f
        rintro rfl
        rw [h1] at f; simp only [Option.some.injEq] at f; subst f
        obtain ⟨l', all', g1, g2⟩ := ntf_lcl hC h1 rfl
        rw [h2] at g1; cases g1
        rcases n0 _ _ g2 with ⟨_, e⟩ | ⟨_, _, _, e⟩ | e
        · cases e
        · cases e
        · exact nkeys_none e e2 f2
    · rw [h4, h5, h6]
      intro t' v k kk e1 e2 e3
      have e4 : t' ≠ t := by
        rintro rfl
        rw [upd_same] at e1
        cases l <;> simp [cCall] at h3 <;> simp [cRet] at e1
        case ntfPop m => cases m <;> simp [pushDone] at e1
        case ntfPush m h => cases m <;> simp [popFail] at e1
      rw [upd_ne _ _ e4] at e1
      rw [h7 t' e4] at e2
      have f2 := kw t' v k kk e1 e2
      rw [bump t' kk e2 f2] at e3
      rcases l2 t' v k kk e1 e2 e3 with e | ⟨u, m, h, e, e'⟩
      · exact .inl e
      · right; refine ⟨u, m, h, ?_⟩
        rw [upd_ne _ _ ?_, upd_ne _ _ ?_]
        · exact ⟨e, e'⟩
        all_goals
          rintro rfl
          rw [h2] at e; cases e
          rw [h1] at e'; cases e'
          rcases n0 0 false rfl with ⟨_, e⟩ | ⟨_, _, _, e⟩ | e
          · cases e
          · cases e
          · exact nkeys_none e e2 f2
    · rw [h4, h5, h6]
      intro u l0 h t0 v0 k0 i0 tm0 e1 e2 e3 e4 e5
      have n1 : t0 ≠ t := by rintro rfl; simp at e5
      rw [upd_ne _ _ n1] at e4 e5
      obtain ⟨rfl, kk, hk1, hk2⟩ := slk _ _ _ _ _ e4 e5
      have old : ∀ l1, s.lcl u = some l1 → Waits h (s.ep u) l1 →
          ∃ w l', upd s.lcl t (some (cRet l)) w = some l' ∧ Retry l' = true ∧ ∀ i tm, upd s.ep t (some .cl) w ≠ some (.asleep i tm) := by
        intro l1 f1 f2
        obtain ⟨x, lx, g1, g2, g3⟩ := j u l1 h t0 v0 k0 0 tm0 f1 f2 e3 e4 e5
        by_cases e : x = t
        · subst e
          rw [h2] at g1; cases g1
          refine ⟨x, cRet l, upd_same _ _ _, ?_, by simp⟩
          cases l <;> simp [cCall] at h3 <;> simp [Retry] at g2 <;> simp [cRet, Retry]
        · exact ⟨x, lx, by rw [upd_ne _ _ e]; exact g1, g2, by rw [upd_ne _ _ e]; exact g3⟩
      by_cases e : u = t
      · subst e
        rw [upd_same] at e1 e2; cases e1
        have : l = .ntfPush .slow h := by
          cases l <;> simp [cCall] at h3 <;> simp [cRet, Waits] at e2
          case ntfPop m => cases m <;> simp [pushDone, Waits] at e2
          case ntfPush m h' => cases m <;> simp [popFail, Waits] at e2; rw [e2]
        subst this
        rcases h10 0 false rfl with e | rfl | ⟨a, b, rfl, hq⟩
        · exact absurd hk2 (nkeys_none e hk1)
        · exact old _ h2 ⟨rfl, h1⟩
        · exfalso
          rcases hE.a.slp t0 0 tm0 e5 with e | ⟨x, a', e⟩
          · rw [hq] at e; simp at e
          · have f1 := hE.a.lockH u _ 0 h1 rfl
            have f2 := hE.a.lockH x _ 0 e rfl
            rw [f1] at f2; cases f2
            rw [h1] at e; cases e
      · rw [upd_ne _ _ e] at e1 e2
        exact old _ e1 e2
  | ntf t l i all h1 h2 h3 h4 h5 h6 h7 h8 =>
    have hnk : ∀ t v k kk, s.lcl t = some (.pWait v k) → s.key t = some kk → kk.gh ≤ (s.ec 0).ntf := by
      intro t v k kk h1 h2
      have := (hE.key t kk h2).2
      rwa [kw t v k kk h1 h2] at this
    simp only [chan] at h3
    constructor
    · rw [h5, h7]
      intro t' tm k e1 e2
      have e3 : t' ≠ t := by rintro rfl; simp at e1
      rw [upd_ne _ _ e3] at e1
      by_cases hi : i = 0
      · subst hi; exact .inr ⟨t, all, by simp⟩
      · rcases l1 t' tm k e1 e2 with e | ⟨u, a, e⟩
        · left; rw [e, h8]; simp [Ne.symm hi]
        · right; refine ⟨u, a, ?_⟩
          rw [upd_ne _ _ (by rintro rfl; rw [h1] at e; simp at e)]; exact e
    · rw [h4, h5, h6, h7]
      intro t' v k kk e1 e2 e3
      by_cases hi : i = 0
      · subst hi; have := hnk t' v k kk e1 e2; rw [h8] at e3; simp at e3; omega
      · rw [h8] at e3; simp [Ne.symm hi] at e3
        rcases l2 t' v k kk e1 e2 e3 with e | ⟨u, m, h, e, e'⟩
        · exact .inl e
        · right; refine ⟨u, m, h, e, ?_⟩
          rw [upd_ne _ _ ?_]; · exact e'
          rintro rfl; rw [h2] at e; cases e; simp [cCall] at h3; omega
    · rw [h4, h5, h6]
      refine je t _ (by simp) ?_
      exact fun l h _ hw => waits_any hw (by simp)
  | move t p p' h1 h2 h3 h4 h5 h6 h7 h8 h9 h10 h11 h12 =>
    constructor
    · rw [h3, h5, h6]
      intro t' tm k e1 e2
      by_cases e : t' = t
      · subst e
        rw [upd_same] at e1
        obtain ⟨k', f1, f6, f2⟩ := h11 0 tm (by simpa using e1)
        rw [e2] at f1; cases f1
        left
        have f3 := hE.key _ _ e2
        have f4 := epoch_eq hE 0
        obtain ⟨x, hx, hxk⟩ : ∃ x, s.th[t']? = some x ∧ x.key = some k := by
          simp only [State.key, Option.bind_eq_some_iff] at e2; exact e2
        have f5 := hN.2 t' x k hx hxk
        rw [f6] at f3 f5
        omega
      · rw [upd_ne _ _ e] at e1
        rcases l1 t' tm k e1 e2 with f | ⟨u, a, f⟩
        · exact .inl f
        · right
          refine ⟨u, a, ?_⟩
          rw [upd_ne _ _ ?_]; · exact f
          rintro rfl
          rw [h1] at f; simp only [Option.some.injEq] at f
          have f1 := h10 0 a f
          have f2 := hE.a.lockH t' _ 0 e1 rfl
          rw [f1] at f2; simp at f2
    · rw [h2, h3, h4, h5, h6]
      intro t' v k kk e1 e2 e3
      rcases l2 t' v k kk e1 e2 e3 with e | ⟨u, m, h, e, e'⟩
      · exact .inl e
      · right; refine ⟨u, m, h, e, ?_⟩
        rw [upd_ne _ _ ?_]; · exact e'
        rintro rfl
        rw [h1] at e'; simp only [Option.some.injEq] at e'
        obtain ⟨l, i, tm, f1, f2⟩ := h12 e'
        rw [e] at f1; cases f1; simp [chan, cCall] at f2
    · rw [h2, h3, h4]
      by_cases hs : ∃ tm, p' = .asleep 0 tm
      · obtain ⟨tm, rfl⟩ := hs
        have hp := h7 0 tm rfl
        subst hp
        obtain ⟨l, tm', hl, hc⟩ := wait_lcl hC h1 rfl
        obtain ⟨v, k, rfl⟩ := wait0 hc
        intro u l0 h t0 v0 k0 i0 tm0 e1 e2 e3 e4 e5
        exfalso
        have hut : u ≠ t := by
          rintro rfl; rw [hl] at e1; cases e1; simp [Waits] at e2
        rw [upd_ne _ _ hut] at e2
        have ha := wat u l0 h e1 e2
        obtain ⟨kk, hk1, hk2⟩ := hE.a.wkey t _ 0 h1 rfl
        have hne : k ≠ s.g.empties := by
          intro hk
          have := hP.lt t v k u l0 h hl hk e1 ha
          omega
        have other : ∀ w m h', s.lcl w = some (.ntfPush m h') → (s.ep w = some .cl ∨ ∃ all, s.ep w = some (.nLock 0 all)) → False := by
          intro w m h' f1 f2
          have := hD w u _ _ f1 e1 rfl (popping_atH ha)
          subst this
          rw [e1] at f1; cases f1
          unfold Waits at e2
          split at e2 <;> simp_all
        rcases l1 t tm kk h1 hk1 with f | ⟨w, all, f⟩
        · rcases l2 t v k kk hl hk1 f with f | ⟨w, m, h', f1, f2⟩
          · exact hne f
          · exact other w m h' f1 (.inl f2)
        · obtain ⟨lw, all', g1, g2⟩ := ntf_lcl hC f rfl
          obtain ⟨m, h', rfl⟩ := ntf0 g2
          exact other w m h' g1 (.inr ⟨all, f⟩)
      · refine je t p' ?_ ?_
        · intro l i tm e1 e2
          subst e2
          have hp := h7 i tm rfl
          subst hp
          obtain ⟨l', tm', hl, hc⟩ := wait_lcl hC h1 rfl
          rw [e1] at hl; cases hl
          cases l <;> simp [cCall] at hc <;> simp [Retry]
          exact hs ⟨tm, by rw [hc.1]⟩
        · exact fun l h _ hw => waits_any hw (by simpa using h8 0)
  | act t i w all p' q h1 h2 h3 h4 h5 h6 h7 h8 h9 h10 h11 =>
    obtain ⟨to, tm, rfl⟩ := h10
    have hw : waitIx <$> s.ep w = some (some i) := by
      rcases h3 with ⟨tm, e⟩ | e <;> rw [e] <;> rfl
    have keep : ∀ u p, s.ep u = some p → (∀ x, notIx p = some x → ∃ y a, p = .nLock y a) → waitIx p = none → s'.ep u = some p := by
      intro u p f1 f2 f3
      have e1 : u ≠ t := by rintro rfl; rw [h1] at f1; cases f1; obtain ⟨y, a, e⟩ := f2 i rfl; cases e
      have e2 : u ≠ w := by rintro rfl; rw [f1] at hw; simp [f3] at hw
      rw [h5, upd_ne _ _ e1, upd_ne _ _ e2]; exact f1
    have back : ∀ u p, s'.ep u = some p → (∀ i, p ≠ .nDone i) → (∀ i a b, p ≠ .nLoop i a b) → (∀ i tm to, p ≠ .woken i tm to) → u ≠ t ∧ u ≠ w ∧ s.ep u = some p := by
      intro u p f1 f2 f3 f4
      have e1 : u ≠ t := by
        rintro rfl; rw [h5, upd_same] at f1; cases f1
        rcases h11 with rfl | rfl
        · exact f3 _ _ _ rfl
        · exact f2 _ rfl
      rw [h5, upd_ne _ _ e1] at f1
      have e2 : u ≠ w := by
        rintro rfl; rw [upd_same] at f1; cases f1; exact f4 _ _ _ rfl
      rw [upd_ne _ _ e2] at f1
      exact ⟨e1, e2, f1⟩
    constructor
    · rw [h7, h8]
      intro t' tm' k e1 e2
      obtain ⟨-, -, e1⟩ := back _ _ e1 (by simp) (by simp) (by simp)
      rcases l1 t' tm' k e1 e2 with f | ⟨u, a, f⟩
      · exact .inl f
      · exact .inr ⟨u, a, keep u _ f (by simp) rfl⟩
    · rw [h4, h6, h7, h8]
      intro t' v k kk e1 e2 e3
      rcases l2 t' v k kk e1 e2 e3 with e | ⟨u, m, h, e, e'⟩
      · exact .inl e
      · exact .inr ⟨u, m, h, e, keep u _ e' (by simp [notIx]) rfl⟩
    · rw [h4, h6]
      intro u l0 h t0 v0 k0 i0 tm0 e1 e2 e3 e4 e5
      obtain ⟨n1, n2, e5⟩ := back _ _ e5 (by simp) (by simp) (by simp)
      have aw : ∀ u, (∀ i tm, s.ep u ≠ some (.asleep i tm)) ∨ u = w → ∀ i tm, s'.ep u ≠ some (.asleep i tm) := by
        intro u hu i' tm' e
        obtain ⟨-, n, e⟩ := back _ _ e (by simp) (by simp) (by simp)
        rcases hu with hu | hu
        · exact hu _ _ e
        · exact n hu
      by_cases hd : s'.ep u = some (.nDone 0)
      · by_cases hut : u = t
        · subst hut
          have : i = 0 := by
            rw [h5, upd_same] at hd; cases hd
            rcases h11 with e | e <;> cases e; rfl
          subst this
          have : ∃ lw tm, s.lcl w = some lw ∧ cCall lw = .wait 0 tm := by
            rcases h3 with ⟨tm, e⟩ | e
            · exact wait_lcl hC e rfl
            · exact wait_lcl hC e rfl
          obtain ⟨lw, tmw, f1, f2⟩ := this
          obtain ⟨v, k, rfl⟩ := wait0 f2
          exact ⟨w, _, f1, rfl, aw w (.inr rfl)⟩
        · have huw : u ≠ w := by
            rintro rfl; rw [h5, upd_ne _ _ hut, upd_same] at hd; simp at hd
          rw [h5, upd_ne _ _ hut, upd_ne _ _ huw] at e2
          obtain ⟨x, lx, g1, g2, g3⟩ := j u l0 h t0 v0 k0 i0 tm0 e1 e2 e3 e4 e5
          exact ⟨x, lx, g1, g2, aw x (.inl g3)⟩
      · obtain ⟨x, lx, g1, g2, g3⟩ := j u l0 h t0 v0 k0 i0 tm0 e1 (waits_any e2 hd) e3 e4 e5
        exact ⟨x, lx, g1, g2, aw x (.inl g3)⟩

theorem minv {s : State (G α) (Pc α)} (h : CReach α (fun s => NoWrap s ∧ OneConsumer s) s) : MInv s := by
  have hQ : ∀ s : State (G α) (Pc α), NoWrap s ∧ OneConsumer s → s.th.length < 2 ^ 32 := fun _ h => h.1.1
  induction h with
  | init hi _ =>
    constructor
    · intro t tm k h1
      simp only [State.ep, Option.map_eq_some_iff] at h1
      obtain ⟨x, hx, h1⟩ := h1
      rw [(hi.2.2.1 x (List.mem_of_getElem? hx)).2.1] at h1; cases h1
    · intro t v k kk h1; have := lcl_idle hi h1; cases this
    · intro u l h t v k i tm _ _ _ h1; have := lcl_idle hi h1; cases this
  | step hr hst hq ih =>
    have hE := einv_reach hQ hr
    have hC := cinv_reach hQ hr
    exact minv_step hE hC hr.q.1 (oneCF hr.q.2) (hinv (fun _ h => h) hr) (pinv (fun _ h => h) hr)
      (fun t k hk => key_state hQ hr hk) ih (step_eff hE hC hst)

/-- One consumer at a time and any number of producers: the consumer and the producers are never all asleep. When the
consumer and some producer sleep, another fiber is awake inside `Push` or `TryPush`, or inside `StartClosing`. -/
theorem C25_no_deadlock {s : State (G α) (Pc α)} (h : CReach α (fun s => NoWrap s ∧ OneConsumer s) s)
    {t u : Nat} (hp : PushBlocked s t) (hc : PopBlocked s u) :
    ∃ w, Closing s w ∨ (∃ l, At s w l ∧ Pushing l = true) ∧ ¬ PushBlocked s w := by
  have hH := hinv (fun _ h => h) h
  obtain ⟨x, i, tm, v, k, hx, he, hl⟩ := hp
  obtain ⟨y, j, tm2, h0, hy, hey, hly⟩ := id hc
  have hlx : s.lcl t = some (.pWait v k) := by rw [lcl_of hx, hl]
  have hlu : s.lcl u = some (.qWait h0) := by rw [lcl_of hy, hly]
  have hh := hH.r u _ h0 hlu rfl
  have other : ∀ w l, s.lcl w = some l → (∀ v k, l ≠ .pWait v k) → ¬ PushBlocked s w := by
    intro w l h1 h2 ⟨x, i, tm, v, k, f1, f2, f3⟩
    rw [lcl_of f1, f3] at h1; cases h1; exact h2 v k rfl
  by_cases ht : s.g.q.tail ≤ h0
  · obtain ⟨w, l, h1, h2, h3⟩ := (minv h).j u _ h0 t v k i tm hlu rfl ht hlx (by rw [ep_of hx, he])
    refine ⟨w, .inr ⟨⟨l, at_lcl.2 h1, ?_⟩, ?_⟩⟩
    · unfold Retry at h2; split at h2 <;> first | rfl | simp at h2
    · rintro ⟨x, i, tm, v, k, f1, f2, f3⟩
      exact h3 i tm (by rw [ep_of f1, f2])
  · rcases hH.q.clm h0 (by omega) with ⟨z, h1⟩ | ⟨w, m, z, h1⟩
    · obtain ⟨w, -, ⟨m, h2⟩ | h2⟩ := C25_pop_wakes_partial h hc (.inl ⟨z, by rw [← hh]; exact h1⟩)
      · exact ⟨w, .inr ⟨⟨_, h2, rfl⟩, other w _ (at_lcl.1 h2) (by simp)⟩⟩
      · exact ⟨w, .inl h2⟩
    · exact ⟨w, .inr ⟨⟨_, at_lcl.2 h1, rfl⟩, other w _ h1 (by simp)⟩⟩

/-- `Push` does not return without its item in the queue: whatever step is taken, a fiber inside `Push` whose item is not
in the queue still tries to push the same item, or has just put it at the end of the queue. -/
theorem C25_push_delivers {s s' : State (G α) (Pc α)} (h : CReach α NoWrap s) {a : Act (Ch α)} (hs : step (chan α) s a = some s')
    {t : Nat} {l : Pc α} {x : α} (ht : At s t l) (hu : Undelivered x l) :
    ∃ l', At s' t l' ∧ (Undelivered x l' ∨ Delivered l' = true ∧ s'.g.q.items = s.g.q.items ++ [x]) := by
  have hQ : ∀ s : State (G α) (Pc α), NoWrap s → s.th.length < 2 ^ 32 := fun _ h => h.1
  rw [at_lcl] at ht
  have same : s'.lcl t = s.lcl t → ∃ l', At s' t l' ∧ (Undelivered x l' ∨ Delivered l' = true ∧ s'.g.q.items = s.g.q.items ++ [x]) :=
    fun e => ⟨l, at_lcl.2 (by rw [e, ht]), .inl hu⟩
  cases step_eff (einv_reach hQ h) (cinv_reach hQ h) hs with
  | loc t' m c l' h1 h2 h3 h4 h5 h6 h7 h8 =>
    by_cases e : t = t'
    · subst e
      rw [ht] at h2; cases h2
      refine ⟨l', at_lcl.2 (by rw [h7, upd_same]), ?_⟩
      rcases loc_cases h4 with ⟨hg, rfl, hl⟩ | ⟨hg, rfl, rfl⟩ | ⟨m, x, rfl, hr, rfl, hg⟩ | ⟨m, x, rfl, hr, rfl, hg⟩ | ⟨m, p, x, rfl, rfl, hg⟩ |
        ⟨m, v, rfl, hv, rfl, hg⟩ | ⟨m, rfl, hv, rfl, hg⟩ | ⟨m, p, v, rfl, rfl, hg⟩ | ⟨h0, rfl, hg, hl⟩ | ⟨r, rfl, hg, rfl⟩
      case inr.inr.inl =>
        right; rw [hg]
        cases m <;> simp [Undelivered] at hu <;> simp [Delivered, hu]
      case inr.inr.inr.inl =>
        left
        cases m <;> simp [Undelivered] at hu <;> simp [Undelivered, pushFail, hu]
      all_goals simp [Undelivered] at hu
    · exact same (by rw [h7, upd_ne _ _ e])
  | ret t' m b p h1 h2 h3 h4 h5 h6 h7 h8 h9 h10 =>
    by_cases e : t = t'
    · subst e
      rw [ht] at h2; cases h2
      refine ⟨cRet l, at_lcl.2 (by rw [h6, upd_same]; rfl), .inl ?_⟩
      simp only [chan] at h3
      cases l <;> simp [cCall] at h3 <;> simp [Undelivered] at hu <;> simp [Undelivered, cRet, hu]
    · exact same (by rw [h6, upd_ne _ _ e])
  | ntf t' m i all h1 h2 h3 h4 h5 h6 h7 h8 => exact same (by rw [h6])
  | move t' p p' h1 h2 h3 h4 h5 h6 h7 h8 h9 h10 h11 h12 => exact same (by rw [h4])
  | act t' i w all p' q h1 h2 h3 h4 h5 h6 h7 h8 h9 h10 h11 => exact same (by rw [h6])

/-- C25_push_delivers: a producer whose first attempt found the queue full, about to take a key. -/
example : ∃ s : State (G Nat) (Pc Nat), CReach Nat NoWrap s ∧ ∃ l, At s 0 l ∧ Undelivered 2 l := by
  refine run_ex (g := g0 1) (l := .idle) (g0_ok (by decide)) rfl 2 (go 0 (.push 1) 4 ++ go 0 (.push 2) 2)
    (fun s => match s.th[0]? with | some x => x.cl == .pPrep 2 | none => false) ?_ (by decide +kernel)
  intro s h
  cases hx : s.th[0]? with
  | none => simp [hx] at h
  | some x => exact ⟨.pPrep 2, ⟨x, hx, by simpa [hx] using h⟩, rfl⟩

/-- C25_no_deadlock: three producers found the queue full and slept; the consumer took the only item, came back, woke two
of them and sleeps, while the third producer sleeps on. -/
example : ∃ s : State (G Nat) (Pc Nat), CReach Nat (fun s => NoWrap s ∧ OneConsumer s) s ∧ (PushBlocked s 2 ∧ PopBlocked s 3) := by
  refine run_ex_q (g := g0 1) (l := .idle) (g0_ok (by decide)) rfl 4
    (go 0 (.push 1) 4 ++ go 0 (.push 2) 7 ++ go 1 (.push 3) 7 ++ go 2 (.push 4) 7 ++ go 3 .pop 4 ++ go 3 .pop 18)
    (oneB Popping) (fun _ => onec_of) (fun s => pushB s 2 && popB s 3) ?_ (by decide +kernel)
  intro s h
  simp only [Bool.and_eq_true] at h
  exact ⟨push_of h.1, pop_of h.2⟩

end Verif.Channel
