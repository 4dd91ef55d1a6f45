import Verif.EventCount.Steps
namespace Verif.EventCount
open Verif.Common
variable {G L C : Type} {P : Client G L C}

/-- What the client has to respect on event count `i`, for a waiting condition `cond` (which may depend on the
waiter) and a notion of "owes a notification" `obl`. -/
structure Sound (P : Client G L C) (i : Nat) (cond : L → G → Prop) (obl : L → Prop) : Prop where
  /-- A client bound to wait has seen the condition false (`cond` is false in the control states not bound to wait).
  Between the check and the wait it may notify other event counts. -/
  check : ∀ g l t c g' l', P.call l = .loc → P.loc g l t c = some (g', l') → cond l' g' → cond l g
  retw : ∀ l b, P.call l ≠ .loc → ∀ g, cond (P.ret l b) g → cond l g ∧ ∃ j all, P.call l = .notify j all ∧ j ≠ i
  /-- Whoever makes the condition true owes a notification, and goes on owing it. -/
  make : ∀ g l t c g' l', P.call l = .loc → P.loc g l t c = some (g', l') → ∀ w, cond w g' →
    (¬ cond w g ∨ obl l) → obl l'
  /-- Whoever owes a notification does not itself wait for a condition that holds. -/
  nowait : ∀ l g tm, obl l → P.call l = .wait i tm → ¬ cond l g
  keep : ∀ l b, obl l → P.call l ≠ .loc → (∀ all, P.call l ≠ .notify i all) → obl (P.ret l b)

/-- Only `notifyAll` is used on `i`, or only one thread ever waits on it. -/
def OneOk (i : Nat) (E : Nat → Option EPc) (K : Nat → Option Key) : Prop :=
  (∀ u, E u ≠ some (.nLock i false) ∧ (∀ any, E u ≠ some (.nLoop i false any))) ∨
  (∀ t t' k k', K t = some k → k.ix = i → K t' = some k' → k'.ix = i → t = t')

def State.lcl (s : State G L) (t : Nat) : Option L := (s.th[t]?).map Th.cl

/-- Some thread owes a notification. -/
def Obl (P : Client G L C) (i : Nat) (obl : L → Prop) (E : Nat → Option EPc) (F : Nat → Option L) : Prop :=
  ∃ u l, F u = some l ∧ obl l ∧ ∀ all, P.call l = .notify i all → E u = some .cl

/-- Does a notification of this kind count? With `a`, only `notifyAll` does. -/
def Counts (a all : Bool) : Prop := a = true → all = true

/-- Some thread is in the middle of a notification that will still look at the queue. -/
def Drain (a : Bool) (i : Nat) (E : Nat → Option EPc) : Prop :=
  ∃ u, (∃ all, Counts a all ∧ E u = some (.nLock i all)) ∨ (∃ all any, Counts a all ∧ E u = some (.nLoop i all any)) ∨
    ∃ w, E u = some (.nAct i true w)

def notIx : EPc → Option Nat
  | .nLock i _ => some i
  | .nLoop i _ _ => some i
  | .nAct i _ _ => some i
  | .nDone i => some i
  | _ => none

def isPull : EPc → Bool
  | .wPull _ _ _ => true
  | _ => false

/-- In client code, or in a notification of another event count. -/
def Outs (i : Nat) (p : EPc) : Prop := p = .cl ∨ ∃ j, notIx p = some j ∧ j ≠ i

structure WInv (a : Bool) (P : Client G L C) (i : Nat) (cond : L → G → Prop) (obl : L → Prop) (g : G) (e : EC)
    (E : Nat → Option EPc) (K : Nat → Option Key) (F : Nat → Option L) : Prop where
  dom : ∀ t p, E t = some p → ∃ l, F t = some l
  cw : ∀ t p l j, E t = some p → F t = some l → waitIx p = some j → ∃ tm, P.call l = .wait j tm
  cp : ∀ t p l, E t = some p → F t = some l → isPull p = true → ∃ j tm, P.call l = .wait j tm
  cn : ∀ t p l j, E t = some p → F t = some l → notIx p = some j → ∃ all, P.call l = .notify j all
  pre : ∀ t l k, F t = some l → K t = some k → k.ix = i → (∃ p, E t = some p ∧ Outs i p) → k.gh = e.ntf →
    cond l g → Obl P i obl E F
  pre' : ∀ t l k tm, F t = some l → K t = some k → E t = some (.wCheck i tm) ∨ E t = some (.wLink i tm) →
    k.gh = e.ntf → cond l g → Obl P i obl E F
  lnk : ∀ t l k tm, E t = some (.wLink i tm) → F t = some l → K t = some k → k.gh ≠ e.ntf → cond l g →
    Obl P i obl E F ∨ ∃ u all, Counts a all ∧ E u = some (.nLock i all)
  slp0 : ∀ t l k, t ∈ e.queue → F t = some l → K t = some k → k.gh = e.ntf → cond l g → Obl P i obl E F
  slp1 : ∀ t l k, t ∈ e.queue → F t = some l → K t = some k → k.gh ≠ e.ntf → cond l g → Obl P i obl E F ∨ Drain a i E

section pure
variable {a : Bool} {i : Nat} {cond : L → G → Prop} {obl : L → Prop} {g : G} {e : EC}
  {E : Nat → Option EPc} {K : Nat → Option Key} {F : Nat → Option L}

/-- A step that leaves the client's states alone and changes what thread `t` does inside an operation, in a way
that keeps all witnesses. -/
theorem winv_move {e' : EC} {t : Nat} {l : L} {p p' : EPc} (h : WInv a P i cond obl g e E K F) (hp : E t = some p)
    (hl : F t = some l) (hn : e'.ntf = e.ntf) (hcl : p = .cl → p' = .cl ∨ ∃ j tm, P.call l = .wait j tm ∨ ∃ all, P.call l = .notify j all ∧ j ≠ i)
    (hw : ∀ j, waitIx p' = some j → ∃ tm, P.call l = .wait j tm)
    (hpl : isPull p' = true → ∃ j tm, P.call l = .wait j tm)
    (hno : ∀ j, notIx p' = some j → ∃ all, P.call l = .notify j all)
    (hnl : (∃ all, p = .nLock i all) → ∀ u tm, E u ≠ some (.wLink i tm))
    (hwc : ∀ tm, p' = .wCheck i tm ∨ p' = .wLink i tm → p = .cl ∧ (∃ k, K t = some k ∧ k.ix = i) ∨ p = .wCheck i tm ∨ p = .wLink i tm)
    (hlk : ∀ tm, p' = .wLink i tm → ∀ k, K t = some k → k.gh = e.ntf)
    (hq : ∀ u ∈ e'.queue, u ∈ e.queue ∨ (u = t ∧ ∃ tm, p = .wLink i tm))
    (hd : (∃ u ∈ e'.queue, True) → Drain a i E → Drain a i (upd E t (some p')))
    (hcl2 : Outs i p' → Outs i p) :
    WInv a P i cond obl g e' (upd E t (some p')) K F := by
  have hobl : Obl P i obl E F → Obl P i obl (upd E t (some p')) F := by
    rintro ⟨u, m, h1, h2, h3⟩
    refine ⟨u, m, h1, h2, ?_⟩
    intro all ha
    have h4 := h3 all ha
    by_cases e1 : u = t
    · subst e1
      rw [hl] at h1; simp only [Option.some.injEq] at h1; subst h1
      rw [hp] at h4; simp only [Option.some.injEq] at h4
      rcases hcl h4 with h5 | ⟨j, tm, h5 | ⟨all', h5, h6⟩⟩
      · simp [h5]
      · rw [h5] at ha; simp at ha
      · rw [h5] at ha; simp at ha; exact absurd ha.1 h6
    · rw [upd_ne _ _ e1]; exact h4
  obtain ⟨dom, cw, cp, cn, pre, pre', lnk, slp0, slp1⟩ := h
  constructor
  · intro u q hu
    by_cases e1 : u = t
    · subst e1; exact ⟨l, hl⟩
    · rw [upd_ne _ _ e1] at hu; exact dom u q hu
  · intro u q m j hu hm
    by_cases e1 : u = t
    · subst e1
      simp only [upd_same, Option.some.injEq] at hu; subst hu
      rw [hl] at hm; simp only [Option.some.injEq] at hm; subst hm
      exact hw j
    · rw [upd_ne _ _ e1] at hu; exact cw u q m j hu hm
  · intro u q m hu hm
    by_cases e1 : u = t
    · subst e1
      simp only [upd_same, Option.some.injEq] at hu; subst hu
      rw [hl] at hm; simp only [Option.some.injEq] at hm; subst hm
      exact hpl
    · rw [upd_ne _ _ e1] at hu; exact cp u q m hu hm
  · intro u q m j hu hm
    by_cases e1 : u = t
    · subst e1
      simp only [upd_same, Option.some.injEq] at hu; subst hu
      rw [hl] at hm; simp only [Option.some.injEq] at hm; subst hm
      exact hno j
    · rw [upd_ne _ _ e1] at hu; exact cn u q m j hu hm
  · intro u m k hm hk hix hu hg hcd
    rw [hn] at hg
    apply hobl
    by_cases e1 : u = t
    · subst e1
      simp only [upd_same, Option.some.injEq, exists_eq_left'] at hu
      exact pre u m k hm hk hix ⟨p, hp, hcl2 hu⟩ hg hcd
    · rw [upd_ne _ _ e1] at hu
      exact pre u m k hm hk hix hu hg hcd
  · intro u m k tm hm hk hu hg hcd
    rw [hn] at hg
    apply hobl
    by_cases e1 : u = t
    · subst e1
      simp only [upd_same, Option.some.injEq] at hu
      rw [hl] at hm; simp only [Option.some.injEq] at hm; subst hm
      rcases hwc tm hu with ⟨h1, k', hk', hix⟩ | h1 | h1
      · rw [hk] at hk'; simp only [Option.some.injEq] at hk'; subst hk'
        exact pre u l k hl hk hix ⟨p, hp, .inl h1⟩ hg hcd
      · exact pre' u l k tm hl hk (.inl (by rw [hp, h1])) hg hcd
      · exact pre' u l k tm hl hk (.inr (by rw [hp, h1])) hg hcd
    · rw [upd_ne _ _ e1] at hu
      exact pre' u m k tm hm hk hu hg hcd
  · intro u m k tm hu hm hk hg hcd
    rw [hn] at hg
    by_cases e1 : u = t
    · subst e1
      simp only [upd_same, Option.some.injEq] at hu
      exact absurd (hlk tm hu k hk) hg
    · rw [upd_ne _ _ e1] at hu
      rcases lnk u m k tm hu hm hk hg hcd with ho | ⟨v, all, hA, hv⟩
      · exact .inl (hobl ho)
      have : v ≠ t := by
        rintro rfl
        rw [hp] at hv; simp only [Option.some.injEq] at hv
        exact hnl ⟨all, hv⟩ u tm hu
      exact .inr ⟨v, all, hA, by rw [upd_ne _ _ this]; exact hv⟩
  · intro u m k hu hm hk hg hcd
    rw [hn] at hg
    apply hobl
    rcases hq u hu with h1 | ⟨rfl, tm, h1⟩
    · exact slp0 u m k h1 hm hk hg hcd
    · exact pre' u m k tm hm hk (.inr (by rw [hp, h1])) hg hcd
  · intro u m k hu hm hk hg hcd
    rw [hn] at hg
    have : Obl P i obl E F ∨ Drain a i E := by
      rcases hq u hu with h1 | ⟨rfl, tm, h1⟩
      · exact slp1 u m k h1 hm hk hg hcd
      · rcases lnk u m k tm (by rw [hp, h1]) hm hk hg hcd with ho | ⟨v, all, hA, hv⟩
        · exact .inl ho
        · exact .inr ⟨v, .inl ⟨all, hA, hv⟩⟩
    rcases this with ho | ho
    · exact .inl (hobl ho)
    · exact .inr (hd ⟨u, hu, trivial⟩ ho)

/-- Another thread's phase changes from sleeping to resumed. -/
theorem winv_wake {w : Nat} {j : Nat} {tm to : Bool} (h : WInv a P i cond obl g e E K F) (hp : E w = some (.asleep j tm)) :
    WInv a P i cond obl g e (upd E w (some (.woken j tm to))) K F := by
  obtain ⟨l, hl⟩ := h.dom w _ hp
  obtain ⟨tm', hc⟩ := h.cw w _ l j hp hl rfl
  refine winv_move h hp hl rfl (by simp) ?_ (by simp [isPull]) (by simp [notIx]) (by simp) (by simp) (by simp)
    (fun u hu => .inl hu) ?_ (by simp [Outs, notIx])
  · intro j' hj'; simp only [waitIx, Option.some.injEq] at hj'; subst hj'; exact ⟨tm', hc⟩
  · rintro - ⟨u, hu⟩
    have : u ≠ w := by rintro rfl; rw [hp] at hu; simp at hu
    exact ⟨u, by simpa [upd, this] using hu⟩

/-- A client step. -/
theorem winv_loc {t : Nat} {l l' : L} {g' : G} {c : C} (hS : Sound P i cond obl) (h : WInv a P i cond obl g e E K F)
    (hp : E t = some .cl) (hl : F t = some l) (hc : P.call l = .loc) (hs : P.loc g l t c = some (g', l'))
    (hqm : ∀ u ∈ e.queue, ∃ p, E u = some p ∧ waitIx p = some i) :
    WInv a P i cond obl g' e E K (upd F t (some l')) := by
  obtain ⟨dom, cw, cp, cn, pre, pre', lnk, slp0, slp1⟩ := h
  have hobl : ∀ w, cond w g' → (cond w g → Obl P i obl E F) → Obl P i obl E (upd F t (some l')) := by
    intro w hcd hO
    by_cases hcg : cond w g
    · obtain ⟨u, m, h1, h2, h3⟩ := hO hcg
      by_cases e1 : u = t
      · subst e1
        rw [hl] at h1; simp only [Option.some.injEq] at h1; subst h1
        exact ⟨u, l', by simp, hS.make g l u c g' l' hc hs w hcd (.inr h2), fun _ _ => hp⟩
      · exact ⟨u, m, by rw [upd_ne _ _ e1]; exact h1, h2, h3⟩
    · exact ⟨t, l', by simp, hS.make g l t c g' l' hc hs w hcd (.inl hcg), fun _ _ => hp⟩
  have hobl' : ∀ w D, cond w g' → (cond w g → Obl P i obl E F ∨ D) → Obl P i obl E (upd F t (some l')) ∨ D := by
    intro w D hcd hO
    by_cases hD : D
    · exact .inr hD
    · exact .inl (hobl w hcd (fun h => (hO h).resolve_right hD))
  have hF : ∀ u m, upd F t (some l') u = some m → E u ≠ some .cl → F u = some m := by
    intro u m hu hne
    have : u ≠ t := by rintro rfl; exact hne hp
    rwa [upd_ne _ _ this] at hu
  constructor
  · intro u q hu
    by_cases e1 : u = t
    · subst e1; exact ⟨l', by simp⟩
    · rw [upd_ne _ _ e1]; exact dom u q hu
  · intro u q m j hu hm hq
    have : E u ≠ some .cl := by rintro h; rw [hu] at h; simp at h; subst h; simp [waitIx] at hq
    exact cw u q m j hu (hF u m hm this) hq
  · intro u q m hu hm hq
    have : E u ≠ some .cl := by rintro h; rw [hu] at h; simp at h; subst h; simp [isPull] at hq
    exact cp u q m hu (hF u m hm this) hq
  · intro u q m j hu hm hq
    have : E u ≠ some .cl := by rintro h; rw [hu] at h; simp at h; subst h; simp [notIx] at hq
    exact cn u q m j hu (hF u m hm this) hq
  · intro u m k hm hk hix hu hg hcd
    by_cases e1 : u = t
    · subst e1
      simp only [upd_same, Option.some.injEq] at hm; subst hm
      exact hobl _ hcd (fun _ => pre u l k hl hk hix hu hg (hS.check g l u c g' l' hc hs hcd))
    · rw [upd_ne _ _ e1] at hm
      exact hobl m hcd (pre u m k hm hk hix hu hg)
  · intro u m k tm hm hk hu hg hcd
    have : E u ≠ some .cl := by rintro h; rw [h] at hu; simp at hu
    have hm' := hF u m hm this
    exact hobl m hcd (pre' u m k tm hm' hk hu hg)
  · intro u m k tm hu hm hk hg hcd
    have : E u ≠ some .cl := by rintro h; rw [h] at hu; simp at hu
    have hm' := hF u m hm this
    exact hobl' m _ hcd (lnk u m k tm hu hm' hk hg)
  · intro u m k hu hm hk hg hcd
    obtain ⟨q, hq1, hq2⟩ := hqm u hu
    have : E u ≠ some .cl := by rintro h; rw [hq1] at h; simp at h; subst h; simp [waitIx] at hq2
    have hm' := hF u m hm this
    exact hobl m hcd (slp0 u m k hu hm' hk hg)
  · intro u m k hu hm hk hg hcd
    obtain ⟨q, hq1, hq2⟩ := hqm u hu
    have : E u ≠ some .cl := by rintro h; rw [hq1] at h; simp at h; subst h; simp [waitIx] at hq2
    have hm' := hF u m hm this
    exact hobl' m _ hcd (slp1 u m k hu hm' hk hg)

/-- An operation returns to the client. -/
theorem winv_ret {e' : EC} {t : Nat} {l : L} {p : EPc} {b : Bool} {k' : Option Key} (hS : Sound P i cond obl)
    (h : WInv a P i cond obl g e E K F) (hp : E t = some p) (hl : F t = some l) (hc : P.call l ≠ .loc)
    (hq : e'.queue = e.queue) (hn : e'.ntf = e.ntf) (htq : t ∉ e.queue) (hnl : ∀ all, p ≠ .nLock i all)
    (hdr : e.queue = [] ∨ ((∀ all any, p ≠ .nLoop i all any) ∧ ∀ w, p ≠ .nAct i true w))
    (hcl : p = .cl → ∀ all, P.call l ≠ .notify i all)
    (hout : ∀ j all, P.call l = .notify j all → j ≠ i → Outs i p ∧ k' = K t) :
    WInv a P i cond obl g e' (upd E t (some .cl)) (upd K t k') (upd F t (some (P.ret l b))) := by
  have hobl : Obl P i obl E F → Obl P i obl (upd E t (some .cl)) (upd F t (some (P.ret l b))) := by
    rintro ⟨u, m, h1, h2, h3⟩
    by_cases e1 : u = t
    · subst e1
      rw [hl] at h1; simp only [Option.some.injEq] at h1; subst h1
      refine ⟨u, P.ret l b, by simp, hS.keep l b h2 hc ?_, by simp⟩
      intro all ha
      have h4 := h3 all ha
      rw [hp] at h4; simp only [Option.some.injEq] at h4
      exact hcl h4 all ha
    · refine ⟨u, m, by rw [upd_ne _ _ e1]; exact h1, h2, ?_⟩
      intro all ha; rw [upd_ne _ _ e1]; exact h3 all ha
  obtain ⟨dom, cw, cp, cn, pre, pre', lnk, slp0, slp1⟩ := h
  constructor
  · intro u q hu
    by_cases e1 : u = t
    · subst e1; exact ⟨P.ret l b, by simp⟩
    · rw [upd_ne _ _ e1] at hu ⊢; exact dom u q hu
  · intro u q m j hu hm hj
    by_cases e1 : u = t
    · subst e1
      simp only [upd_same, Option.some.injEq] at hu; subst hu; simp [waitIx] at hj
    · rw [upd_ne _ _ e1] at hu hm; exact cw u q m j hu hm hj
  · intro u q m hu hm hj
    by_cases e1 : u = t
    · subst e1
      simp only [upd_same, Option.some.injEq] at hu; subst hu; simp [isPull] at hj
    · rw [upd_ne _ _ e1] at hu hm; exact cp u q m hu hm hj
  · intro u q m j hu hm hj
    by_cases e1 : u = t
    · subst e1
      simp only [upd_same, Option.some.injEq] at hu; subst hu; simp [notIx] at hj
    · rw [upd_ne _ _ e1] at hu hm; exact cn u q m j hu hm hj
  · intro u m k hm hk hix hu hg hcd
    rw [hn] at hg
    by_cases e1 : u = t
    · subst e1
      simp only [upd_same, Option.some.injEq] at hm; subst hm
      obtain ⟨hcd', j, all, h1, h2⟩ := hS.retw l b hc g hcd
      obtain ⟨h3, rfl⟩ := hout j all h1 h2
      rw [upd_self] at hk
      exact hobl (pre u l k hl hk hix ⟨p, hp, h3⟩ hg hcd')
    · rw [upd_ne _ _ e1] at hu hm hk
      exact hobl (pre u m k hm hk hix hu hg hcd)
  · intro u m k tm hm hk hu hg hcd
    rw [hn] at hg
    by_cases e1 : u = t
    · subst e1; simp at hu
    · rw [upd_ne _ _ e1] at hu hm hk
      exact hobl (pre' u m k tm hm hk hu hg hcd)
  · intro u m k tm hu hm hk hg hcd
    rw [hn] at hg
    by_cases e1 : u = t
    · subst e1; simp at hu
    · rw [upd_ne _ _ e1] at hu hk hm
      rcases lnk u m k tm hu hm hk hg hcd with ho | ⟨v, all, hA, hv⟩
      · exact .inl (hobl ho)
      have : v ≠ t := by
        rintro rfl
        rw [hp] at hv; simp only [Option.some.injEq] at hv
        exact hnl all hv
      exact .inr ⟨v, all, hA, by rw [upd_ne _ _ this]; exact hv⟩
  · intro u m k hu hm hk hg hcd
    rw [hn] at hg
    rw [hq] at hu
    have e1 : u ≠ t := by rintro rfl; exact htq hu
    rw [upd_ne _ _ e1] at hm hk
    exact hobl (slp0 u m k hu hm hk hg hcd)
  · intro u m k hu hm hk hg hcd
    rw [hn] at hg
    rw [hq] at hu
    have e1 : u ≠ t := by rintro rfl; exact htq hu
    rw [upd_ne _ _ e1] at hk hm
    rcases hdr with hdr | ⟨h1, h2⟩
    · rw [hdr] at hu; simp at hu
    · rcases slp1 u m k hu hm hk hg hcd with ho | ⟨v, hv⟩
      · exact .inl (hobl ho)
      have : v ≠ t := by
        rintro rfl
        rw [hp] at hv
        rcases hv with ⟨all, _, hv⟩ | ⟨all, any, _, hv⟩ | ⟨w, hv⟩ <;> simp only [Option.some.injEq] at hv
        · exact hnl all hv
        · exact h1 all any hv
        · exact h2 w hv
      exact .inr ⟨v, by simpa only [upd_ne _ _ this] using hv⟩

/-- A notification that sees no waiter. -/
theorem winv_notify0 {e' : EC} {t : Nat} {l : L} {b : Bool} (h : WInv a P i cond obl g e E K F) (hp : E t = some .cl)
    (hno : ∀ u k, K u = some k → k.ix ≠ i) (hw : ∀ u p, E u = some p → waitIx p = some i → ∃ k, K u = some k ∧ k.ix = i)
    (hqm : ∀ u ∈ e.queue, ∃ p, E u = some p ∧ waitIx p = some i) (hq : e'.queue = e.queue) :
    WInv a P i cond obl g e' (upd E t (some .cl)) K (upd F t (some (P.ret l b))) := by
  have hE : upd E t (some .cl) = E := by rw [← hp]; exact upd_self _ _
  rw [hE]
  have hno' : ∀ u p, E u = some p → waitIx p ≠ some i := by
    intro u p hu hpi; obtain ⟨k, hk, hi⟩ := hw u p hu hpi; exact hno u k hk hi
  have hq0 : ∀ u, u ∉ e.queue := by
    intro u hu; obtain ⟨p, h1, h2⟩ := hqm u hu; exact hno' u p h1 h2
  obtain ⟨dom, cw, cp, cn, pre, pre', lnk, slp0, slp1⟩ := h
  constructor
  · intro u q hu
    by_cases e1 : u = t
    · subst e1; exact ⟨P.ret l b, by simp⟩
    · rw [upd_ne _ _ e1]; exact dom u q hu
  · intro u q m j hu hm hj
    by_cases e1 : u = t
    · subst e1
      rw [hp] at hu; simp only [Option.some.injEq] at hu; subst hu; simp [waitIx] at hj
    · rw [upd_ne _ _ e1] at hm; exact cw u q m j hu hm hj
  · intro u q m hu hm hj
    by_cases e1 : u = t
    · subst e1
      rw [hp] at hu; simp only [Option.some.injEq] at hu; subst hu; simp [isPull] at hj
    · rw [upd_ne _ _ e1] at hm; exact cp u q m hu hm hj
  · intro u q m j hu hm hj
    by_cases e1 : u = t
    · subst e1
      rw [hp] at hu; simp only [Option.some.injEq] at hu; subst hu; simp [notIx] at hj
    · rw [upd_ne _ _ e1] at hm; exact cn u q m j hu hm hj
  · intro u m k hm hk hix; exact absurd hix (hno u k hk)
  · intro u m k tm hm hk hu
    rcases hu with hu | hu <;> exact absurd rfl (hno' u _ hu)
  · intro u m k tm hu; exact absurd rfl (hno' u _ hu)
  · intro u m k hu; rw [hq] at hu; exact absurd hu (hq0 u)
  · intro u m k hu; rw [hq] at hu; exact absurd hu (hq0 u)

/-- A notification that sees waiters. -/
theorem winv_notify1 {e' : EC} {t : Nat} {l : L} {all : Bool} (h : WInv a P i cond obl g e E K F) (hp : E t = some .cl)
    (hl : F t = some l) (hc : P.call l = .notify i all) (hA : Counts a all ∨ ¬ obl l)
    (hgh : ∀ u k, K u = some k → k.ix = i → k.gh ≤ e.ntf)
    (hw : ∀ u p, E u = some p → waitIx p = some i → ∃ k, K u = some k ∧ k.ix = i)
    (hqm : ∀ u ∈ e.queue, ∃ p, E u = some p ∧ waitIx p = some i) (hq : e'.queue = e.queue) (hn : e'.ntf = e.ntf + 1) :
    WInv a P i cond obl g e' (upd E t (some (.nLock i all))) K F := by
  have hgh' : ∀ u p k, E u = some p → waitIx p = some i → K u = some k → k.gh ≠ e'.ntf := by
    intro u p k hu hpi hk
    obtain ⟨k', hk', hi⟩ := hw u p hu hpi
    rw [hk] at hk'; simp only [Option.some.injEq] at hk'; subst hk'
    have := hgh u k hk hi
    omega
  obtain ⟨dom, cw, cp, cn, pre, pre', lnk, slp0, slp1⟩ := h
  have hobl : ¬ obl l → Obl P i obl E F → Obl P i obl (upd E t (some (.nLock i all))) F := by
    rintro hno ⟨u, m, h1, h2, h3⟩
    refine ⟨u, m, h1, h2, ?_⟩
    have : u ≠ t := by
      rintro rfl
      rw [hl] at h1; simp only [Option.some.injEq] at h1; subst h1
      exact hno h2
    rw [upd_ne _ _ this]; exact h3
  constructor
  · intro u q hu
    by_cases e1 : u = t
    · subst e1; exact ⟨l, hl⟩
    · rw [upd_ne _ _ e1] at hu; exact dom u q hu
  · intro u q m j hu hm hj
    by_cases e1 : u = t
    · subst e1
      simp only [upd_same, Option.some.injEq] at hu; subst hu; simp [waitIx] at hj
    · rw [upd_ne _ _ e1] at hu; exact cw u q m j hu hm hj
  · intro u q m hu hm hj
    by_cases e1 : u = t
    · subst e1
      simp only [upd_same, Option.some.injEq] at hu; subst hu; simp [isPull] at hj
    · rw [upd_ne _ _ e1] at hu; exact cp u q m hu hm hj
  · intro u q m j hu hm hj
    by_cases e1 : u = t
    · subst e1
      rw [hl] at hm; simp only [Option.some.injEq] at hm; subst hm
      simp only [upd_same, Option.some.injEq] at hu; subst hu
      simp only [notIx, Option.some.injEq] at hj; subst hj
      exact ⟨all, hc⟩
    · rw [upd_ne _ _ e1] at hu; exact cn u q m j hu hm hj
  · intro u m k hm hk hix _ hg
    have := hgh u k hk hix
    omega
  · intro u m k tm hm hk hu hg
    by_cases e1 : u = t
    · subst e1; simp at hu
    · rw [upd_ne _ _ e1] at hu
      rcases hu with hu | hu <;> exact absurd hg (hgh' u _ k hu rfl hk)
  · intro u m k tm hu hm hk hg hcd
    rcases hA with hA | hA
    · exact .inr ⟨t, all, hA, by simp⟩
    by_cases e1 : u = t
    · subst e1; simp at hu
    rw [upd_ne _ _ e1] at hu
    by_cases hg' : k.gh = e.ntf
    · exact .inl (hobl hA (pre' u m k tm hm hk (.inr hu) hg' hcd))
    · rcases lnk u m k tm hu hm hk hg' hcd with ho | ⟨v, al, hv1, hv2⟩
      · exact .inl (hobl hA ho)
      · refine .inr ⟨v, al, hv1, ?_⟩
        have : v ≠ t := by rintro rfl; rw [hp] at hv2; simp at hv2
        rw [upd_ne _ _ this]; exact hv2
  · intro u m k hu hm hk hg
    rw [hq] at hu
    obtain ⟨p, h1, h2⟩ := hqm u hu
    exact absurd hg (hgh' u p k h1 h2 hk)
  · intro u m k hu hm hk hg hcd
    rcases hA with hA | hA
    · exact .inr ⟨t, .inl ⟨all, hA, by simp⟩⟩
    rw [hq] at hu
    by_cases hg' : k.gh = e.ntf
    · exact .inl (hobl hA (slp0 u m k hu hm hk hg' hcd))
    · rcases slp1 u m k hu hm hk hg' hcd with ho | ⟨v, hv⟩
      · exact .inl (hobl hA ho)
      · refine .inr ⟨v, ?_⟩
        have : v ≠ t := by rintro rfl; rw [hp] at hv; simp at hv
        simpa only [upd_ne _ _ this] using hv

end pure

theorem lcl_of {s : State G L} {t : Nat} {x : Th L} (ht : s.th[t]? = some x) : s.lcl t = some x.cl := by
  simp [State.lcl, ht]

theorem lcl_put {s : State G L} {t : Nat} {x y : Th L} (ht : s.th[t]? = some x) :
    (s.put t y).lcl = upd s.lcl t (some y.cl) := by
  funext u
  simp only [State.lcl, State.put, upd, List.getElem?_set]
  have := lt_of_get ht
  grind

/-- The invariant of event count `i` in a state of the machine. -/
def State.WA (a : Bool) (P : Client G L C) (i : Nat) (cond : L → G → Prop) (obl : L → Prop) (s : State G L) : Prop :=
  WInv a P i cond obl s.g (s.ec i) s.ep s.key s.lcl

/-- The case in which every notification counts. -/
abbrev State.W (P : Client G L C) (i : Nat) (cond : L → G → Prop) (obl : L → Prop) (s : State G L) : Prop :=
  s.WA false P i cond obl

theorem EInv.qm {s : State G L} (h : EInv s) (i : Nat) : ∀ u ∈ (s.ec i).queue, ∃ p, s.ep u = some p ∧ waitIx p = some i := by
  intro u hu
  rcases h.a.qmem i u hu with ⟨tm, h1⟩ | h1 | h1 <;> exact ⟨_, h1, rfl⟩

section steps
variable {a : Bool} {i : Nat} {cond : L → G → Prop} {obl : L → Prop}

/-- `winv_move` on machine states. -/
theorem w_move {s : State G L} {t : Nat} {x y : Th L} {ec' : Nat → EC} {tok' : Nat → Bool} {bad' : Bool}
    (ht : s.th[t]? = some x) (hy : y.key = x.key) (hc : y.cl = x.cl)
    (h : WInv a P i cond obl s.g (ec' i) (upd s.ep t (some y.ep)) s.key s.lcl) :
    State.WA a P i cond obl { g := s.g, ec := ec', th := s.th.set t y, tok := tok', bad := bad' } := by
  have e1 : State.ep { g := s.g, ec := ec', th := s.th.set t y, tok := tok', bad := bad' } = (s.put t y).ep := rfl
  have e2 : State.key { g := s.g, ec := ec', th := s.th.set t y, tok := tok', bad := bad' } = (s.put t y).key := rfl
  have e3 : State.lcl { g := s.g, ec := ec', th := s.th.set t y, tok := tok', bad := bad' } = (s.put t y).lcl := rfl
  unfold State.WA
  rw [e1, e2, e3, ep_put ht, key_put ht, lcl_put ht, hy, hc, ← key_of ht, ← lcl_of ht, upd_self, upd_self]
  exact h

theorem w_ret {s : State G L} {t : Nat} {x y : Th L} {g : G} {ec' : Nat → EC} {tok' : Nat → Bool} {bad' : Bool}
    (ht : s.th[t]? = some x)
    (h : WInv a P i cond obl g (ec' i) (upd s.ep t (some y.ep)) (upd s.key t y.key) (upd s.lcl t (some y.cl))) :
    State.WA a P i cond obl { g := g, ec := ec', th := s.th.set t y, tok := tok', bad := bad' } := by
  have e1 : State.ep { g := g, ec := ec', th := s.th.set t y, tok := tok', bad := bad' } = (s.put t y).ep := rfl
  have e2 : State.key { g := g, ec := ec', th := s.th.set t y, tok := tok', bad := bad' } = (s.put t y).key := rfl
  have e3 : State.lcl { g := g, ec := ec', th := s.th.set t y, tok := tok', bad := bad' } = (s.put t y).lcl := rfl
  unfold State.WA
  rw [e1, e2, e3, ep_put ht, key_put ht, lcl_put ht]
  exact h

theorem cl_notq {s : State G L} {t : Nat} (h : EInv s) (he : s.ep t = some .cl) (j : Nat) : t ∉ (s.ec j).queue := by
  intro hm; rcases h.a.qmem j t hm with ⟨tm, h1⟩ | h1 | h1 <;> rw [he] at h1 <;> simp at h1

theorem w_call {s s' : State G L} {t : Nat} {x : Th L} {c : C} (hS : Sound P i cond obl) (hE : EInv s)
    (hA : ∀ l, obl l → ∀ all, P.call l = .notify i all → Counts a all)
    (h : s.WA a P i cond obl) (ht : s.th[t]? = some x) (hx : x.ep = .cl) (hs : stepCall P s t x c = some s') :
    s'.WA a P i cond obl := by
  have hep : s.ep t = some .cl := by rw [ep_of ht, hx]
  have hky := key_of ht
  have hl := lcl_of ht
  have hnq := cl_notq hE hep i
  unfold stepCall at hs
  cases hc : P.call x.cl with
  | loc =>
    simp only [hc, Option.map_eq_some_iff] at hs
    obtain ⟨⟨g', l'⟩, hs, rfl⟩ := hs
    simp only [State.put]
    refine w_ret (g := g') (y := { x with cl := l' }) ht ?_
    simp only [hx]
    rw [← hep, upd_self, ← hky, upd_self]
    exact winv_loc hS h hep hl hc hs (hE.qm i)
  | prep j =>
    simp only [hc] at hs
    cases hk : x.key with
    | some k => simp [hk] at hs
    | none =>
      simp only [hk, Option.some.injEq] at hs
      subst hs
      simp only [State.put, State.setEc]
      refine w_ret ht ?_
      simp only [hx]
      refine winv_ret hS h hep hl (by simp [hc]) ?_ ?_ hnq (by simp) (.inr ⟨by simp, by simp⟩) (by simp [hc]) (by simp [hc])
      · by_cases e : i = j <;> simp [upd, e]
      · by_cases e : i = j <;> simp [upd, e]
  | drop =>
    simp only [hc] at hs
    cases hk : x.key with
    | none => simp [hk] at hs
    | some k =>
      simp only [hk, Option.some.injEq] at hs
      subst hs
      simp only [State.put, State.setEc]
      refine w_ret ht ?_
      simp only [hx]
      refine winv_ret hS h hep hl (by simp [hc]) ?_ ?_ hnq (by simp) (.inr ⟨by simp, by simp⟩) (by simp [hc]) (by simp [hc])
      · by_cases e : i = k.ix <;> simp [upd, e]
      · by_cases e : i = k.ix <;> simp [upd, e]
  | wait j tm =>
    simp only [hc] at hs
    cases hk : x.key with
    | none => simp [hk] at hs
    | some k =>
      cases hlk : (s.ec j).lock with
      | some u => simp [hk, hlk] at hs
      | none =>
        simp only [hk, hlk] at hs
        split at hs
        · rename_i hix
          simp only [Option.some.injEq] at hs
          subst hs
          simp only [State.put, State.setEc]
          refine w_move (y := { cl := x.cl, ep := .wCheck j tm, key := some k }) ht hk.symm rfl ?_
          refine winv_move h hep hl ?_ ?_ ?_ (by simp [isPull]) (by simp [notIx]) (by simp) ?_ (by simp) ?_ ?_ (by simp [Outs, notIx])
          · by_cases e : i = j <;> simp [upd, e]
          · intro _; exact .inr ⟨j, tm, .inl hc⟩
          · intro j' hj'; simp only [waitIx, Option.some.injEq] at hj'; subst hj'; exact ⟨tm, hc⟩
          · intro tm' hp
            simp only [EPc.wCheck.injEq, reduceCtorEq, or_false] at hp
            obtain ⟨rfl, rfl⟩ := hp
            exact .inl ⟨rfl, k, by rw [hky, hk], hix⟩
          · intro u hu
            refine .inl ?_
            by_cases e : i = j
            · subst e; simpa using hu
            · rwa [upd_ne _ _ e] at hu
          · rintro - ⟨u, hu⟩
            have : u ≠ t := by rintro rfl; rw [hep] at hu; simp at hu
            exact ⟨u, by simpa [upd, this] using hu⟩
        · simp at hs
  | notify j all =>
    simp only [hc] at hs
    by_cases hji : j = i
    · subst hji
      split at hs
      · rename_i hz
        simp only [Option.some.injEq] at hs
        subst hs
        simp only [State.put, State.setEc]
        refine w_ret ht ?_
        simp only [hx]
        rw [← hky, upd_self]
        refine winv_notify0 h hep ?_ ?_ (hE.qm j) (by simp)
        · intro u k hk hix
          have h1 := waiters_eq hE j
          rw [hz] at h1
          have h2 := h1.symm
          simp only [State.nkeys, List.countP_eq_zero] at h2
          simp only [State.key, Option.bind_eq_some_iff] at hk
          obtain ⟨y, hy, hk⟩ := hk
          exact absurd (by simp [hasKey, hk, hix]) (h2 y (List.mem_of_getElem? hy))
        · intro u p h1 h2; exact hE.a.wkey u p j h1 h2
      · simp only [Option.some.injEq] at hs
        subst hs
        simp only [State.put, State.setEc]
        refine w_move (y := { x with ep := .nLock j all }) ht rfl rfl ?_
        refine winv_notify1 h hep hl hc ?_ ?_ ?_ (hE.qm j) (by simp) (by simp)
        · by_cases ho : obl x.cl
          · exact .inl (hA _ ho _ hc)
          · exact .inr ho
        · intro u k hk hix; have := (hE.key u k hk).2; rwa [hix] at this
        · intro u p h1 h2; exact hE.a.wkey u p j h1 h2
    · have hij : i ≠ j := fun c => hji c.symm
      split at hs
      · simp only [Option.some.injEq] at hs
        subst hs
        simp only [State.put, State.setEc]
        refine w_ret ht ?_
        simp only [hx]
        refine winv_ret hS h hep hl (by simp [hc]) ?_ ?_ hnq (by simp) (.inr ⟨by simp, by simp⟩) (by simp [hc, hji]) (fun _ _ _ _ => ⟨.inl rfl, hky.symm⟩)
        · simp [upd, hij]
        · simp [upd, hij]
      · simp only [Option.some.injEq] at hs
        subst hs
        simp only [State.put, State.setEc]
        refine w_move (y := { x with ep := .nLock j all }) ht rfl rfl ?_
        refine winv_move h hep hl ?_ ?_ (by simp [waitIx]) (by simp [isPull]) ?_ (by simp) (by simp) (by simp) ?_ ?_ (by simp [Outs, notIx])
        · simp [upd, hij]
        · intro _; exact .inr ⟨j, false, .inr ⟨all, hc, hji⟩⟩
        · intro j' hj'; simp only [notIx, Option.some.injEq] at hj'; subst hj'; exact ⟨all, hc⟩
        · intro u hu; rw [upd_ne _ _ hij] at hu; exact .inl hu
        · rintro - ⟨u, hu⟩
          have : u ≠ t := by rintro rfl; rw [hep] at hu; simp at hu
          exact ⟨u, by simpa [upd, this] using hu⟩

theorem w_ep {s s' : State G L} {t : Nat} {x : Th L} (hS : Sound P i cond obl) (hE : EInv s) (hN : NoWrap s)
    (hO : a = false → OneOk i s.ep s.key) (h : s.WA a P i cond obl) (ht : s.th[t]? = some x) (hs : stepEp P s t x x.ep = some s') :
    s'.WA a P i cond obl := by
  have hep := ep_of ht
  have hky := key_of ht
  have hl := lcl_of ht
  have hnotq : (∀ j tm, x.ep ≠ .asleep j tm) → (∀ j, x.ep ≠ .woken j true true) → (∀ j, x.ep ≠ .wPost j true true) →
      t ∉ (s.ec i).queue := by
    intro h1 h2 h3 hm
    rcases hE.a.qmem i t hm with ⟨tm, h4⟩ | h4 | h4 <;> rw [hep] at h4 <;> simp only [Option.some.injEq] at h4
    · exact h1 _ _ h4
    · exact h2 _ h4
    · exact h3 _ h4
  have hdrain : (∀ all, x.ep ≠ .nLock i all) → (∀ all any, x.ep ≠ .nLoop i all any) → (∀ w, x.ep ≠ .nAct i true w) →
      ∀ p, Drain a i s.ep → Drain a i (upd s.ep t (some p)) := by
    intro h1 h2 h3 p ⟨u, hu⟩
    have : u ≠ t := by
      rintro rfl
      rw [hep] at hu; simp only [Option.some.injEq] at hu
      rcases hu with ⟨all, hu⟩ | ⟨all, any, hu⟩ | ⟨w, hu⟩
      · exact h1 _ hu.2
      · exact h2 _ _ hu.2
      · exact h3 _ hu
    exact ⟨u, by simpa [upd, this] using hu⟩
  unfold stepEp at hs
  cases hx : x.ep with
  | cl => simp [hx] at hs
  | asleep j tm => simp [hx] at hs
  | wCheck j tm =>
    obtain ⟨tm0, hcall⟩ := h.cw t _ x.cl j hep hl (by rw [hx]; rfl)
    rw [hx] at hs hep
    simp only at hs
    cases hk : x.key with
    | none => simp [hk] at hs
    | some k =>
      simp only [hk] at hs
      split at hs
      · rename_i heq
        simp only [Option.some.injEq] at hs
        subst hs
        simp only [State.put]
        refine w_move (y := { cl := x.cl, ep := .wLink j tm, key := some k }) ht hk.symm rfl ?_
        refine winv_move h hep hl rfl (by simp) ?_ (by simp [isPull]) (by simp [notIx]) (by simp) ?_ ?_ (fun u hu => .inl hu) ?_ (by simp [Outs, notIx])
        · intro j' hj'; simp only [waitIx, Option.some.injEq] at hj'; subst hj'; exact ⟨tm0, hcall⟩
        · intro tm' hp
          simp only [EPc.wLink.injEq, reduceCtorEq, false_or] at hp
          obtain ⟨rfl, rfl⟩ := hp
          exact .inr (.inl rfl)
        · intro tm' hp k' hk'
          simp only [EPc.wLink.injEq] at hp
          obtain ⟨rfl, rfl⟩ := hp
          rw [hky, hk] at hk'; simp only [Option.some.injEq] at hk'; subst hk'
          obtain ⟨k2, hk2, hix⟩ := hE.a.wkey t _ j hep rfl
          rw [hky, hk] at hk2; simp only [Option.some.injEq] at hk2; subst hk2
          have h1 := epoch_eq hE j
          have h2 := hE.key t k (by rw [hky, hk])
          have h3 := hN.2 t x k ht hk
          rw [hix] at h2 h3
          omega
        · intro _; exact hdrain (by simp [hx]) (by simp [hx]) (by simp [hx]) _
      · simp only [Option.some.injEq] at hs
        subst hs
        simp only [State.put, State.setEc]
        refine w_ret ht ?_
        simp only
        refine winv_ret hS h hep hl (by simp [hcall]) ?_ ?_ (hnotq (by simp [hx]) (by simp [hx]) (by simp [hx])) (by simp)
          (.inr ⟨by simp, by simp⟩) (by simp) (by simp [hcall])
        · by_cases e : i = j <;> simp [upd, e]
        · by_cases e : i = j <;> simp [upd, e]
  | wLink j tm =>
    obtain ⟨tm0, hcall⟩ := h.cw t _ x.cl j hep hl (by rw [hx]; rfl)
    rw [hx] at hs hep
    simp only [Option.some.injEq] at hs
    subst hs
    simp only [State.put, State.setEc]
    refine w_move (y := { x with ep := .asleep j tm }) ht rfl rfl ?_
    refine winv_move h hep hl ?_ (by simp) ?_ (by simp [isPull]) (by simp [notIx]) (by simp) (by simp) (by simp) ?_ ?_ (by simp [Outs, notIx])
    · by_cases e : i = j <;> simp [upd, e]
    · intro j' hj'; simp only [waitIx, Option.some.injEq] at hj'; subst hj'; exact ⟨tm0, hcall⟩
    · intro u hu
      by_cases e : i = j
      · subst e
        simp only [upd_same, List.mem_append, List.mem_singleton] at hu
        rcases hu with hu | rfl
        · exact .inl hu
        · exact .inr ⟨rfl, tm, rfl⟩
      · rw [upd_ne _ _ e] at hu; exact .inl hu
    · intro _; exact hdrain (by simp [hx]) (by simp [hx]) (by simp [hx]) _
  | woken j tm to =>
    obtain ⟨tm0, hcall⟩ := h.cw t _ x.cl j hep hl (by rw [hx]; rfl)
    rw [hx] at hs hep
    simp only at hs
    cases hlk : (s.ec j).lock with
    | some u => simp [hlk] at hs
    | none =>
      simp only [hlk, Option.some.injEq] at hs
      subst hs
      simp only [State.put, State.setEc]
      refine w_move (y := { x with ep := .wPost j tm to }) ht rfl rfl ?_
      refine winv_move h hep hl ?_ (by simp) ?_ (by simp [isPull]) (by simp [notIx]) (by simp) (by simp) (by simp) ?_ ?_ (by simp [Outs, notIx])
      · by_cases e : i = j <;> simp [upd, e]
      · intro j' hj'; simp only [waitIx, Option.some.injEq] at hj'; subst hj'; exact ⟨tm0, hcall⟩
      · intro u hu
        by_cases e : i = j
        · subst e; exact .inl (by simpa using hu)
        · rw [upd_ne _ _ e] at hu; exact .inl hu
      · intro _; exact hdrain (by simp [hx]) (by simp [hx]) (by simp [hx]) _
  | wPost j tm to =>
    obtain ⟨tm0, hcall⟩ := h.cw t _ x.cl j hep hl (by rw [hx]; rfl)
    rw [hx] at hs hep
    simp only at hs
    cases tm with
    | true =>
      simp only [if_true] at hs
      have key : ∀ (p' : EPc) (e' : EC) (t' : Nat → Bool) (b' : Bool), isPull p' = true → (∀ j', waitIx p' = some j' → j' = j) → notIx p' = none → p' ≠ .cl →
          (∀ tm, p' ≠ .wCheck i tm ∧ p' ≠ .wLink i tm) →
          (∀ u ∈ e'.queue, u ∈ (s.ec j).queue) → e'.ntf = (s.ec j).ntf →
          State.WA a P i cond obl { g := s.g, ec := upd s.ec j e', th := s.th.set t { x with ep := p' }, tok := t', bad := b' } := by
        intro p' e' t' b' h1 h2 h3 h4 h5 h6 h7
        refine w_move (y := { x with ep := p' }) ht rfl rfl ?_
        refine winv_move h hep hl ?_ (by simp) (by intro j' hj'; rw [h2 j' hj']; exact ⟨tm0, hcall⟩) ?_ (by simp [h3]) (by simp) (by simp [h5]) (by simp [h5]) ?_ ?_ (by simp [Outs, h3, h4])
        · by_cases e : i = j
          · subst e; simpa using h7
          · simp [upd, e]
        · intro _; exact ⟨j, tm0, hcall⟩
        · intro u hu
          by_cases e : i = j
          · subst e; exact .inl (h6 u (by simpa using hu))
          · rw [upd_ne _ _ e] at hu; exact .inl hu
        · intro _; exact hdrain (by simp [hx]) (by simp [hx]) (by simp [hx]) _
      split at hs
      · simp only [Option.some.injEq] at hs
        subst hs
        exact key _ _ _ _ rfl (by simp [waitIx]) rfl (by simp) (by simp) (fun u hu => List.mem_of_mem_erase hu) rfl
      · simp only [Option.some.injEq] at hs
        subst hs
        exact key _ _ _ _ rfl (by simp [waitIx]) rfl (by simp) (by simp) (fun u hu => hu) rfl
    | false =>
      simp only [Bool.false_eq_true, if_false, Option.some.injEq] at hs
      subst hs
      simp only [State.put, State.setEc]
      refine w_ret ht ?_
      simp only
      rw [← hky]
      refine winv_ret hS h hep hl (by simp [hcall]) ?_ ?_ (hnotq (by simp [hx]) (by simp [hx]) (by simp [hx])) (by simp)
        (.inr ⟨by simp, by simp⟩) (by simp) (by simp [hcall])
      · by_cases e : i = j <;> simp [upd, e]
      · by_cases e : i = j <;> simp [upd, e]
  | wPull j to clr =>
    obtain ⟨j0, tm0, hcall⟩ := h.cp t _ x.cl hep hl (by rw [hx]; rfl)
    rw [hx] at hs hep
    simp only at hs
    have key : ∀ (t' : Nat → Bool) (b' : Bool),
        State.WA a P i cond obl { g := s.g, ec := s.ec, th := s.th.set t { x with ep := .cl, cl := P.ret x.cl (!to) }, tok := t', bad := b' } := by
      intro t' b'
      refine w_ret ht ?_
      simp only
      exact winv_ret hS h hep hl (by simp [hcall]) rfl rfl (hnotq (by simp [hx]) (by simp [hx]) (by simp [hx])) (by simp)
        (.inr ⟨by simp, by simp⟩) (by simp) (by simp [hcall])
    cases clr with
    | true =>
      simp only [if_true, Option.some.injEq] at hs
      subst hs
      exact key _ _
    | false =>
      simp only [Bool.false_eq_true, if_false, Option.some.injEq] at hs
      subst hs
      exact key _ _
  | nLock j all =>
    obtain ⟨tm0, hcall⟩ := h.cn t _ x.cl j hep hl (by rw [hx]; rfl)
    rw [hx] at hs hep
    simp only at hs
    cases hlk : (s.ec j).lock with
    | some u => simp [hlk] at hs
    | none =>
      simp only [hlk, Option.some.injEq] at hs
      subst hs
      simp only [State.put, State.setEc]
      refine w_move (y := { x with ep := .nLoop j all false }) ht rfl rfl ?_
      refine winv_move h hep hl ?_ (by simp) (by simp [waitIx]) (by simp [isPull]) ?_ ?_ (by simp) (by simp) ?_ ?_ (by simp [Outs, notIx])
      · by_cases e : i = j <;> simp [upd, e]
      · intro j' hj'; simp only [notIx, Option.some.injEq] at hj'; subst hj'; exact ⟨tm0, hcall⟩
      · rintro ⟨all', h1⟩ u tm hu
        simp only [EPc.nLock.injEq] at h1
        obtain ⟨rfl, -⟩ := h1
        have := hE.a.lockH u _ j hu rfl
        rw [hlk] at this; simp at this
      · intro u hu
        by_cases e : i = j
        · subst e; exact .inl (by simpa using hu)
        · rw [upd_ne _ _ e] at hu; exact .inl hu
      · rintro - ⟨u, hu⟩
        by_cases e : i = j
        · subst e
          by_cases e1 : u = t
          · subst e1
            rw [hep] at hu; simp at hu
            exact ⟨u, .inr (.inl ⟨all, false, hu, by simp⟩)⟩
          · exact ⟨u, by simpa [upd, e1] using hu⟩
        · have : u ≠ t := by
            rintro rfl
            rw [hep] at hu; simp at hu
            exact e hu.2.symm
          exact ⟨u, by simpa [upd, this] using hu⟩
  | nLoop j all any =>
    obtain ⟨tm0, hcall⟩ := h.cn t _ x.cl j hep hl (by rw [hx]; rfl)
    rw [hx] at hs hep
    simp only at hs
    cases hq : (s.ec j).queue with
    | nil =>
      simp only [hq, Option.some.injEq] at hs
      subst hs
      simp only [State.put, State.setEc]
      refine w_ret ht ?_
      simp only
      refine winv_ret hS h hep hl (by simp [hcall]) ?_ ?_ (hnotq (by simp [hx]) (by simp [hx]) (by simp [hx])) (by simp) ?_ (by simp) (by intro j' all' h1 h2; rw [hcall] at h1; simp only [Call.notify.injEq] at h1; exact ⟨.inr ⟨j, rfl, by rw [h1.1]; exact h2⟩, hky.symm⟩)
      · by_cases e : i = j
        · subst e; simp [upd, hq]
        · simp [upd, e]
      · by_cases e : i = j <;> simp [upd, e]
      · by_cases e : i = j
        · subst e; exact .inl hq
        · refine .inr ⟨?_, by simp⟩
          intro all' any' hc; simp at hc; exact e hc.1.symm
    | cons w q =>
      simp only [hq, Option.some.injEq] at hs
      subst hs
      simp only [State.put, State.setEc]
      refine w_move (y := { x with ep := .nAct j all w }) ht rfl rfl ?_
      refine winv_move h hep hl ?_ (by simp) (by simp [waitIx]) (by simp [isPull]) ?_ (by simp) (by simp) (by simp) ?_ ?_ (by simp [Outs, notIx])
      · by_cases e : i = j <;> simp [upd, e]
      · intro j' hj'; simp only [notIx, Option.some.injEq] at hj'; subst hj'; exact ⟨tm0, hcall⟩
      · intro u hu
        by_cases e : i = j
        · subst e
          simp only [upd_same] at hu
          exact .inl (by rw [hq]; simp [hu])
        · rw [upd_ne _ _ e] at hu; exact .inl hu
      · rintro ⟨v, hv, -⟩ ⟨u, hu⟩
        by_cases e : i = j
        · subst e
          cases all with
          | true => exact ⟨t, .inr (.inr ⟨w, by simp⟩)⟩
          | false =>
            by_cases e1 : u ≠ t
            · exact ⟨u, by simpa [upd, e1] using hu⟩
            exfalso
            simp only [Decidable.not_not] at e1
            subst e1
            have ha0 : a = false := by
              rw [hep] at hu; simp [Counts] at hu; exact hu
            simp only [upd_same] at hv
            rcases hO ha0 with hO | hO
            · exact (hO u).2 any hep
            · obtain ⟨p1, hp1, hp2⟩ := hE.qm i w (by rw [hq]; simp)
              obtain ⟨p3, hp3, hp4⟩ := hE.qm i v (by rw [hq]; simp [hv])
              obtain ⟨k1, hk1, hk1'⟩ := hE.a.wkey w p1 i hp1 hp2
              obtain ⟨k3, hk3, hk3'⟩ := hE.a.wkey v p3 i hp3 hp4
              have := hO w v k1 k3 hk1 hk1' hk3 hk3'
              subst this
              have := hE.a.qnd i
              rw [hq, List.nodup_cons] at this
              exact this.1 hv
        · have : u ≠ t := by
            rintro rfl
            rw [hep] at hu; simp at hu
            exact e hu.2.symm
          exact ⟨u, by simpa [upd, this] using hu⟩
  | nAct j all w =>
    obtain ⟨tm0, hcall⟩ := h.cn t _ x.cl j hep hl (by rw [hx]; rfl)
    rw [hx] at hs hep
    simp only [Option.some.injEq] at hs
    subst hs
    obtain ⟨a1, a2, a3⟩ := hE.a.act t j all w hep
    have hwt : w ≠ t := by rintro rfl; rw [hep] at a3; simp at a3
    have fin : ∀ E : Nat → Option EPc, E t = some (.nAct j all w) → WInv a P i cond obl s.g (s.ec i) E s.key s.lcl →
        WInv a P i cond obl s.g (s.ec i) (upd E t (some (if all = true then EPc.nLoop j all true else .nDone j))) s.key s.lcl := by
      intro E hE' hW
      refine winv_move hW hE' hl rfl (by simp) ?_ ?_ ?_ (by simp) ?_ ?_ (fun u hu => .inl hu) ?_ ?_
      · cases all <;> simp [waitIx]
      · cases all <;> simp [isPull]
      · intro j' hj'
        have : j = j' := by cases all <;> simpa [notIx] using hj'
        subst this; exact ⟨tm0, hcall⟩
      · cases all <;> simp
      · cases all <;> simp
      · rintro - ⟨u, hu⟩
        by_cases e1 : u = t
        · subst e1
          rw [hE'] at hu; simp at hu
          obtain ⟨rfl, rfl⟩ := hu
          exact ⟨u, .inr (.inl ⟨true, true, by simp [Counts], by simp⟩)⟩
        · exact ⟨u, by simpa [upd, e1] using hu⟩
      · cases all <;> simp [Outs, notIx]
    rcases a3 with ⟨tm, hw⟩ | hw
    · obtain ⟨z, hz, hze⟩ : ∃ z, s.th[w]? = some z ∧ z.ep = .asleep j tm := by
        simp only [State.ep, Option.map_eq_some_iff] at hw; exact hw
      have e1 : s.activate w = s.put w { z with ep := .woken j tm false } := by
        simp only [State.activate, hz, hze]
      rw [e1]
      have ht' : (s.put w { z with ep := .woken j tm false }).th[t]? = some x := by
        simp only [State.put]; rw [List.getElem?_set_ne hwt]; exact ht
      have hW1 : (s.put w { z with ep := .woken j tm false }).WA a P i cond obl :=
        w_move (y := { z with ep := .woken j tm false }) hz rfl rfl (winv_wake h hw)
      refine w_move (s := s.put w { z with ep := .woken j tm false })
        (y := { x with ep := if all = true then EPc.nLoop j all true else .nDone j }) ht' rfl rfl ?_
      have e2 : (s.put w { z with ep := .woken j tm false }).key = s.key := by
        rw [key_put hz, ← key_of hz, upd_self]
      have e3 : (s.put w { z with ep := .woken j tm false }).lcl = s.lcl := by
        rw [lcl_put hz, ← lcl_of hz, upd_self]
      have e4 : (s.put w { z with ep := .woken j tm false }).ep t = some (.nAct j all w) := by
        rw [ep_put hz, upd_ne _ _ hwt.symm]; exact hep
      rw [e2, e3]
      refine fin _ e4 ?_
      unfold State.WA at hW1
      rw [e2, e3] at hW1
      exact hW1
    · obtain ⟨z, hz, hze⟩ : ∃ z, s.th[w]? = some z ∧ z.ep = .woken j true true := by
        simp only [State.ep, Option.map_eq_some_iff] at hw; exact hw
      have e1 : s.activate w = { s with tok := upd s.tok w true, bad := s.bad || s.tok w } := by
        simp only [State.activate, hz, hze]
      rw [e1]
      simp only [State.put]
      exact w_move (y := { x with ep := if all = true then EPc.nLoop j all true else .nDone j }) ht rfl rfl (fin _ hep h)
  | nDone j =>
    obtain ⟨tm0, hcall⟩ := h.cn t _ x.cl j hep hl (by rw [hx]; rfl)
    rw [hx] at hs hep
    simp only [Option.some.injEq] at hs
    subst hs
    simp only [State.put, State.setEc]
    refine w_ret ht ?_
    simp only
    refine winv_ret hS h hep hl (by simp [hcall]) ?_ ?_ (hnotq (by simp [hx]) (by simp [hx]) (by simp [hx])) (by simp)
      (.inr ⟨by simp, by simp⟩) (by simp) (by intro j' all' h1 h2; rw [hcall] at h1; simp only [Call.notify.injEq] at h1; exact ⟨.inr ⟨j, rfl, by rw [h1.1]; exact h2⟩, hky.symm⟩)
    · by_cases e : i = j <;> simp [upd, e]
    · by_cases e : i = j <;> simp [upd, e]

theorem w_step {s s' : State G L} {ac : Act C} (hS : Sound P i cond obl)
    (hA : ∀ l, obl l → ∀ all, P.call l = .notify i all → Counts a all) (hE : EInv s) (hN : NoWrap s)
    (hO : a = false → OneOk i s.ep s.key) (h : s.WA a P i cond obl) (hs : step P s ac = some s') : s'.WA a P i cond obl := by
  cases ac with
  | go t c =>
    simp only [step] at hs
    cases ht : s.th[t]? with
    | none => simp [ht] at hs
    | some x =>
      simp only [ht] at hs
      split at hs
      · rename_i hx; exact w_call hS hE hA h ht hx hs
      · exact w_ep hS hE hN hO h ht hs
  | timer t =>
    simp only [step] at hs
    cases ht : s.th[t]? with
    | none => simp [ht] at hs
    | some x =>
      simp only [ht] at hs
      split at hs
      · rename_i j hx
        simp only [Option.some.injEq] at hs
        subst hs
        exact w_move (y := { x with ep := .woken j true true }) ht rfl rfl (winv_wake h (by rw [ep_of ht, hx]))
      · simp at hs

theorem w_init {I : G → Prop} {J : L → Prop} {s : State G L} (h : Init I J s) :
    s.WA a P i cond obl := by
  obtain ⟨_, hec, hth, htok, hbad⟩ := h
  have he : ∀ t p, s.ep t = some p → p = .cl := by
    intro t p hp
    simp only [State.ep, Option.map_eq_some_iff] at hp
    obtain ⟨x, hx, rfl⟩ := hp
    exact (hth x (List.mem_of_getElem? hx)).2.1
  constructor
  · intro t p hp
    simp only [State.ep, Option.map_eq_some_iff] at hp
    obtain ⟨x, hx, rfl⟩ := hp
    exact ⟨x.cl, lcl_of hx⟩
  · intro t p l j hp hl hw; have := he t p hp; subst this; simp [waitIx] at hw
  · intro t p l hp hl hw; have := he t p hp; subst this; simp [isPull] at hw
  · intro t p l j hp hl hw; have := he t p hp; subst this; simp [notIx] at hw
  · intro t l k _ hk
    simp only [State.key] at hk
    cases hx : s.th[t]? with
    | none => simp [hx] at hk
    | some x => simp [hx, (hth x (List.mem_of_getElem? hx)).2.2] at hk
  · intro t l k tm _ _ hp; rcases hp with hp | hp <;> have := he _ _ hp <;> simp at this
  · intro t l k tm hp; have := he _ _ hp; simp at this
  · intro t l k h; simp [hec] at h
  · intro t l k h; simp [hec] at h

/-- The invariant in every reachable state. -/
theorem w_reach {I : G → Prop} {J : L → Prop} {Q : State G L → Prop} (hS : Sound P i cond obl)
    (hN : ∀ s, Q s → NoWrap s)
    {s : State G L} (h : Reach (Init I J) (step P) Q s)
    (hO : ∀ s, Reach (Init I J) (step P) Q s → OneOk i s.ep s.key) : s.W P i cond obl := by
  induction h with
  | init hi hq => exact w_init hi
  | step hr hst hq ih =>
    exact w_step hS (by simp [Counts]) (einv_reach (fun s h => (hN s h).1) hr) (hN _ hr.q) (fun _ => hO _ hr) ih hst

/-- The same when every thread that owes a notification owes a `notifyAll`: then `notify` may be used freely for
other purposes and any number of threads may wait. -/
theorem w_reach_all {I : G → Prop} {J : L → Prop} {Q : State G L → Prop} (hS : Sound P i cond obl)
    (hA : ∀ l, obl l → P.call l ≠ .notify i false) (hN : ∀ s, Q s → NoWrap s)
    {s : State G L} (h : Reach (Init I J) (step P) Q s) : s.WA true P i cond obl := by
  induction h with
  | init hi hq => exact w_init hi
  | step hr hst hq ih =>
    refine w_step hS ?_ (einv_reach (fun s h => (hN s h).1) hr) (hN _ hr.q) (by simp) ih hst
    intro l ho all hc _
    cases all
    · exact absurd hc (hA l ho)
    · rfl

/-- Thread in `p` will wake `t`, which sleeps on event count `i`: it is about to take all sleepers (one, if notify-one
counts) off the queue, or has already taken `t` off. -/
def WillWake (a : Bool) (i t : Nat) (p : EPc) : Prop :=
  (∃ all, Counts a all ∧ p = .nLock i all) ∨ (∃ all any, Counts a all ∧ p = .nLoop i all any) ∨
    (∃ w, p = .nAct i true w) ∨ ∃ all, p = .nAct i all t

theorem WillWake.ix {a : Bool} {i t : Nat} {p : EPc} (h : WillWake a i t p) : notIx p = some i := by
  rcases h with ⟨_, _, rfl⟩ | ⟨_, _, _, rfl⟩ | ⟨_, rfl⟩ | ⟨_, rfl⟩ <;> rfl

/-- A sleeper whose condition holds: some other thread owes a notification or is in the middle of one. -/
theorem no_lost' {s : State G L} (hS : Sound P i cond obl) (hE : EInv s) (h : s.WA a P i cond obl) {t : Nat} {l : L} {tm : Bool}
    (hp : s.ep t = some (.asleep i tm)) (hl : s.lcl t = some l) (hc : cond l s.g) :
    ∃ u, u ≠ t ∧ ((∃ m, s.lcl u = some m ∧ obl m ∧ ∀ all, P.call m = .notify i all → s.ep u = some .cl) ∨
      ∃ p, s.ep u = some p ∧ WillWake a i t p) := by
  obtain ⟨tm', hcall⟩ := h.cw t _ l i hp hl rfl
  have hne : ∀ u p, s.ep u = some p → WillWake a i t p → u ≠ t := by
    rintro u p h1 h2 rfl
    have h3 := h2.ix
    rw [hp] at h1; simp only [Option.some.injEq] at h1; subst h1; simp [notIx] at h3
  have hd : Drain a i s.ep → ∃ u, u ≠ t ∧ ∃ p, s.ep u = some p ∧ WillWake a i t p := by
    rintro ⟨u, hu⟩
    have : ∃ p, s.ep u = some p ∧ WillWake a i t p := by
      rcases hu with ⟨all, h1, hu⟩ | ⟨all, any, h1, hu⟩ | ⟨w, hu⟩
      · exact ⟨_, hu, .inl ⟨all, h1, rfl⟩⟩
      · exact ⟨_, hu, .inr (.inl ⟨all, any, h1, rfl⟩)⟩
      · exact ⟨_, hu, .inr (.inr (.inl ⟨w, rfl⟩))⟩
    obtain ⟨p, h1, h2⟩ := this
    exact ⟨u, hne u p h1 h2, p, h1, h2⟩
  rcases hE.a.slp t i tm hp with hq | ⟨u, all, hu⟩
  · obtain ⟨k, hk, hix⟩ := hE.a.wkey t _ i hp rfl
    have hod : Obl P i obl s.ep s.lcl ∨ Drain a i s.ep := by
      by_cases hg : k.gh = (s.ec i).ntf
      · exact .inl (h.slp0 t l k hq hl hk hg hc)
      · exact h.slp1 t l k hq hl hk hg hc
    rcases hod with ⟨u, m, h1, h2, h3⟩ | hod
    · refine ⟨u, ?_, .inl ⟨m, h1, h2, h3⟩⟩
      rintro rfl
      rw [hl] at h1; simp only [Option.some.injEq] at h1; subst h1
      exact hS.nowait l _ tm' h2 hcall hc
    · obtain ⟨u, hu, hp'⟩ := hd hod
      exact ⟨u, hu, .inr hp'⟩
  · exact ⟨u, hne u _ hu (.inr (.inr (.inr ⟨all, rfl⟩))), .inr ⟨_, hu, .inr (.inr (.inr ⟨all, rfl⟩))⟩⟩

theorem no_lost {s : State G L} (hS : Sound P i cond obl) (hE : EInv s) (h : s.WA a P i cond obl) {t : Nat} {l : L} {tm : Bool}
    (hp : s.ep t = some (.asleep i tm)) (hl : s.lcl t = some l) (hc : cond l s.g) :
    ∃ u, u ≠ t ∧ ((∃ m, s.lcl u = some m ∧ obl m ∧ ∀ all, P.call m = .notify i all → s.ep u = some .cl) ∨
      ∃ p, s.ep u = some p ∧ notIx p = some i) := by
  obtain ⟨u, h1, h2 | ⟨p, h2, h3⟩⟩ := no_lost' hS hE h hp hl hc
  · exact ⟨u, h1, .inl h2⟩
  · exact ⟨u, h1, .inr ⟨p, h2, h3.ix⟩⟩

theorem holder_live {s : State G L} (hE : EInv s) {u j : Nat} {p : EPc} (hu : s.ep u = some p) (hp : holdsLock p = some j)
    (c : C) : step P s (.go u c) ≠ none := by
  obtain ⟨x, hx, rfl⟩ : ∃ x, s.th[u]? = some x ∧ x.ep = p := by
    simp only [State.ep, Option.map_eq_some_iff] at hu; exact hu
  have hky := key_of hx
  have hcl : x.ep ≠ .cl := by intro e; rw [e] at hp; simp [holdsLock] at hp
  simp only [step, hx, hcl, if_false]
  cases he : x.ep <;> rw [he] at hp <;> simp [holdsLock] at hp <;> simp only [stepEp]
  · subst hp
    obtain ⟨k, hk, _⟩ := hE.a.wkey u _ _ hu (by rw [he]; rfl)
    rw [hky] at hk
    rw [hk]
    simp only
    split <;> simp
  · simp
  · split <;> (try split) <;> simp
  · split <;> simp
  · simp
  · simp

theorem notify_live {s : State G L} (hE : EInv s) {u j : Nat} {p : EPc} (hu : s.ep u = some p) (hp : notIx p = some j)
    (c : C) : ∃ v, step P s (.go v c) ≠ none := by
  cases hh : holdsLock p with
  | some j' => exact ⟨u, holder_live hE hu hh c⟩
  | none =>
    cases p <;> simp [notIx] at hp <;> simp [holdsLock] at hh
    subst hp
    rename_i j all
    cases hlk : (s.ec j).lock with
    | some v =>
      obtain ⟨q, h1, h2⟩ := hE.a.lockO j v hlk
      exact ⟨v, holder_live hE h1 h2 c⟩
    | none =>
      refine ⟨u, ?_⟩
      obtain ⟨x, hx, he⟩ : ∃ x, s.th[u]? = some x ∧ x.ep = .nLock j all := by
        simp only [State.ep, Option.map_eq_some_iff] at hu; exact hu
      simp [step, hx, he, stepEp, hlk]

/-- When no thread can move, no sleeper's condition holds. -/
theorem quiescent {s : State G L} [Nonempty C] (hS : Sound P i cond obl) (hE : EInv s) (h : s.WA a P i cond obl)
    (hlive : ∀ m, obl m → (P.call m = .loc ∧ ∀ g t, ∃ c, P.loc g m t c ≠ none) ∨ ∃ j all, P.call m = .notify j all)
    (hst : ∀ u c, step P s (.go u c) = none) {t : Nat} {l : L} {tm : Bool}
    (hp : s.ep t = some (.asleep i tm)) (hl : s.lcl t = some l) : ¬ cond l s.g := by
  intro hc
  obtain ⟨c0⟩ := ‹Nonempty C›
  have hnw : ∀ m j tm, obl m → P.call m ≠ .wait j tm := by
    intro m j tm ho hw
    rcases hlive m ho with ⟨h1, -⟩ | ⟨j, all, h1⟩ <;> rw [hw] at h1 <;> simp at h1
  obtain ⟨u, -, hu⟩ := no_lost hS hE h hp hl hc
  rcases hu with ⟨m, hm, ho, hcl⟩ | ⟨p, hu, hpi⟩
  · obtain ⟨x, hx, hxm⟩ : ∃ x, s.th[u]? = some x ∧ x.cl = m := by
      simp only [State.lcl, Option.map_eq_some_iff] at hm; exact hm
    subst hxm
    have hep := ep_of hx
    by_cases he : x.ep = .cl
    · rcases hlive x.cl ho with ⟨h1, h2⟩ | ⟨j, all, h1⟩
      · obtain ⟨c, h2⟩ := h2 s.g u
        have := hst u c
        simp only [step, hx, he, if_true, stepCall, h1, Option.map_eq_none_iff] at this
        exact h2 this
      · have := hst u c0
        simp only [step, hx, he, if_true, stepCall, h1] at this
        split at this <;> simp at this
    · cases hn : notIx x.ep with
      | some j =>
        obtain ⟨v, hv⟩ := notify_live (P := P) hE hep hn c0
        exact hv (hst v c0)
      | none =>
        exfalso
        cases hw : waitIx x.ep with
        | some j =>
          obtain ⟨tm', h1⟩ := h.cw u _ x.cl j hep hm hw
          exact hnw _ _ _ ho h1
        | none =>
          have : isPull x.ep = true := by
            cases h0 : x.ep <;> rw [h0] at hn hw <;> simp [notIx, waitIx, isPull] at hn hw ⊢
            exact he h0
          obtain ⟨j, tm', h1⟩ := h.cp u _ x.cl hep hm this
          exact hnw _ _ _ ho h1
  · obtain ⟨v, hv⟩ := notify_live (P := P) hE hu hpi c0
    exact hv (hst v c0)

end steps

/-- If a client never calls `notify` (one) on `i`, then `OneOk` holds. -/
theorem oneOk_all {I : G → Prop} {J : L → Prop} {Q : State G L → Prop} {i : Nat} (hQ : ∀ s, Q s → s.th.length < 2 ^ 32)
    (ha : ∀ l, P.call l ≠ .notify i false) {s : State G L} (h : Reach (Init I J) (step P) Q s) : OneOk i s.ep s.key := by
  left
  suffices H : ∀ s', Reach (Init I J) (step P) Q s' → ∀ u (x : Th L), s'.th[u]? = some x →
      x.ep ≠ .nLock i false ∧ ∀ any, x.ep ≠ .nLoop i false any by
    intro u
    constructor
    · intro hu
      simp only [State.ep, Option.map_eq_some_iff] at hu
      obtain ⟨x, h1, h2⟩ := hu
      exact (H s h u x h1).1 h2
    · intro any hu
      simp only [State.ep, Option.map_eq_some_iff] at hu
      obtain ⟨x, h1, h2⟩ := hu
      exact (H s h u x h1).2 any h2
  intro s' h'
  induction h' with
  | init hi _ =>
    intro u x hx
    have := (hi.2.2.1 x (List.mem_of_getElem? hx)).2.1
    simp [this]
  | @step s a s' hr hst hq ih =>
    have act : ∀ (w u : Nat) (x : Th L), (s.activate w).th[u]? = some x → x.ep ≠ .nLock i false ∧ ∀ any, x.ep ≠ .nLoop i false any := by
      intro w u x
      simp only [State.activate]
      split
      · split
        · intro h; simp only [State.put] at h
          rcases get_set h with ⟨-, rfl⟩ | ⟨-, h⟩
          · simp
          · exact ih u x h
        · exact ih u x
        · exact ih u x
      · exact ih u x
    cases a with
    | go t c =>
      simp only [step] at hst
      cases ht : s.th[t]? with
      | none => simp [ht] at hst
      | some x =>
        simp only [ht] at hst
        split at hst
        · rename_i hx
          unfold stepCall at hst
          intro u y hy
          repeat' split at hst
          all_goals first
            | simp at hst; done
            | (simp only [Option.map_eq_some_iff] at hst
               obtain ⟨r, _, rfl⟩ := hst
               simp only [State.put] at hy
               rcases get_set hy with ⟨-, rfl⟩ | ⟨-, h⟩
               · simp [hx]
               · exact ih u y h)
            | (simp only [Option.some.injEq] at hst
               subst hst
               simp only [State.put, State.setEc] at hy
               rcases get_set hy with ⟨-, rfl⟩ | ⟨-, h⟩
               · first
                 | simp [hx]; done
                 | (refine ⟨?_, by simp⟩; intro h; simp only [EPc.nLock.injEq] at h; obtain ⟨rfl, rfl⟩ := h; exact ha _ (by assumption))
               · exact ih u y h)
        · unfold stepEp at hst
          intro u y hy
          have hx := ih t x ht
          cases he : x.ep <;> simp only [he] at hst hx
          case nAct j all w =>
            simp only [Option.some.injEq] at hst
            subst hst
            simp only [State.put] at hy
            rcases get_set hy with ⟨-, rfl⟩ | ⟨-, h⟩
            · cases all <;> simp
            · exact act w u y h
          all_goals
            repeat' split at hst
            all_goals first
              | simp at hst; done
              | (simp only [Option.some.injEq] at hst
                 subst hst
                 simp only [State.put, State.setEc] at hy
                 rcases get_set hy with ⟨-, rfl⟩ | ⟨-, h⟩
                 · first
                   | simp; done
                   | (simp at hx ⊢; exact hx)
                 · exact ih u y h)
    | timer t =>
      simp only [step] at hst
      intro u y hy
      repeat' split at hst
      all_goals first
        | simp at hst; done
        | (simp only [Option.some.injEq] at hst
           subst hst
           simp only [State.put] at hy
           rcases get_set hy with ⟨-, rfl⟩ | ⟨-, h⟩
           · simp
           · exact ih u y h)

end Verif.EventCount
