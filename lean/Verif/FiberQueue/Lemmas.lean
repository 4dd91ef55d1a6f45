import Verif.FiberQueue.Spec
/-! Invariants of the fiber queue. -/
namespace Verif.FiberQueue
open Verif.Common Verif.EventCount Verif.Channel
variable {α : Type}

theorem at_lcl {s : St α} {t : Nat} {l : Pc α} : At s t l ↔ s.lcl t = some l := by
  simp only [At, State.lcl, Option.map_eq_some_iff]

theorem lcl_idle {I : G α → Prop} {s : St α} (hi : Init I (fun l => l = .idle) s) {t : Nat} {l : Pc α} (hl : s.lcl t = some l) :
    l = .idle := by
  simp only [State.lcl, Option.map_eq_some_iff] at hl
  obtain ⟨x, hx, rfl⟩ := hl
  exact (hi.2.2.1 x (List.mem_of_getElem? hx)).1

theorem reach_self {R : St α → Prop} {s : St α} (h : FReach α R s) : FReach α (FReach α R) s := by
  induction h with
  | init hi hq => exact .init hi (.init hi hq)
  | step hr hst hq ih => exact .step ih hst (.step hr hst hq)

/-- The client steps: control only, claim, publish, take, release, execute, close. -/
theorem loc_cases {g g' : G α} {l l' : Pc α} {c : Ch α} (h : cLoc g l c = some (g', l')) :
    (g' = g ∧ l = .idle ∧ ((∃ x, l' = .push .fast x) ∨ (∃ x, l' = .push .once x) ∨ l' = .rTry false)) ∨
    (g' = { g with closed := true } ∧ l = .idle ∧ l' = .cNtf) ∨
    (∃ m x, l = .push m x ∧ g.q.room g.q.tail = true ∧ l' = .pub m g.q.tail x ∧
      g' = { g with q := { g.q with tail := g.q.tail + 1, items := g.q.items ++ [x] } }) ∨
    (∃ m x, l = .push m x ∧ g.q.room g.q.tail = false ∧ l' = pushFail x m ∧ g' = g) ∨
    (∃ m p x, l = .pub m p x ∧ l' = .ntfPull m ∧ g' = { g with q := { g.q with cell := upd g.q.cell p (some x) } }) ∨
    (∃ v, g.q.cell g.q.head = some v ∧ g' = { g with q := { g.q with head := g.q.head + 1 } } ∧
      ((∃ b, l = .rTry b ∧ l' = .rRel b g.q.head v) ∨ ∃ ts, l = .rMore ts ∧ ts.length < batchSize ∧ l' = .rRel2 ts g.q.head v)) ∨
    (∃ b, l = .rTry b ∧ g.q.cell g.q.head = none ∧ l' = .rCls b g.q.head ∧ g' = g) ∨
    (∃ p v, g' = { g with q := { g.q with freed := upd g.q.freed p true } } ∧
      ((l = .rRel true p v ∧ l' = .rDrop [v]) ∨ (l = .rRel false p v ∧ l' = .rMore [v]) ∨ ∃ ts, l = .rRel2 ts p v ∧ l' = .rMore (ts ++ [v]))) ∨
    (∃ b h, l = .rCls b h ∧ g' = g ∧ ((g.closed = true ∧ l' = if b then .rDropC else .fin) ∨
      (g.closed = false ∧ l' = if b then .rWait h else .rPrep))) ∨
    (∃ ts, l = .rMore ts ∧ (g.q.cell g.q.head = none ∨ batchSize ≤ ts.length) ∧ l' = .rNtf ts ∧ g' = g) ∨
    (∃ x ts, l = .rExec (x :: ts) ∧ l' = .rExec ts ∧ g' = { g with ran := g.ran ++ [x] }) ∨
    (l = .rExec [] ∧ l' = .rTry false ∧ g' = g) ∨
    (l = .fin ∧ g' = g ∧ l' = .idle) := by
  cases l <;> simp only [cLoc] at h
  case idle => cases c <;> grind
  case push m x => cases hr : g.q.room g.q.tail <;> simp [Q.claim, hr] at h <;> grind
  case pub m p x => simp [Q.publish] at h; grind
  case rTry b => cases hv : g.q.cell g.q.head <;> simp [Q.take, hv] at h <;> grind
  case rRel b p v => cases b <;> simp [Q.release] at h <;> grind
  case rCls b h0 => cases hc : g.closed <;> simp [hc] at h <;> grind
  case rMore ts =>
    by_cases hl : ts.length < batchSize
    · cases hv : g.q.cell g.q.head <;> simp [Q.take, hv, hl] at h <;> grind
    · simp [hl] at h; grind
  case rRel2 ts p v => simp [Q.release] at h; grind
  case rExec ts => cases ts <;> simp [cLoc] at h <;> grind
  case fin => grind
  all_goals simp at h

def OneRF (F : Nat → Option (Pc α)) : Prop :=
  ∀ t u l m, F t = some l → F u = some m → Running l = true → Running m = true → t = u

theorem oneRF {s : St α} (h : OneRunner s) : OneRF s.lcl :=
  fun t u l m h1 h2 => h t u l m (at_lcl.2 h1) (at_lcl.2 h2)

/-- The tasks `Run` has taken and not yet executed. -/
def pend : Pc α → List α
  | .rRel _ _ v => [v]
  | .rDrop ts | .rMore ts | .rNtf ts | .rExec ts => ts
  | .rRel2 ts _ v => ts ++ [v]
  | _ => []

/-- A claimed position whose cell is not released. -/
def held : Pc α → Option Nat
  | .rRel _ p _ | .rRel2 _ p _ => some p
  | _ => none

def ppub : Pc α → Option (Nat × α)
  | .pub _ p x => some (p, x)
  | _ => none

structure QInv (g : G α) (F : Nat → Option (Pc α)) : Prop where
  cap : 0 < g.q.cap
  len : g.q.items.length = g.q.tail
  ht : g.q.head ≤ g.q.tail
  cell : ∀ p v, g.q.cell p = some v → g.q.items[p]? = some v
  clm : ∀ p, p < g.q.tail → (∃ v, g.q.cell p = some v) ∨ ∃ t m x, F t = some (.pub m p x)
  pub : ∀ t m p x, F t = some (.pub m p x) → p < g.q.tail ∧ g.q.cell p = none ∧ g.q.items[p]? = some x
  pub1 : ∀ t u m n p x y, F t = some (.pub m p x) → F u = some (.pub n p y) → t = u
  hd : ∀ p, p < g.q.head → ∃ v, g.q.cell p = some v
  frd : ∀ p, g.q.freed p = true → p < g.q.head
  ufr : ∀ p, p < g.q.head → g.q.freed p = true ∨ ∃ t l, F t = some l ∧ held l = some p
  hold : ∀ t l p, F t = some l → held l = some p → p < g.q.head ∧ g.q.freed p = false
  bnd : ∀ p, p < g.q.tail → g.q.cap ≤ p → g.q.freed (p - g.q.cap) = true
  run : ∀ t l, F t = some l → Running l = true → g.ran ++ pend l = g.q.items.take g.q.head
  ran : (∀ t l, F t = some l → Running l = false) → g.ran = g.q.items.take g.q.head

def Ctl (l : Pc α) : Prop := (∀ n p y, l ≠ .pub n p y) ∧ held l = none

theorem pend_nil {l : Pc α} (h : Running l = false) : pend l = [] := by
  cases l <;> simp [Running] at h <;> rfl

theorem held_running {l : Pc α} {p : Nat} (h : held l = some p) : Running l = true := by
  cases l <;> simp [held] at h <;> rfl

/-- The part of the invariant about executed tasks, for a step of fiber `t` that changes neither the queue's head nor
its items up to it. -/
theorem run_ctl {g g' : G α} {F : Nat → Option (Pc α)} {t : Nat} {l l' : Pc α} (h : QInv g F) (hF : F t = some l)
    (hD : OneRF F) (hD' : OneRF (upd F t (some l'))) (ht : g'.q.items.take g'.q.head = g.q.items.take g.q.head)
    (hg : g'.ran ++ pend l' = g.ran ++ pend l) (hn : Running l = false → Running l' = false → g'.ran = g.ran) (hr : g'.ran = g.ran ∨ Running l = true) :
    (∀ u m, upd F t (some l') u = some m → Running m = true → g'.ran ++ pend m = g'.q.items.take g'.q.head) ∧
    ((∀ u m, upd F t (some l') u = some m → Running m = false) → g'.ran = g'.q.items.take g'.q.head) := by
  rw [ht]
  constructor
  · intro u m hu hm
    by_cases e : u = t
    · subst e
      simp only [upd_same, Option.some.injEq] at hu; subst hu
      rw [hg]
      cases hrl : Running l
      · rw [pend_nil hrl, List.append_nil]
        apply h.ran
        intro w n hw
        cases hrn : Running n
        · rfl
        · by_cases e2 : w = u
          · subst e2; rw [hF] at hw; simp only [Option.some.injEq] at hw; subst hw; simp_all
          · have := hD' w u n l' (by rw [upd_ne _ _ e2]; exact hw) (by simp) hrn hm
            exact absurd this e2
      · exact h.run u l hF hrl
    · rw [upd_ne _ _ e] at hu
      rcases hr with h1 | h1
      · rw [h1]; exact h.run u m hu hm
      · exact absurd (hD u t m l hu hF hm h1) e
  · intro hall
    have h2 := hall t l' (by simp)
    rw [pend_nil h2, List.append_nil] at hg
    cases hrl : Running l
    · rw [pend_nil hrl, List.append_nil] at hg
      rw [hg]
      apply h.ran
      intro w n hw
      by_cases e2 : w = t
      · subst e2; rw [hF] at hw; simp only [Option.some.injEq] at hw; subst hw; exact hrl
      · exact hall w n (by rw [upd_ne _ _ e2]; exact hw)
    · rw [hg]; exact h.run t l hF hrl

theorem qinv_ctl {g g' : G α} {F : Nat → Option (Pc α)} {t : Nat} {l l' : Pc α} (h : QInv g F) (hF : F t = some l)
    (hD : OneRF F) (hD' : OneRF (upd F t (some l')))
    (h1 : Ctl l) (h2 : Ctl l') (hq : g'.q = g.q) (hg : g'.ran ++ pend l' = g.ran ++ pend l) (hr : g'.ran = g.ran ∨ Running l = true) :
    QInv g' (upd F t (some l')) := by
  obtain ⟨hrun, hran⟩ := run_ctl h hF hD hD' (by rw [hq]) hg (by grind) hr
  obtain ⟨h1, h1'⟩ := h1
  obtain ⟨h2, h2'⟩ := h2
  obtain ⟨cap, len, ht, cell, clm, pub, pub1, hd, frd, ufr, hold, bnd, run, ran⟩ := h
  rw [hq] at hrun hran
  refine ⟨?_, ?_, ?_, ?_, ?_, ?_, ?_, ?_, ?_, ?_, ?_, ?_, by rw [hq]; exact hrun, by rw [hq]; exact hran⟩ <;> clear hrun hran run ran hD hD' hg hr <;>
    (try simp only [upd_apply]) <;> (try rw [hq])
  · exact cap
  · exact len
  · exact ht
  · exact cell
  · intro p hp
    rcases clm p hp with h3 | ⟨u, n, y, h3⟩
    · exact .inl h3
    · exact .inr ⟨u, n, y, by grind⟩
  · grind
  · grind
  · exact hd
  · exact frd
  · intro p hp
    rcases ufr p hp with h3 | ⟨u, n, h3, h4⟩
    · exact .inl h3
    · exact .inr ⟨u, n, by grind, h4⟩
  · grind
  · exact bnd

theorem pushFail_ctl (x : α) (m) : Ctl (pushFail x m) ∧ pend (pushFail x m) = [] := by
  cases m <;> simp [pushFail, Ctl, held, pend]

theorem qinv_loc {g g' : G α} {F : Nat → Option (Pc α)} {t : Nat} {l l' : Pc α} {c : Ch α} (h : QInv g F) (hF : F t = some l)
    (hD : OneRF F) (hD' : OneRF (upd F t (some l')))
    (hs : cLoc g l c = some (g', l')) : QInv g' (upd F t (some l')) := by
  rcases loc_cases hs with ⟨rfl, rfl, hl⟩ | ⟨rfl, rfl, rfl⟩ | ⟨m, x, rfl, hr, rfl, rfl⟩ | ⟨m, x, rfl, hr, rfl, rfl⟩ | ⟨m, p, x, rfl, rfl, rfl⟩ |
    ⟨v, hv, rfl, hl⟩ | ⟨b, rfl, hv, rfl, rfl⟩ | ⟨p, v, rfl, hl⟩ | ⟨b, h0, rfl, rfl, hl⟩ | ⟨ts, rfl, hv, rfl, rfl⟩ | ⟨x, ts, rfl, rfl, rfl⟩ |
    ⟨rfl, rfl, rfl⟩ | ⟨rfl, rfl, rfl⟩
  · refine qinv_ctl h hF hD hD' (by simp [Ctl, held]) ?_ rfl ?_ (.inl rfl) <;>
      rcases hl with ⟨x, rfl⟩ | ⟨x, rfl⟩ | rfl <;> simp [Ctl, held, pend]
  · exact qinv_ctl h hF hD hD' (by simp [Ctl, held]) (by simp [Ctl, held]) rfl rfl (.inl rfl)
  · have hroom : g.q.tail < g.q.cap ∨ g.q.freed (g.q.tail - g.q.cap) = true := by simpa [Q.room] using hr
    obtain ⟨hrun, hran⟩ := run_ctl (g' := { g with q := { g.q with tail := g.q.tail + 1, items := g.q.items ++ [x] } }) h hF hD hD'
      (by show (g.q.items ++ [x]).take g.q.head = _
          rw [List.take_append_of_le_length (by rw [h.len]; exact h.ht)]) rfl (fun _ _ => rfl) (.inl rfl)
    obtain ⟨cap, len, ht, cell, clm, pub, pub1, hd, frd, ufr, hold, bnd, run, ran⟩ := h
    have hit : ∀ (p : Nat) v, g.q.items[p]? = some v → (g.q.items ++ [x])[p]? = some v := by
      intro p v hp
      have := (List.getElem?_eq_some_iff.1 hp).1
      rw [List.getElem?_append_left this]; exact hp
    have hnc : g.q.cell g.q.tail = none := by
      cases hc : g.q.cell g.q.tail with
      | none => rfl
      | some v => have := (List.getElem?_eq_some_iff.1 (cell _ _ hc)).1; omega
    refine ⟨?_, ?_, ?_, ?_, ?_, ?_, ?_, ?_, ?_, ?_, ?_, ?_, hrun, hran⟩ <;> clear hrun hran run ran hD' hs <;> (try simp only [upd_apply])
    · grind
    · grind
    · grind
    · grind
    · intro p hp
      by_cases e : p = g.q.tail
      · subst e; exact .inr ⟨t, m, x, by simp⟩
      · rcases clm p (by omega) with h1 | ⟨u, n, y, h1⟩
        · exact .inl h1
        · refine .inr ⟨u, n, y, ?_⟩
          grind
    · grind
    · grind
    · grind
    · grind
    · intro p hp
      rcases ufr p hp with h1 | ⟨u, n, h1, h2⟩
      · exact .inl h1
      · exact .inr ⟨u, n, by grind [held], h2⟩
    · grind [held]
    · grind
  · exact qinv_ctl h hF hD hD' (by simp [Ctl, held]) (pushFail_ctl _ _).1 rfl (by rw [(pushFail_ctl _ _).2]; rfl) (.inl rfl)
  · obtain ⟨hrun, hran⟩ := run_ctl (g' := { g with q := { g.q with cell := upd g.q.cell p (some x) } }) h hF hD hD' rfl rfl (fun _ _ => rfl) (.inl rfl)
    obtain ⟨cap, len, ht, cell, clm, pub, pub1, hd, frd, ufr, hold, bnd, run, ran⟩ := h
    refine ⟨?_, ?_, ?_, ?_, ?_, ?_, ?_, ?_, ?_, ?_, ?_, ?_, hrun, hran⟩ <;> clear hrun hran run ran hD' hs <;> (try simp only [upd_apply])
    · grind
    · grind
    · grind
    · grind
    · intro q hq
      by_cases e : q = p
      · subst e; exact .inl ⟨x, by simp⟩
      · rcases clm q hq with ⟨v, h1⟩ | ⟨u, n, y, h1⟩
        · exact .inl ⟨v, by grind⟩
        · exact .inr ⟨u, n, y, by grind⟩
    · grind
    · grind
    · grind
    · grind
    · intro p hp
      rcases ufr p hp with h1 | ⟨u, n, h1, h2⟩
      · exact .inl h1
      · exact .inr ⟨u, n, by grind [held], h2⟩
    · grind [held]
    · grind
  · have hit := h.cell _ _ hv
    have hlt : g.q.head < g.q.tail := by
      have := (List.getElem?_eq_some_iff.1 hit).1
      rw [← h.len]; exact this
    have hl1 : Running l = true ∧ held l = none ∧ (∀ n p y, l ≠ .pub n p y) ∧ Running l' = true ∧ held l' = some g.q.head ∧
        (∀ n p y, l' ≠ .pub n p y) ∧ pend l' = pend l ++ [v] := by
      rcases hl with ⟨b, rfl, rfl⟩ | ⟨ts, rfl, -, rfl⟩ <;> simp [Running, held, pend]
    obtain ⟨e1, e2, e3, e4, e5, e6, e7⟩ := hl1
    obtain ⟨cap, len, ht, cell, clm, pub, pub1, hd, frd, ufr, hold, bnd, run, ran⟩ := h
    have hnew : g.ran ++ pend l' = g.q.items.take (g.q.head + 1) := by
      rw [e7, ← List.append_assoc, run t l hF e1, List.take_add_one, hit]; rfl
    constructor <;> (try simp only [upd_apply])
    · grind
    · grind
    · grind
    · grind
    · intro q hq
      rcases clm q hq with ⟨v, h1⟩ | ⟨u, n, y, h1⟩
      · exact .inl ⟨v, h1⟩
      · exact .inr ⟨u, n, y, by grind⟩
    · grind
    · grind
    · intro p hp
      by_cases e : p = g.q.head
      · subst e; exact ⟨v, hv⟩
      · exact hd p (by omega)
    · grind
    · intro p hp
      by_cases e : p = g.q.head
      · subst e; exact .inr ⟨t, l', by simp, e5⟩
      rcases ufr p (by omega) with h1 | ⟨u, n, h1, h2⟩
      · exact .inl h1
      · exact .inr ⟨u, n, by grind, h2⟩
    · grind
    · grind
    · intro u m hu hm
      by_cases e : u = t
      · simp only [e, if_true, Option.some.injEq] at hu; subst hu; exact hnew
      · simp only [e, if_false] at hu
        exact absurd (hD u t m l hu hF hm e1) e
    · intro hall
      have := hall t l' (by simp)
      simp [e4] at this
  · exact qinv_ctl h hF hD hD' (by simp [Ctl, held]) (by simp [Ctl, held]) rfl rfl (.inl rfl)
  · have hl1 : Running l = true ∧ held l = some p ∧ (∀ n p y, l ≠ .pub n p y) ∧ held l' = none ∧
        (∀ n p y, l' ≠ .pub n p y) ∧ pend l' = pend l := by
      rcases hl with ⟨rfl, rfl⟩ | ⟨rfl, rfl⟩ | ⟨ts, rfl, rfl⟩ <;> simp [Running, held, pend]
    obtain ⟨e1, e2, e3, e5, e6, e7⟩ := hl1
    obtain ⟨hrun, hran⟩ := run_ctl (g' := { g with q := { g.q with freed := upd g.q.freed p true } }) h hF hD hD' rfl (by rw [e7]) (fun _ _ => rfl) (.inl rfl)
    obtain ⟨cap, len, ht, cell, clm, pub, pub1, hd, frd, ufr, hold, bnd, run, ran⟩ := h
    refine ⟨?_, ?_, ?_, ?_, ?_, ?_, ?_, ?_, ?_, ?_, ?_, ?_, hrun, hran⟩ <;> clear hrun hran run ran hD' hs <;> (try simp only [upd_apply])
    · grind
    · grind
    · grind
    · grind
    · intro q hq
      rcases clm q hq with ⟨v, h1⟩ | ⟨u, n, y, h1⟩
      · exact .inl ⟨v, h1⟩
      · exact .inr ⟨u, n, y, by grind⟩
    · grind
    · grind
    · grind
    · grind
    · intro q hq
      rcases ufr q hq with h1 | ⟨u, n, h1, h2⟩
      · grind
      · by_cases e : u = t
        · grind
        · exact .inr ⟨u, n, by grind, h2⟩
    · intro u n q hu hq
      by_cases e : u = t
      · grind
      · simp only [e, if_false] at hu
        have := hD u t n l hu hF (held_running hq) e1
        exact absurd this e
    · grind
  · refine qinv_ctl h hF hD hD' (by simp [Ctl, held]) ?_ rfl ?_ (.inl rfl) <;>
      rcases hl with ⟨_, rfl⟩ | ⟨_, rfl⟩ <;> cases b <;> simp [Ctl, held, pend]
  · exact qinv_ctl h hF hD hD' (by simp [Ctl, held]) (by simp [Ctl, held]) rfl rfl (.inl rfl)
  · exact qinv_ctl h hF hD hD' (by simp [Ctl, held]) (by simp [Ctl, held]) rfl (by simp [pend]) (.inr rfl)
  · exact qinv_ctl h hF hD hD' (by simp [Ctl, held]) (by simp [Ctl, held]) rfl rfl (.inl rfl)
  · exact qinv_ctl h hF hD hD' (by simp [Ctl, held]) (by simp [Ctl, held]) rfl rfl (.inl rfl)

theorem qinv_ret {g : G α} {F : Nat → Option (Pc α)} {t : Nat} {l : Pc α} (h : QInv g F) (hF : F t = some l)
    (hD : OneRF F) (hD' : OneRF (upd F t (some (cRet l)))) (hc : cCall l ≠ .loc) : QInv g (upd F t (some (cRet l))) := by
  refine qinv_ctl h hF hD hD' ?_ ?_ rfl ?_ (.inl rfl)
  all_goals cases l <;> simp [cCall] at hc <;> simp [cRet, Ctl, held, pend]
  all_goals rename_i m; cases m <;> simp [pushDone, held]

theorem qinv {R : St α → Prop} (hR : ∀ s, R s → NoWrap s ∧ OneRunner s) {s : St α} (h : FReach α R s) : QInv s.g s.lcl := by
  refine client_reach_q (P := fq α) (fun s h => (hR s h).1.1) (D := fun _ F => OneRF F) (fun s h => oneRF (hR s h).2) (R := QInv) ?_ ?_ ?_ h
  · intro s hi _
    have hF := fun t l => lcl_idle hi (t := t) (l := l)
    obtain ⟨q, ⟨cap, hc, rfl⟩, hg⟩ := hi.1
    rw [hg]
    constructor <;> grind [held, Running]
  · intro g F t l c g' l' hR hD hD' hF hc hs; exact qinv_loc hR hF hD hD' hs
  · intro g F t l b hR hD hD' hF hc; exact qinv_ret hR hF hD hD' hc

end Verif.FiberQueue
