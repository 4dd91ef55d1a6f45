import Verif.Channel.Lemmas
import Verif.Channel.Spec
/-!
# C25: `SimpleChannel`
-/
namespace Verif.Channel
open Verif.Common Verif.EventCount
variable {α : Type}

theorem at_lcl {s : State (G α) (Pc α)} {t : Nat} {l : Pc α} : At s t l ↔ s.lcl t = some l := by
  simp only [At, State.lcl, Option.map_eq_some_iff]

/-! ## Delivery -/

/-- Positions are handed out in the order of the queue, every successful dequeue got its own position and the value put
there, and no position below the head is lost: it was delivered or its dequeuer is about to return. The queue never holds
more than its capacity. -/
theorem C25_delivery {s : State (G α) (Pc α)} (h : CReach α NoWrap s) :
    (s.g.got.map Prod.fst).Nodup ∧
    (∀ p v, (p, v) ∈ s.g.got → p < s.g.q.head ∧ s.g.q.items[p]? = some v) ∧
    (∀ t m p v, At s t (.rel m p v) → p < s.g.q.head ∧ s.g.q.items[p]? = some v ∧ p ∉ s.g.got.map Prod.fst) ∧
    (∀ p, p < s.g.q.head → (∃ v, (p, v) ∈ s.g.got) ∨ ∃ t m v, At s t (.rel m p v)) ∧
    s.g.q.head ≤ s.g.q.items.length ∧
    (∀ p, p + s.g.q.cap < s.g.q.items.length → ∃ v, (p, v) ∈ s.g.got) := by
  have hi := qinv (fun s h => h.1) h
  refine ⟨hi.nd, ?_, ?_, ?_, ?_, ?_⟩
  · intro p v hp
    obtain ⟨h1, h2⟩ := hi.got p v hp
    exact ⟨hi.frd p h1, h2⟩
  · intro t m p v ha
    rw [at_lcl] at ha
    obtain ⟨h1, h2, h3⟩ := hi.rel t m p v ha
    refine ⟨h1, h3, ?_⟩
    intro hm
    simp only [List.mem_map] at hm
    obtain ⟨⟨q, w⟩, hq, rfl⟩ := hm
    have := (hi.got q w hq).1
    simp_all
  · intro p hp
    rcases hi.ufr p hp with h1 | ⟨t, m, v, h1⟩
    · exact .inl (hi.got' p h1)
    · exact .inr ⟨t, m, v, at_lcl.2 h1⟩
  · rw [hi.len]; exact hi.ht
  · intro p hp
    rw [hi.len] at hp
    have := hi.bnd (p + s.g.q.cap) hp (by omega)
    exact hi.got' p (by simpa using this)

/-- A dequeue takes the oldest position, and its fiber returns that position's value. -/
theorem C25_queue_order {g g' : G α} {m : Mode} {c : Ch α} {l' : Pc α} (hs : cLoc g (.pop m) c = some (g', l')) :
    (∃ v, l' = .rel m g.q.head v ∧ g.q.cell g.q.head = some v ∧ g'.q.head = g.q.head + 1 ∧ g'.q.items = g.q.items) ∨
    (g.q.cell g.q.head = none ∧ g'.q = g.q) := by
  rcases loc_cases hs with ⟨rfl, h1, hl⟩ | ⟨rfl, h1, rfl⟩ | ⟨m, x, h1, hr, rfl, rfl⟩ | ⟨m, x, h1, hr, rfl, rfl⟩ | ⟨m, p, x, h1, rfl, rfl⟩ |
    ⟨m, v, h1, hv, rfl, rfl⟩ | ⟨m, h1, hv, rfl, rfl⟩ | ⟨m, p, v, h1, rfl, rfl⟩ | ⟨h0, h1, rfl, hl⟩ | ⟨r, h1, rfl, rfl⟩ <;>
    simp only [reduceCtorEq, Pc.pop.injEq] at h1
  · subst h1; exact .inl ⟨v, rfl, hv, rfl, rfl⟩
  · exact .inr ⟨hv, rfl⟩

/-- At most one fiber pops at a time. -/
def OneCF (F : Nat → Option (Pc α)) : Prop :=
  ∀ t u l m, F t = some l → F u = some m → Popping l = true → Popping m = true → t = u

theorem oneCF {s : State (G α) (Pc α)} (h : OneConsumer s) : OneCF s.lcl :=
  fun t u l m h1 h2 => h t u l m (at_lcl.2 h1) (at_lcl.2 h2)

structure FInv (g : G α) (F : Nat → Option (Pc α)) : Prop where
  q : QInv g F
  r : g.got.map Prod.fst = List.range g.got.length ∧
    (g.got.length = g.q.head ∨ ∃ t m v, F t = some (.rel m g.got.length v) ∧ g.got.length + 1 = g.q.head)

theorem finv {R : State (G α) (Pc α) → Prop} (hR : ∀ s, R s → NoWrap s ∧ OneConsumer s) {s : State (G α) (Pc α)} (h : CReach α R s) :
    FInv s.g s.lcl := by
  refine client_reach_q (P := chan α) (fun s h => (hR s h).1.1) (D := fun _ F => OneCF F) (fun s h => oneCF (hR s h).2) (R := FInv) ?_ ?_ ?_ h
  · intro s hi hr
    have hq := qinv (fun s h => (hR s h).1.1) (.init hi hr : CReach α R s)
    obtain ⟨q, np, ⟨cap, hc, rfl⟩, hg⟩ := hi.1
    refine ⟨hq, ?_, .inl ?_⟩ <;> rw [hg] <;> rfl
  · intro g F t l c g' l' hR hD hD' hF hc hs
    refine ⟨qinv_loc hR.q hF hs, ?_⟩
    obtain ⟨hq, hR1, hR2⟩ := hR
    rcases loc_cases hs with ⟨rfl, rfl, hl⟩ | ⟨rfl, rfl, rfl⟩ | ⟨m, x, rfl, hr, rfl, rfl⟩ | ⟨m, x, rfl, hr, rfl, rfl⟩ | ⟨m, p, x, rfl, rfl, rfl⟩ |
      ⟨m, v, rfl, hv, rfl, rfl⟩ | ⟨m, rfl, hv, rfl, rfl⟩ | ⟨m, p, v, rfl, rfl, rfl⟩ | ⟨h0, rfl, rfl, hl⟩ | ⟨r, rfl, rfl, rfl⟩
    case inr.inr.inr.inr.inr.inl =>
      refine ⟨hR1, .inr ?_⟩
      rcases hR2 with h1 | ⟨u, n, w, h1, h2⟩
      · exact ⟨t, m, v, by simp [h1], by simp [h1]⟩
      · have := hD t u _ _ hF h1 rfl rfl
        subst this; simp [hF] at h1
    case inr.inr.inr.inr.inr.inr.inr.inl =>
      rcases hR2 with h1 | ⟨u, n, w, h1, h2⟩
      · exfalso
        obtain ⟨h2, h3, h4⟩ := hq.rel t m p v hF
        have : p ∈ g.got.map Prod.fst := by rw [hR1]; simp; omega
        simp only [List.mem_map] at this
        obtain ⟨⟨a, b⟩, hab, rfl⟩ := this
        have := (hq.got a b hab).1
        simp_all
      · have := hD t u _ _ hF h1 rfl rfl
        subst this
        rw [hF] at h1; simp only [Option.some.injEq, Pc.rel.injEq] at h1
        obtain ⟨rfl, rfl, rfl⟩ := h1
        refine ⟨?_, .inl ?_⟩
        · simp [hR1, List.range_succ]
        · simpa using h2
    all_goals
      refine ⟨hR1, ?_⟩
      rcases hR2 with h1 | ⟨u, n, w, h1, h2⟩
      · exact .inl h1
      · refine .inr ⟨u, n, w, ?_, h2⟩
        have : u ≠ t := by rintro rfl; simp [hF] at h1
        rw [upd_ne _ _ this]; exact h1
  · intro g F t l b hR hD hD' hF hc
    refine ⟨qinv_ret hR.q hF hc, ?_⟩
    obtain ⟨hq, hR1, hR2⟩ := hR
    refine ⟨hR1, ?_⟩
    rcases hR2 with h1 | ⟨u, n, w, h1, h2⟩
    · exact .inl h1
    · refine .inr ⟨u, n, w, ?_, h2⟩
      have : u ≠ t := by rintro rfl; rw [hF] at h1; simp at h1; subst h1; simp [chan, cCall] at hc
      rw [upd_ne _ _ this]; exact h1

/-- With one consumer at a time the values come out exactly in queue order. -/
theorem C25_fifo {s : State (G α) (Pc α)} (h : CReach α (fun s => NoWrap s ∧ OneConsumer s) s) :
    s.g.got.map Prod.snd = s.g.q.items.take s.g.got.length ∧
      ((∀ t l, At s t l → Popping l = false) → s.g.got.length = s.g.q.head) := by
  obtain ⟨hq, hr, he⟩ := finv (fun _ h => h) h
  have hlen : s.g.got.length ≤ s.g.q.items.length := by
    have := hq.len; have := hq.ht
    rcases he with h1 | ⟨_, _, _, _, h1⟩ <;> omega
  constructor
  · apply List.ext_getElem?
    intro i
    by_cases hi : i < s.g.got.length
    · have h1 : (s.g.got.map Prod.fst)[i]? = some i := by rw [hr]; simp [hi]
      simp only [List.getElem?_map, List.getElem?_eq_getElem hi, Option.map_some, Option.some.injEq] at h1 ⊢
      have h2 := (hq.got s.g.got[i].1 s.g.got[i].2 (List.getElem_mem hi)).2
      rw [h1] at h2
      rw [List.getElem?_take_of_lt hi, h2]
    · rw [List.getElem?_eq_none (by simp; omega), List.getElem?_eq_none (by simp; omega)]
  · intro hp
    rcases he with h1 | ⟨t, m, v, h1, _⟩
    · exact h1
    · have := hp t _ (at_lcl.2 h1); simp [Popping] at this

/-- No fiber gets stuck in its own code: where it is not inside an event count, it has a next step. -/
theorem C25_never_stuck (g : G α) (l : Pc α) (c : Ch α) (h : cCall l = .loc) : (cLoc g l c).isSome = true := by
  cases l <;> simp [cCall] at h <;> simp only [cLoc]
  case idle => cases c <;> rfl
  all_goals (try rfl)
  all_goals (repeat' split) <;> rfl

/-! ## Closing -/

/-- Control states of a `Pop` that returns or has returned false. -/
def SaysClosed : Pc α → Bool
  | .ntfPush .last _ | .qDrop none | .fin none => true
  | _ => false

def DiscF (g : G α) (F : Nat → Option (Pc α)) : Prop := g.isClosing = true → ∀ t l, F t = some l → Pushing l = false

structure ClInv (g : G α) (F : Nat → Option (Pc α)) : Prop where
  q : QInv g F
  r : (∀ t, F t = some (.pop .last) → g.isClosing = true) ∧
    ∀ t l, F t = some l → SaysClosed l = true → g.isClosing = true ∧ g.q.head = g.q.tail

theorem clinv {R : State (G α) (Pc α) → Prop} (hR : ∀ s, R s → NoWrap s ∧ Disciplined s) {s : State (G α) (Pc α)} (h : CReach α R s) :
    ClInv s.g s.lcl := by
  refine client_reach_q (P := chan α) (fun s h => (hR s h).1.1) (D := DiscF)
    (fun s h hc t l hl => (hR s h).2 hc t l (at_lcl.2 hl)) (R := ClInv) ?_ ?_ ?_ h
  · intro s hi hr
    have hq := qinv (fun s h => (hR s h).1.1) (.init hi hr : CReach α R s)
    have hF := fun t l => lcl_idle hi (t := t) (l := l)
    refine ⟨hq, ?_, ?_⟩
    · intro t ht; have := hF _ _ ht; simp at this
    · intro t l ht hs; have := hF _ _ ht; subst this; simp [SaysClosed] at hs
  · intro g F t l c g' l' hR hD hD' hF hc hs
    refine ⟨qinv_loc hR.q hF hs, ?_⟩
    obtain ⟨hq, h1, h2⟩ := hR
    rcases loc_cases hs with ⟨rfl, rfl, hl⟩ | ⟨rfl, rfl, rfl⟩ | ⟨m, x, rfl, hr, rfl, rfl⟩ | ⟨m, x, rfl, hr, rfl, rfl⟩ | ⟨m, p, x, rfl, rfl, rfl⟩ |
      ⟨m, v, rfl, hv, rfl, rfl⟩ | ⟨m, rfl, hv, rfl, rfl⟩ | ⟨m, p, v, rfl, rfl, rfl⟩ | ⟨h0, rfl, rfl, hl⟩ | ⟨r, rfl, rfl, rfl⟩
    · constructor
      · grind [upd_apply]
      · intro u n hu hn
        by_cases e : u = t
        · subst e; simp only [upd_same, Option.some.injEq] at hu; subst hu
          rcases hl with ⟨x, rfl⟩ | ⟨x, rfl⟩ | rfl | rfl <;> simp [SaysClosed] at hn
        · rw [upd_ne _ _ e] at hu; exact h2 u n hu hn
    · have : g.isClosing = true → G.isClosing { g with closing := g.closing + 1 } = true := by
        simp [G.isClosing]; omega
      grind [upd_apply, SaysClosed]
    · have hnc : g.isClosing = false := by
        cases hcl : g.isClosing
        · rfl
        · have := hD hcl t _ hF; simp [Pushing] at this
      constructor
      · intro u hu
        have e : u ≠ t := by rintro rfl; simp at hu
        rw [upd_ne _ _ e] at hu; have := h1 u hu; simp_all
      · intro u n hu hn
        by_cases e : u = t
        · subst e; simp only [upd_same, Option.some.injEq] at hu; subst hu; simp [SaysClosed] at hn
        · rw [upd_ne _ _ e] at hu; have := (h2 u n hu hn).1; simp_all
    · constructor
      · cases m <;> grind [upd_apply, pushFail]
      · cases m <;> grind [upd_apply, pushFail, SaysClosed]
    · constructor
      · intro u hu; exact h1 u (by grind [upd_apply])
      · intro u n hu hn; exact h2 u n (by grind [upd_apply, SaysClosed]) hn
    · constructor
      · intro u hu; exact h1 u (by grind [upd_apply])
      · intro u n hu hn
        have e : u ≠ t := by rintro rfl; simp at hu; subst hu; simp [SaysClosed] at hn
        rw [upd_ne _ _ e] at hu
        have := h2 u n hu hn
        have := (List.getElem?_eq_some_iff.1 (hq.cell _ _ hv)).1
        have := hq.len
        omega
    · constructor
      · intro u hu; exact h1 u (by grind [upd_apply])
      · intro u n hu hn
        by_cases e : u = t
        · subst e; simp only [upd_same, Option.some.injEq] at hu; subst hu
          cases m <;> simp [SaysClosed] at hn
          have hcl := h1 u hF
          refine ⟨hcl, ?_⟩
          show g.q.head = g.q.tail
          have hlt := hq.ht
          apply Classical.byContradiction
          intro hne
          rcases hq.clm g.q.head (by omega) with ⟨v, h3⟩ | ⟨w, n, x, h3⟩
          · simp [hv] at h3
          · have := hD hcl w _ h3; simp [Pushing] at this
        · rw [upd_ne _ _ e] at hu; exact h2 u n hu hn
    · constructor
      · intro u hu; exact h1 u (by cases m <;> grind [upd_apply, popDone])
      · intro u n hu hn; exact h2 u n (by cases m <;> grind [upd_apply, SaysClosed, popDone]) hn
    · rcases hl with ⟨hl, rfl⟩ | ⟨hl, rfl⟩ <;> grind [upd_apply, SaysClosed]
    · grind [upd_apply, SaysClosed]
  · intro g F t l b hR hD hD' hF hc
    refine ⟨qinv_ret hR.q hF hc, ?_⟩
    obtain ⟨hq, h1, h2⟩ := hR
    simp only [chan] at hc ⊢
    cases l <;> simp [cCall] at hc <;> simp only [cRet]
    case ntfPop m => cases m <;> grind [upd_apply, SaysClosed, pushDone]
    case ntfPush m h => 
      have h3 := h2 t _ hF
      cases m <;> grind [upd_apply, SaysClosed, popFail]
    case qDrop r => 
      have h3 := h2 t _ hF
      cases r <;> grind [upd_apply, SaysClosed]
    all_goals grind [upd_apply, SaysClosed]

/-- When `Pop` returns false the channel is closing and nothing is left in the queue: every item ever pushed was taken. -/
theorem C25_closed {s : State (G α) (Pc α)} (h : CReach α (fun s => NoWrap s ∧ Disciplined s) s) {t : Nat}
    (ht : At s t (.fin none)) :
    s.g.np ≤ s.g.closing ∧ ∀ p, p < s.g.q.items.length → (∃ v, (p, v) ∈ s.g.got) ∨ ∃ u m v, At s u (.rel m p v) := by
  have hi := clinv (fun _ h => h) h
  obtain ⟨h1, h2⟩ := hi.r.2 t _ (at_lcl.1 ht) rfl
  refine ⟨by simpa [G.isClosing] using h1, ?_⟩
  intro p hp
  rcases hi.q.ufr p (by rw [hi.q.len] at hp; omega) with h1 | ⟨t, m, v, h1⟩
  · exact .inl (hi.q.got' p h1)
  · exact .inr ⟨t, m, v, at_lcl.2 h1⟩

/-! ## Wake-ups -/

/-- The event count whose key a fiber holds. -/
def cKey : Pc α → Option Nat
  | .push .slow _ | .pub .slow _ _ | .ntfPop .slow | .pDrop | .pWait _ _ | .pDropL _ => some 0
  | .pop .slow | .rel .slow _ _ | .ntfPush .slow _ | .pop .last | .rel .last _ _ | .ntfPush .last _
  | .qDrop _ | .qChk _ | .qWait _ | .qDropL => some 1
  | _ => none

theorem keydisc : KeyDisc (chan α) cKey := by
  constructor
  · intro g l t c g' l' hc hs
    rcases loc_cases hs with ⟨rfl, rfl, hl⟩ | ⟨rfl, rfl, rfl⟩ | ⟨m, x, rfl, hr, rfl, rfl⟩ | ⟨m, x, rfl, hr, rfl, rfl⟩ | ⟨m, p, x, rfl, rfl, rfl⟩ |
      ⟨m, v, rfl, hv, rfl, rfl⟩ | ⟨m, rfl, hv, rfl, rfl⟩ | ⟨m, p, v, rfl, rfl, rfl⟩ | ⟨h0, rfl, rfl, hl⟩ | ⟨r, rfl, rfl, rfl⟩
    · rcases hl with ⟨x, rfl⟩ | ⟨x, rfl⟩ | rfl | rfl <;> rfl
    · rfl
    · cases m <;> rfl
    · cases m <;> simp [cKey, pushFail]
    · cases m <;> rfl
    · cases m <;> rfl
    · cases m <;> rfl
    · cases m <;> rfl
    · rcases hl with ⟨_, rfl⟩ | ⟨_, rfl⟩ <;> rfl
    · rfl
  · intro l j hc
    cases l <;> simp [chan, cCall] at hc <;> subst hc <;> rfl
  · intro l hc
    cases l <;> simp [chan, cCall] at hc <;> rfl
  · intro l b hc
    cases l <;> simp [chan, cCall] at hc <;> simp only [chan, cRet]
    case ntfPop m => cases m <;> rfl
    case ntfPush m h => cases m <;> simp [cKey, popFail]
    all_goals rfl

theorem key_state {R : State (G α) (Pc α) → Prop} (hR : ∀ s, R s → s.th.length < 2 ^ 32) {s : State (G α) (Pc α)} (h : CReach α R s)
    {t : Nat} {k : Key} (hk : s.key t = some k) : ∃ l, s.lcl t = some l ∧ cKey l = some k.ix := by
  obtain ⟨x, hx, hk'⟩ : ∃ x, s.th[t]? = some x ∧ x.key = some k := by
    simp only [State.key, Option.bind_eq_some_iff] at hk; exact hk
  have := keydisc_reach hR keydisc (by intro l h; subst h; rfl) h (lcl_of hx)
  rw [hk] at this
  exact ⟨x.cl, lcl_of hx, this.symm⟩

theorem popping_of_key {l : Pc α} (h : cKey l = some 1) : Popping l = true := by
  unfold cKey at h
  split at h <;> simp at h <;> rfl

theorem pushing_of_key {l : Pc α} (h : cKey l = some 0) : Pushing l = true := by
  unfold cKey at h
  split at h <;> simp at h <;> rfl

/-- What a fiber in or on its way to `pop_ec_.wait` waits for. -/
def popCond : Pc α → G α → Prop
  | .ntfPush .slow h, g => ∃ v, g.q.cell h = some v
  | .qChk h, g => ∃ v, g.q.cell h = some v
  | .qWait h, g => (∃ v, g.q.cell h = some v) ∨ g.isClosing = true
  | _, _ => False

def popObl : Pc α → Prop
  | .ntfPop _ | .cNtf => True
  | _ => False

theorem pop_sound : Sound (chan α) 1 popCond popObl := by
  constructor
  · intro g l t c g' l' hc hs hw
    rcases loc_cases hs with ⟨rfl, rfl, hl⟩ | ⟨rfl, rfl, rfl⟩ | ⟨m, x, rfl, hr, rfl, rfl⟩ | ⟨m, x, rfl, hr, rfl, rfl⟩ | ⟨m, p, x, rfl, rfl, rfl⟩ |
      ⟨m, v, rfl, hv, rfl, rfl⟩ | ⟨m, rfl, hv, rfl, rfl⟩ | ⟨m, p, v, rfl, rfl, rfl⟩ | ⟨h0, rfl, rfl, hl⟩ | ⟨r, rfl, rfl, rfl⟩
    · rcases hl with ⟨x, rfl⟩ | ⟨x, rfl⟩ | rfl | rfl <;> simp [popCond] at hw
    · simp [popCond] at hw
    · simp [popCond] at hw
    · cases m <;> simp [popCond, pushFail] at hw
    · simp [popCond] at hw
    · simp [popCond] at hw
    · cases m <;> simp [popCond, hv] at hw
    · cases m <;> simp [popCond, popDone] at hw
    · rcases hl with ⟨h1, rfl⟩ | ⟨h1, rfl⟩ <;> simp_all [popCond]
    · simp [popCond] at hw
  · intro l b hc g hw
    cases l <;> simp [chan, cCall] at hc <;> simp only [chan, cRet, cCall] at hw ⊢
    case ntfPop m => cases m <;> simp [popCond, pushDone] at hw
    case ntfPush m h =>
      cases m <;> simp [popCond, popFail] at hw ⊢
      exact hw
    all_goals simp [popCond] at hw
  · intro g l t c g' l' hc hs w hcd ho
    have same : ∀ (g' : G α) , popCond w g' → (∀ p, g'.q.cell p = g.q.cell p) → g'.isClosing = g.isClosing → popCond w g := by
      intro g' h3 h1 h2
      unfold popCond at *
      split at h3 <;> simp_all
    have hno : ∀ l : Pc α, (chan α).call l = .loc → ¬ popObl l := by
      intro l hl; cases l <;> simp [chan, cCall] at hl <;> simp [popObl]
    have ho' : ¬ popCond w g := by
      rcases ho with h1 | h1
      · exact h1
      · exact absurd h1 (hno l hc)
    rcases loc_cases hs with ⟨rfl, rfl, hl⟩ | ⟨rfl, rfl, rfl⟩ | ⟨m, x, rfl, hr, rfl, rfl⟩ | ⟨m, x, rfl, hr, rfl, rfl⟩ | ⟨m, p, x, rfl, rfl, rfl⟩ |
      ⟨m, v, rfl, hv, rfl, rfl⟩ | ⟨m, rfl, hv, rfl, rfl⟩ | ⟨m, p, v, rfl, rfl, rfl⟩ | ⟨h0, rfl, rfl, hl⟩ | ⟨r, rfl, rfl, rfl⟩
    · exact absurd hcd ho'
    · trivial
    · exact absurd (same _ hcd (fun _ => rfl) rfl) ho'
    · exact absurd hcd ho'
    · trivial
    · exact absurd (same _ hcd (fun _ => rfl) rfl) ho'
    · exact absurd (same _ hcd (fun _ => rfl) rfl) ho'
    · exact absurd (same _ hcd (fun _ => rfl) rfl) ho'
    · exact absurd hcd ho'
    · exact absurd hcd ho'
  · intro l g tm ho hc
    cases l <;> simp [popObl] at ho <;> simp [chan, cCall] at hc
  · intro l b ho hc hn
    cases l <;> simp [popObl] at ho <;> simp [chan, cCall] at hn

/-- The closing alone, whatever the number of consumers: it is announced by `notifyAll`. -/
def clCond : Pc α → G α → Prop
  | .qWait _, g => g.isClosing = true
  | _, _ => False

def clObl : Pc α → Prop
  | .cNtf => True
  | _ => False

theorem cl_sound : Sound (chan α) 1 clCond clObl := by
  constructor
  · intro g l t c g' l' hc hs hw
    rcases loc_cases hs with ⟨rfl, rfl, hl⟩ | ⟨rfl, rfl, rfl⟩ | ⟨m, x, rfl, hr, rfl, rfl⟩ | ⟨m, x, rfl, hr, rfl, rfl⟩ | ⟨m, p, x, rfl, rfl, rfl⟩ |
      ⟨m, v, rfl, hv, rfl, rfl⟩ | ⟨m, rfl, hv, rfl, rfl⟩ | ⟨m, p, v, rfl, rfl, rfl⟩ | ⟨h0, rfl, rfl, hl⟩ | ⟨r, rfl, rfl, rfl⟩
    · rcases hl with ⟨x, rfl⟩ | ⟨x, rfl⟩ | rfl | rfl <;> simp [clCond] at hw
    · simp [clCond] at hw
    · simp [clCond] at hw
    · cases m <;> simp [clCond, pushFail] at hw
    · simp [clCond] at hw
    · simp [clCond] at hw
    · simp [clCond] at hw
    · cases m <;> simp [clCond, popDone] at hw
    · rcases hl with ⟨h1, rfl⟩ | ⟨h1, rfl⟩ <;> simp_all [clCond]
    · simp [clCond] at hw
  · intro l b hc g hw
    cases l <;> simp [chan, cCall] at hc <;> simp only [chan, cRet, cCall] at hw ⊢
    case ntfPop m => cases m <;> simp [clCond, pushDone] at hw
    case ntfPush m h => cases m <;> simp [clCond, popFail] at hw
    all_goals simp [clCond] at hw
  · intro g l t c g' l' hc hs w hcd ho
    have same : ∀ (g' : G α) , clCond w g' → g'.isClosing = g.isClosing → clCond w g := by
      intro g' h3 h2
      unfold clCond at *
      split at h3 <;> simp_all
    have hno : ∀ l : Pc α, (chan α).call l = .loc → ¬ clObl l := by
      intro l hl; cases l <;> simp [chan, cCall] at hl <;> simp [clObl]
    have ho' : ¬ clCond w g := by
      rcases ho with h1 | h1
      · exact h1
      · exact absurd h1 (hno l hc)
    rcases loc_cases hs with ⟨rfl, rfl, hl⟩ | ⟨rfl, rfl, rfl⟩ | ⟨m, x, rfl, hr, rfl, rfl⟩ | ⟨m, x, rfl, hr, rfl, rfl⟩ | ⟨m, p, x, rfl, rfl, rfl⟩ |
      ⟨m, v, rfl, hv, rfl, rfl⟩ | ⟨m, rfl, hv, rfl, rfl⟩ | ⟨m, p, v, rfl, rfl, rfl⟩ | ⟨h0, rfl, rfl, hl⟩ | ⟨r, rfl, rfl, rfl⟩
    case inr.inl => trivial
    all_goals exact absurd (same _ hcd rfl) ho'
  · intro l g tm ho hc
    cases l <;> simp [clObl] at ho <;> simp [chan, cCall] at hc
  · intro l b ho hc hn
    cases l <;> simp [clObl] at ho <;> simp [chan, cCall] at hn

/-- What a fiber in `push_ec_.wait` can count on: the queue was found empty after its last failed attempt. -/
def pushCond : Pc α → G α → Prop
  | .pWait _ k, g => k < g.empties
  | _, _ => False

def pushObl : Pc α → Prop
  | .ntfPush _ _ => True
  | _ => False

theorem push_sound : Sound (chan α) 0 pushCond pushObl := by
  constructor
  · intro g l t c g' l' hc hs hw
    rcases loc_cases hs with ⟨rfl, rfl, hl⟩ | ⟨rfl, rfl, rfl⟩ | ⟨m, x, rfl, hr, rfl, rfl⟩ | ⟨m, x, rfl, hr, rfl, rfl⟩ | ⟨m, p, x, rfl, rfl, rfl⟩ |
      ⟨m, v, rfl, hv, rfl, rfl⟩ | ⟨m, rfl, hv, rfl, rfl⟩ | ⟨m, p, v, rfl, rfl, rfl⟩ | ⟨h0, rfl, rfl, hl⟩ | ⟨r, rfl, rfl, rfl⟩
    · rcases hl with ⟨x, rfl⟩ | ⟨x, rfl⟩ | rfl | rfl <;> simp [pushCond] at hw
    · simp [pushCond] at hw
    · simp [pushCond] at hw
    · cases m <;> simp [pushCond, pushFail] at hw
    · simp [pushCond] at hw
    · simp [pushCond] at hw
    · simp [pushCond] at hw
    · cases m <;> simp [pushCond, popDone] at hw
    · rcases hl with ⟨h1, rfl⟩ | ⟨h1, rfl⟩ <;> simp_all [pushCond]
    · simp [pushCond] at hw
  · intro l b hc g hw
    cases l <;> simp [chan, cCall] at hc <;> simp only [chan, cRet, cCall] at hw ⊢
    case ntfPop m => cases m <;> simp [pushCond, pushDone] at hw
    case ntfPush m h => cases m <;> simp [pushCond, popFail] at hw
    all_goals simp [pushCond] at hw
  · intro g l t c g' l' hc hs w hcd ho
    have same : ∀ (g' : G α) , pushCond w g' → g'.empties = g.empties → pushCond w g := by
      intro g' h3 h2
      unfold pushCond at *
      split at h3 <;> simp_all
    have hno : ∀ l : Pc α, (chan α).call l = .loc → ¬ pushObl l := by
      intro l hl; cases l <;> simp [chan, cCall] at hl <;> simp [pushObl]
    have ho' : ¬ pushCond w g := by
      rcases ho with h1 | h1
      · exact h1
      · exact absurd h1 (hno l hc)
    rcases loc_cases hs with ⟨rfl, rfl, hl⟩ | ⟨rfl, rfl, rfl⟩ | ⟨m, x, rfl, hr, rfl, rfl⟩ | ⟨m, x, rfl, hr, rfl, rfl⟩ | ⟨m, p, x, rfl, rfl, rfl⟩ |
      ⟨m, v, rfl, hv, rfl, rfl⟩ | ⟨m, rfl, hv, rfl, rfl⟩ | ⟨m, p, v, rfl, rfl, rfl⟩ | ⟨h0, rfl, rfl, hl⟩ | ⟨r, rfl, rfl, rfl⟩
    case inr.inr.inr.inr.inr.inr.inl => trivial
    all_goals exact absurd (same _ hcd rfl) ho'
  · intro l g tm ho hc
    cases l <;> simp [pushObl] at ho <;> simp [chan, cCall] at hc
  · intro l b ho hc hn
    cases l <;> simp [pushObl] at ho <;> simp [chan, cCall] at hn

/-- A fiber asleep in an event count is at the matching call; so is one inside a notification. -/
theorem ix_wait {R : State (G α) (Pc α) → Prop} (hR : ∀ s, R s → s.th.length < 2 ^ 32) {s : State (G α) (Pc α)} (h : CReach α R s)
    {t : Nat} {x : Th (Pc α)} (hx : s.th[t]? = some x) {i : Nat} {tm : Bool} (he : x.ep = .asleep i tm) :
    ∃ tm, cCall x.cl = .wait i tm :=
  (cinv_reach hR h t x hx).1 i (by rw [he]; rfl)

theorem ix_ntf {R : State (G α) (Pc α) → Prop} (hR : ∀ s, R s → s.th.length < 2 ^ 32) {s : State (G α) (Pc α)} (h : CReach α R s)
    {u : Nat} {p : EPc} (hp : s.ep u = some p) {i : Nat} (hi : notIx p = some i) :
    ∃ l all, At s u l ∧ cCall l = .notify i all := by
  simp only [State.ep, Option.map_eq_some_iff] at hp
  obtain ⟨y, hy, rfl⟩ := hp
  obtain ⟨all, h1⟩ := (cinv_reach hR h u y hy).2.2 i hi
  exact ⟨y.cl, all, ⟨y, hy, rfl⟩, h1⟩

theorem ntf1 {l : Pc α} {all : Bool} (h : cCall l = .notify 1 all) : (∃ m, l = .ntfPop m) ∨ l = .cNtf := by
  cases l <;> simp [cCall] at h
  · exact .inl ⟨_, rfl⟩
  · exact .inr rfl

theorem ntf0 {l : Pc α} {all : Bool} (h : cCall l = .notify 0 all) : ∃ m h, l = .ntfPush m h := by
  cases l <;> simp [cCall] at h
  exact ⟨_, _, rfl⟩

theorem ntf_all {l : Pc α} (h : cCall l = .notify 1 true) : l = .cNtf := by
  cases l <;> simp [cCall] at h
  rfl

/-- No popper stays asleep once the channel is closing: whatever the number of fibers, another fiber is about to wake
all of them, or has already taken this one off the queue to wake it. -/
theorem C25_close_wakes {s : State (G α) (Pc α)} (h : CReach α NoWrap s) {t : Nat} (hb : PopBlocked s t)
    (hc : s.g.np ≤ s.g.closing) : ∃ u, u ≠ t ∧ (Closing s u ∨ Waking s 1 u t) := by
  have hQ : ∀ s : State (G α) (Pc α), NoWrap s → s.th.length < 2 ^ 32 := fun _ h => h.1
  obtain ⟨x, i, tm, h0, hx, he, hl⟩ := hb
  obtain ⟨tm', hcall⟩ := ix_wait hQ h hx he
  rw [hl] at hcall; simp only [cCall, Call.wait.injEq] at hcall
  obtain ⟨rfl, rfl⟩ := hcall
  have hW := w_reach_all (P := chan α) cl_sound (by intro l ho; cases l <;> simp [clObl] at ho; simp [chan, cCall]) (fun _ h => h) h
  obtain ⟨u, hut, hu⟩ := no_lost' cl_sound (einv_reach hQ h) hW (t := t) (l := .qWait h0) (tm := tm)
    (by rw [ep_of hx, he]) (by rw [lcl_of hx, hl]) (by simpa [clCond, G.isClosing] using hc)
  refine ⟨u, hut, ?_⟩
  rcases hu with ⟨m, hm, ho, -⟩ | ⟨p, hp, hpi⟩
  · cases m <;> simp [clObl] at ho
    exact .inl (at_lcl.2 hm)
  · simp only [State.ep, Option.map_eq_some_iff] at hp
    obtain ⟨y, hy, rfl⟩ := hp
    have hn := ninv_reach h u y hy
    rcases hpi with ⟨all, h1, h2⟩ | ⟨all, any, h1, h2⟩ | ⟨w, h2⟩ | ⟨all, h2⟩
    · have := h1 rfl; subst this
      exact .inl ⟨y, hy, ntf_all (hn 1 true (by rw [h2]; rfl))⟩
    · have := h1 rfl; subst this
      exact .inl ⟨y, hy, ntf_all (hn 1 true (by rw [h2]; rfl))⟩
    · exact .inl ⟨y, hy, ntf_all (hn 1 true (by rw [h2]; rfl))⟩
    · exact .inr ⟨y, all, hy, h2⟩

/-- The position a consumer found unreadable. -/
def atH : Pc α → Option Nat
  | .ntfPush _ h | .qChk h | .qWait h => some h
  | _ => none

theorem popping_atH {l : Pc α} {h : Nat} (e : atH l = some h) : Popping l = true := by
  cases l <;> simp [atH] at e <;> rfl

/-- With a single consumer, the position it waits for is the head of the queue. -/
structure HInv (g : G α) (F : Nat → Option (Pc α)) : Prop where
  q : QInv g F
  r : ∀ t l h, F t = some l → atH l = some h → h = g.q.head

theorem hinv {R : State (G α) (Pc α) → Prop} (hR : ∀ s, R s → NoWrap s ∧ OneConsumer s) {s : State (G α) (Pc α)} (h : CReach α R s) :
    HInv s.g s.lcl := by
  refine client_reach_q (P := chan α) (fun s h => (hR s h).1.1) (D := fun _ F => OneCF F) (fun s h => oneCF (hR s h).2) (R := HInv) ?_ ?_ ?_ h
  · intro s hi hr
    refine ⟨qinv (fun s h => (hR s h).1.1) (.init hi hr : CReach α R s), ?_⟩
    intro t l h hl he
    have := lcl_idle hi hl; subst this; simp [atH] at he
  · intro g F t l c g' l' hR hD hD' hF hc hs
    refine ⟨qinv_loc hR.q hF hs, ?_⟩
    obtain ⟨hq, hr⟩ := hR
    have old : (∀ h, atH l' = some h → h = g'.q.head) → (g'.q.head = g.q.head ∨ Popping l = true) → 
        ∀ u m h, upd F t (some l') u = some m → atH m = some h → h = g'.q.head := by
      intro h1 h2 u m h hu hm
      by_cases e : u = t
      · subst e; simp only [upd_same, Option.some.injEq] at hu; subst hu; exact h1 h hm
      · rw [upd_ne _ _ e] at hu
        rcases h2 with h2 | h2
        · rw [h2]; exact hr u m h hu hm
        · exact absurd (hD u t m l hu hF (popping_atH hm) h2) e
    rcases loc_cases hs with ⟨rfl, rfl, hl⟩ | ⟨rfl, rfl, rfl⟩ | ⟨m, x, rfl, hr, rfl, rfl⟩ | ⟨m, x, rfl, hr, rfl, rfl⟩ | ⟨m, p, x, rfl, rfl, rfl⟩ |
      ⟨m, v, rfl, hv, rfl, rfl⟩ | ⟨m, rfl, hv, rfl, rfl⟩ | ⟨m, p, v, rfl, rfl, rfl⟩ | ⟨h0, rfl, rfl, hl⟩ | ⟨r, rfl, rfl, rfl⟩
    · refine old ?_ (.inl rfl)
      rcases hl with ⟨x, rfl⟩ | ⟨x, rfl⟩ | rfl | rfl <;> simp [atH]
    · exact old (by simp [atH]) (.inl rfl)
    · exact old (by simp [atH]) (.inl rfl)
    · refine old ?_ (.inl rfl)
      cases m <;> simp [atH, pushFail]
    · exact old (by simp [atH]) (.inl rfl)
    · exact old (by simp [atH]) (.inr rfl)
    · exact old (by simp [atH]) (.inr rfl)
    · refine old ?_ (.inl rfl)
      cases m <;> simp [atH, popDone]
    · refine old ?_ (.inl rfl)
      have := hr t _ h0 hF rfl
      rcases hl with ⟨_, rfl⟩ | ⟨_, rfl⟩ <;> simp [atH, this]
    · exact old (by simp [atH]) (.inl rfl)
  · intro g F t l b hR hD hD' hF hc
    refine ⟨qinv_ret hR.q hF hc, ?_⟩
    obtain ⟨hq, hr⟩ := hR
    intro u m h hu hm
    by_cases e : u = t
    · subst e; simp only [upd_same, Option.some.injEq] at hu; subst hu
      simp only [chan] at hc hm
      cases l <;> simp [cCall] at hc <;> simp only [cRet] at hm
      case ntfPop m => cases m <;> simp [atH, pushDone] at hm
      case ntfPush m h0 => 
        have := hr u _ h0 hF rfl
        cases m <;> simp [atH, popFail] at hm
        omega
      all_goals simp [atH] at hm
    · rw [upd_ne _ _ e] at hu; exact hr u m h hu hm

theorem one_ok {R : State (G α) (Pc α) → Prop} (hR : ∀ s, R s → NoWrap s ∧ OneConsumer s) {s : State (G α) (Pc α)} (h : CReach α R s) :
    OneOk 1 s.ep s.key := by
  refine .inr ?_
  intro t t' k k' h1 h2 h3 h4
  obtain ⟨l, hl, hk⟩ := key_state (fun s h => (hR s h).1.1) h h1
  obtain ⟨l', hl', hk'⟩ := key_state (fun s h => (hR s h).1.1) h h3
  rw [h2] at hk; rw [h4] at hk'
  exact (hR s h.q).2 t t' l l' (at_lcl.2 hl) (at_lcl.2 hl') (popping_of_key hk) (popping_of_key hk')

/-- With one consumer at a time and any number of producers, the consumer never stays asleep when the item at the head
of the queue is there or the channel is closing: another fiber is past its change and still owes the notification. -/
theorem C25_pop_wakes_partial {s : State (G α) (Pc α)} (h : CReach α (fun s => NoWrap s ∧ OneConsumer s) s) {t : Nat}
    (hb : PopBlocked s t) (hc : Readable s.g ∨ s.g.np ≤ s.g.closing) :
    ∃ u, u ≠ t ∧ (Announcing s u ∨ Closing s u) := by
  have hQ : ∀ s : State (G α) (Pc α), NoWrap s ∧ OneConsumer s → s.th.length < 2 ^ 32 := fun _ h => h.1.1
  obtain ⟨x, i, tm, h0, hx, he, hl⟩ := hb
  obtain ⟨tm', hcall⟩ := ix_wait hQ h hx he
  rw [hl] at hcall; simp only [cCall, Call.wait.injEq] at hcall
  obtain ⟨rfl, rfl⟩ := hcall
  have hh := (hinv (fun _ h => h) h).r t _ h0 (by rw [lcl_of hx, hl]) rfl
  have hW := w_reach (P := chan α) pop_sound (fun _ h => h.1) h (fun _ h => one_ok (fun _ h => h) h)
  obtain ⟨u, hut, hu⟩ := no_lost pop_sound (einv_reach hQ h) hW (t := t) (l := .qWait h0) (tm := tm)
    (by rw [ep_of hx, he]) (by rw [lcl_of hx, hl]) (by simpa [popCond, G.isClosing, hh, Readable] using hc)
  refine ⟨u, hut, ?_⟩
  rcases hu with ⟨m, hm, ho, -⟩ | ⟨p, hp, hpi⟩
  · cases m <;> simp [popObl] at ho
    · exact .inl ⟨_, at_lcl.2 hm⟩
    · exact .inr (at_lcl.2 hm)
  · obtain ⟨l, all, h1, h2⟩ := ix_ntf hQ h hp hpi
    rcases ntf1 h2 with ⟨m, rfl⟩ | rfl
    · exact .inl ⟨m, h1⟩
    · exact .inr h1

def OnePF (F : Nat → Option (Pc α)) : Prop :=
  ∀ t u l m, F t = some l → F u = some m → Pushing l = true → Pushing m = true → t = u

/-- Every state of an execution is itself reachable; used to feed one invariant to the proof of the next. -/
theorem reach_self {R : State (G α) (Pc α) → Prop} {s : State (G α) (Pc α)} (h : CReach α R s) : CReach α (CReach α R) s := by
  induction h with
  | init hi hq => exact .init hi (.init hi hq)
  | step hr hst hq ih => exact .step ih hst (.step hr hst hq)

/-- What a blocked producer knows when there is a single consumer. -/
structure PInv (g : G α) (F : Nat → Option (Pc α)) : Prop where
  le : ∀ t x k, F t = some (.pWait x k) → k ≤ g.empties
  lt : ∀ t x k u l h, F t = some (.pWait x k) → k = g.empties → F u = some l → atH l = some h → h < g.q.tail

theorem pinv {R : State (G α) (Pc α) → Prop} (hR : ∀ s, R s → NoWrap s ∧ OneConsumer s) {s : State (G α) (Pc α)} (h : CReach α R s) :
    PInv s.g s.lcl := by
  refine client_reach_q (P := chan α) (fun s h => (hR s h.q).1.1) (D := fun g F => OneCF F ∧ HInv g F)
    (fun s h => ⟨oneCF (hR s h.q).2, hinv hR h⟩) (R := PInv) ?_ ?_ ?_ (reach_self h)
  · intro s hi hr
    have hF := fun t l => lcl_idle hi (t := t) (l := l)
    constructor
    · intro t x k ht; have := hF _ _ ht; simp at this
    · intro t x k u l h ht; have := hF _ _ ht; simp at this
  · intro g F t l c g' l' hP hD hD' hF hc hs
    obtain ⟨hle, hlt⟩ := hP
    obtain ⟨hD, hq, hhd⟩ := hD
    rcases loc_cases hs with ⟨rfl, rfl, hl⟩ | ⟨rfl, rfl, rfl⟩ | ⟨m, x, rfl, hr, rfl, rfl⟩ | ⟨m, x, rfl, hr, rfl, rfl⟩ | ⟨m, p, x, rfl, rfl, rfl⟩ |
      ⟨m, v, rfl, hv, rfl, rfl⟩ | ⟨m, rfl, hv, rfl, rfl⟩ | ⟨m, p, v, rfl, rfl, rfl⟩ | ⟨h0, rfl, rfl, hl⟩ | ⟨r, rfl, rfl, rfl⟩
    · constructor
      · grind [upd_apply]
      · grind [upd_apply, atH]
    · constructor
      · grind [upd_apply]
      · grind [upd_apply, atH]
    · constructor
      · grind [upd_apply]
      · grind [upd_apply, atH]
    · have hroom : ¬ g'.q.tail < g'.q.cap ∧ g'.q.freed (g'.q.tail - g'.q.cap) = false := by
        simpa [Q.room] using hr
      have key : ∀ u l h, F u = some l → atH l = some h → h < g'.q.tail := by
        intro u l h hu hl
        have h1 := hhd u l h hu hl
        have h2 := hq.cap
        have h3 : ¬ g'.q.tail - g'.q.cap < h := by
          intro hh
          rcases hq.ufr (g'.q.tail - g'.q.cap) (by omega) with h4 | ⟨w, n, y, h4⟩
          · rw [hroom.2] at h4; simp at h4
          · have := hD u w l _ hu h4 (popping_atH hl) rfl
            subst this
            rw [hu] at h4; simp only [Option.some.injEq] at h4; subst h4; simp [atH] at hl
        omega
      constructor
      · cases m <;> grind [upd_apply, pushFail]
      · cases m <;> grind [upd_apply, atH, pushFail]
    · constructor
      · grind [upd_apply]
      · grind [upd_apply, atH]
    · constructor
      · grind [upd_apply]
      · grind [upd_apply, atH]
    · constructor
      · grind [upd_apply]
      · grind [upd_apply, atH]
    · constructor
      · cases m <;> grind [upd_apply, popDone]
      · cases m <;> grind [upd_apply, atH, popDone]
    · constructor
      · grind [upd_apply]
      · grind [upd_apply, atH]
    · constructor
      · grind [upd_apply]
      · grind [upd_apply, atH]
  · intro g F t l b hP hD hD' hF hc
    obtain ⟨hle, hlt⟩ := hP
    simp only [chan] at hc ⊢
    cases l <;> simp [cCall] at hc <;> simp only [cRet]
    case ntfPop m => constructor <;> cases m <;> grind [upd_apply, atH, pushDone]
    case ntfPush m h => 
      constructor
      · cases m <;> grind [upd_apply, popFail]
      · cases m <;> grind [upd_apply, atH, popFail]
    all_goals constructor
    all_goals grind [upd_apply, atH]

theorem one_ok0 {R : State (G α) (Pc α) → Prop} (hR : ∀ s, R s → NoWrap s ∧ OneProducer s) {s : State (G α) (Pc α)} (h : CReach α R s) :
    OneOk 0 s.ep s.key := by
  refine .inr ?_
  intro t t' k k' h1 h2 h3 h4
  obtain ⟨l, hl, hk⟩ := key_state (fun s h => (hR s h).1.1) h h1
  obtain ⟨l', hl', hk'⟩ := key_state (fun s h => (hR s h).1.1) h h3
  rw [h2] at hk; rw [h4] at hk'
  exact (hR s h.q).2 t t' l l' (at_lcl.2 hl) (at_lcl.2 hl') (pushing_of_key hk) (pushing_of_key hk')

/-- One producer and one consumer at a time: they are never both asleep (proved for states in which no third fiber is
in the middle of `StartClosing`, hence about to wake the consumer). -/
theorem C25_no_deadlock_partial {s : State (G α) (Pc α)} (h : CReach α (fun s => NoWrap s ∧ OneConsumer s ∧ OneProducer s) s)
    {t u : Nat} (hp : PushBlocked s t) (hcl : ∀ w, ¬ Closing s w) : ¬ PopBlocked s u := by
  intro hc
  have hQ : ∀ s : State (G α) (Pc α), NoWrap s ∧ OneConsumer s ∧ OneProducer s → s.th.length < 2 ^ 32 := fun _ h => h.1.1
  have hC := h.mono (fun _ h => (⟨h.1, h.2.1⟩ : NoWrap _ ∧ OneConsumer _))
  have hi := pinv (fun _ h => h) hC
  have hH := hinv (fun _ h => h) hC
  obtain ⟨x, i, tm, v, k, hx, he, hl⟩ := hp
  obtain ⟨tm', hcall⟩ := ix_wait hQ h hx he
  rw [hl] at hcall; simp only [cCall, Call.wait.injEq] at hcall
  obtain ⟨rfl, rfl⟩ := hcall
  obtain ⟨y, j, tm2, h0, hy, hey, hly⟩ := id hc
  have hlx : s.lcl t = some (.pWait v k) := by rw [lcl_of hx, hl]
  have hlu : s.lcl u = some (.qWait h0) := by rw [lcl_of hy, hly]
  have hW := w_reach (P := chan α) push_sound (fun _ h => h.1) h (fun _ h => one_ok0 (fun _ h => ⟨h.1, h.2.2⟩) h)
  have hk : k = s.g.empties := by
    have := hi.le t v k hlx
    apply Classical.byContradiction
    intro hne
    obtain ⟨w, hwt, hw⟩ := no_lost push_sound (einv_reach hQ h) hW (t := t) (l := .pWait v k) (tm := tm)
      (by rw [ep_of hx, he]) hlx (by simp only [pushCond]; omega)
    have : ∃ m h, At s w (.ntfPush m h) := by
      rcases hw with ⟨m, hm, ho, -⟩ | ⟨p, hp, hpi⟩
      · cases m <;> simp [pushObl] at ho
        exact ⟨_, _, at_lcl.2 hm⟩
      · obtain ⟨l, all, h1, h2⟩ := ix_ntf hQ h hp hpi
        obtain ⟨m, h3, rfl⟩ := ntf0 h2
        exact ⟨m, h3, h1⟩
    obtain ⟨m, h3, h4⟩ := this
    have := h.q.2.1 u w _ _ (at_lcl.2 hlu) h4 rfl rfl
    subst this
    rw [at_lcl, hlu] at h4; simp at h4
  have hlt := hi.lt t v k u _ h0 hlx hk hlu rfl
  have hh := hH.r u _ h0 hlu rfl
  have hr : Readable s.g := by
    rcases hH.q.clm h0 hlt with ⟨w, h1⟩ | ⟨w, m, z, h1⟩
    · exact ⟨w, by rw [← hh]; exact h1⟩
    · have := h.q.2.2 t w _ _ (at_lcl.2 hlx) (at_lcl.2 h1) rfl rfl
      subst this
      rw [hlx] at h1; simp at h1
  obtain ⟨w, -, ⟨m, h1⟩ | h1⟩ := C25_pop_wakes_partial hC hc (.inl hr)
  · have := h.q.2.2 t w _ _ (at_lcl.2 hlx) h1 rfl rfl
    subst this
    rw [at_lcl, hlx] at h1; simp at h1
  · exact hcl w h1

/-! ## Fibers left asleep -/

def quietB (s : State (G Nat) (Pc Nat)) : Bool :=
  s.th.all fun x => match x.cl, x.ep with
    | .idle, _ => true
    | .qWait _, .asleep _ _ => true
    | .pWait _ _, .asleep _ _ => true
    | _, _ => false

theorem quiet_of {s : State (G Nat) (Pc Nat)} (h : quietB s = true) : Quiet s := by
  rintro t l ⟨x, hx, rfl⟩
  have := List.all_eq_true.1 h x (List.mem_of_getElem? hx)
  cases hc : x.cl <;> cases he : x.ep <;> simp [hc, he] at this
  all_goals first
    | exact .inl rfl
    | exact .inr (.inl ⟨x, _, _, _, hx, he, hc⟩)
    | exact .inr (.inr ⟨x, _, _, _, _, hx, he, hc⟩)

def popB (s : State (G Nat) (Pc Nat)) (t : Nat) : Bool :=
  match s.th[t]? with
  | some x => match x.cl, x.ep with
    | .qWait _, .asleep _ _ => true
    | _, _ => false
  | none => false

theorem pop_of {s : State (G Nat) (Pc Nat)} {t : Nat} (h : popB s t = true) : PopBlocked s t := by
  cases hx : s.th[t]? with
  | none => simp [popB, hx] at h
  | some x =>
    cases hc : x.cl <;> cases he : x.ep <;> simp [popB, hx, hc, he] at h
    exact ⟨x, _, _, _, hx, he, hc⟩

def pushB (s : State (G Nat) (Pc Nat)) (t : Nat) : Bool :=
  match s.th[t]? with
  | some x => match x.cl, x.ep with
    | .pWait _ _, .asleep _ _ => true
    | _, _ => false
  | none => false

theorem push_of {s : State (G Nat) (Pc Nat)} {t : Nat} (h : pushB s t = true) : PushBlocked s t := by
  cases hx : s.th[t]? with
  | none => simp [pushB, hx] at h
  | some x =>
    cases hc : x.cl <;> cases he : x.ep <;> simp [pushB, hx, hc, he] at h
    exact ⟨x, _, _, _, _, hx, he, hc⟩

/-- `n` steps of fiber `t`, the first of which chooses the operation. -/
def go (t : Nat) (c : Ch Nat) (n : Nat) : List (Act (Ch Nat)) := List.replicate n (.go t c)

/-- A channel of capacity `n` for one producer. -/
def g0 (n : Nat) : G Nat := { q := { cap := n }, np := 1 }

theorem g0_ok {n : Nat} (h : 0 < n) : I0 (g0 n) := ⟨_, 1, ⟨n, h, rfl⟩, rfl⟩

/-- A producer may stay asleep although there is room: a successful `Pop` does not notify (66-73), only one that finds the
queue empty does. -/
theorem C25_pusher_left_blocked : ∃ s : State (G Nat) (Pc Nat), CReach Nat NoWrap s ∧
    (PushBlocked s 0 ∧ HasRoom s.g ∧ Quiet s) := by
  refine run_ex (g := g0 2) (l := .idle) (g0_ok (by decide)) rfl 2
    (go 0 (.push 1) 4 ++ go 0 (.push 2) 4 ++ go 0 (.push 3) 7 ++ go 1 .pop 4)
    (fun s => pushB s 0 && (s.g.q.room s.g.q.tail && quietB s)) ?_ (by decide +kernel)
  intro s h
  simp only [Bool.and_eq_true] at h
  exact ⟨push_of h.1, h.2.1, quiet_of h.2.2⟩

/-- With two consumers asleep and two producers that publish out of order, one consumer may stay asleep although the
item at the head of the queue can be taken: the notification for it was consumed by a consumer that came too early. -/
theorem C25_popper_left_blocked : ∃ s : State (G Nat) (Pc Nat), CReach Nat NoWrap s ∧
    (PopBlocked s 0 ∧ Readable s.g ∧ Quiet s) := by
  refine run_ex (g := g0 4) (l := .idle) (g0_ok (by decide)) rfl 4
    (go 0 .pop 10 ++ go 1 .pop 10 ++ go 2 (.push 1) 2 ++ go 3 (.push 2) 8 ++ go 0 .pop 10 ++ go 2 (.push 1) 6 ++ go 1 .pop 8)
    (fun s => popB s 0 && ((s.g.q.cell s.g.q.head).isSome && quietB s)) ?_ (by decide +kernel)
  intro s h
  simp only [Bool.and_eq_true] at h
  exact ⟨pop_of h.1, by simpa [Readable, Option.isSome_iff_exists] using h.2.1, quiet_of h.2.2⟩

/-! ## The hypotheses are met -/

def discB (s : State (G Nat) (Pc Nat)) : Bool := !s.g.isClosing || s.th.all fun x => !Pushing x.cl

theorem disc_of {s : State (G Nat) (Pc Nat)} (h : discB s = true) : Disciplined s := by
  rintro hc t l ⟨x, hx, rfl⟩
  simp only [discB, hc, Bool.not_true, Bool.false_or, List.all_eq_true] at h
  simpa using h x (List.mem_of_getElem? hx)

theorem onec_of {s : State (G Nat) (Pc Nat)} (h : oneB Popping s = true) : OneConsumer s := by
  rintro t u _ _ ⟨x, hx, rfl⟩ ⟨y, hy, rfl⟩ h1 h2
  exact one_of h hx hy h1 h2

theorem onep_of {s : State (G Nat) (Pc Nat)} (h : oneB Pushing s = true) : OneProducer s := by
  rintro t u _ _ ⟨x, hx, rfl⟩ ⟨y, hy, rfl⟩ h1 h2
  exact one_of h hx hy h1 h2

/-- C25_fifo: three items through a queue of two, with one consumer. -/
example : ∃ s : State (G Nat) (Pc Nat), CReach Nat (fun s => NoWrap s ∧ OneConsumer s) s ∧ s.g.got = [(0, 1), (1, 2), (2, 3)] :=
  run_ex_q (g := g0 2) (l := .idle) (g0_ok (by decide)) rfl 2
    (go 0 (.push 1) 4 ++ go 0 (.push 2) 4 ++ go 1 .pop 4 ++ go 0 (.push 3) 4 ++ go 1 .pop 4 ++ go 1 .pop 4)
    (oneB Popping) (fun _ => onec_of) (fun s => s.g.got == [(0, 1), (1, 2), (2, 3)]) (fun _ h => by simpa using h) (by decide +kernel)

/-- C25_closed: the consumer drains one item and is then told that the channel is closed. -/
example : ∃ s : State (G Nat) (Pc Nat), CReach Nat (fun s => NoWrap s ∧ Disciplined s) s ∧ (At s 1 (.fin none) ∧ s.g.got = [(0, 1)]) := by
  refine run_ex_q (g := g0 2) (l := .idle) (g0_ok (by decide)) rfl 2
    (go 0 (.push 1) 4 ++ go 1 .pop 4 ++ go 0 .close 2 ++ go 1 .pop 10)
    discB (fun _ => disc_of) (fun s => (match s.th[1]? with | some x => x.cl == .fin none | none => false) && s.g.got == [(0, 1)]) ?_ (by decide +kernel)
  intro s h
  simp only [Bool.and_eq_true] at h
  cases hx : s.th[1]? with
  | none => simp [hx] at h
  | some x => exact ⟨⟨x, hx, by simpa [hx] using h.1⟩, by simpa using h.2⟩

/-- C25_close_wakes: two consumers asleep, the channel is closing, one of them already woken up. -/
example : ∃ s : State (G Nat) (Pc Nat), CReach Nat NoWrap s ∧ (PopBlocked s 1 ∧ s.g.np ≤ s.g.closing) := by
  refine run_ex (g := g0 4) (l := .idle) (g0_ok (by decide)) rfl 3 (go 0 .pop 10 ++ go 1 .pop 10 ++ go 2 .close 5)
    (fun s => popB s 1 && decide (s.g.np ≤ s.g.closing)) ?_ (by decide +kernel)
  intro s h
  simp only [Bool.and_eq_true] at h
  exact ⟨pop_of h.1, by simpa using h.2⟩

/-- C25_pop_wakes_partial: the consumer sleeps, the item is published, the producer has not notified yet. -/
example : ∃ s : State (G Nat) (Pc Nat), CReach Nat (fun s => NoWrap s ∧ OneConsumer s) s ∧ (PopBlocked s 0 ∧ Readable s.g) := by
  refine run_ex_q (g := g0 4) (l := .idle) (g0_ok (by decide)) rfl 2 (go 0 .pop 10 ++ go 1 (.push 1) 3)
    (oneB Popping) (fun _ => onec_of) (fun s => popB s 0 && (s.g.q.cell s.g.q.head).isSome) ?_ (by decide +kernel)
  intro s h
  simp only [Bool.and_eq_true] at h
  exact ⟨pop_of h.1, by simpa [Readable, Option.isSome_iff_exists] using h.2⟩

/-- C25_no_deadlock_partial: the producer sleeps at a full queue, nobody is closing. -/
example : ∃ s : State (G Nat) (Pc Nat), CReach Nat (fun s => NoWrap s ∧ OneConsumer s ∧ OneProducer s) s ∧
    (PushBlocked s 0 ∧ ∀ w, ¬ Closing s w) := by
  refine run_ex_q (g := g0 1) (l := .idle) (g0_ok (by decide)) rfl 2 (go 1 .pop 6 ++ go 0 (.push 1) 6 ++ go 0 (.push 3) 7)
    (fun s => oneB Popping s && oneB Pushing s) (fun _ h => by simp only [Bool.and_eq_true] at h; exact ⟨onec_of h.1, onep_of h.2⟩)
    (fun s => pushB s 0 && s.th.all fun x => x.cl != .cNtf) ?_ (by decide +kernel)
  intro s h
  simp only [Bool.and_eq_true] at h
  refine ⟨push_of h.1, ?_⟩
  rintro w ⟨x, hx, hc⟩
  have := List.all_eq_true.1 h.2 x (List.mem_of_getElem? hx)
  simp [hc] at this

end Verif.Channel
