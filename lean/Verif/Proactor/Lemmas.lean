import Verif.Proactor.Spec
/-!
The invariant of the wake-up protocol.
-/
namespace Verif.Proactor
open Verif.Common

theorem upd_apply {β : Type} (f : Nat → β) (i j : Nat) (v : β) : upd f i v j = if j = i then v else f j := rfl

/-- A call that has claimed a position and has not yet added to the sequence number. -/
def early : PPc → Bool
  | .claimed _ _ | .add _ _ => true
  | _ => false

def waking : PPc → Bool
  | .wake _ _ => true
  | _ => false

/-- The loop is between its load and its compare-and-swap. -/
def inLoop : CPc → Bool
  | .load | .store | .blocked => false
  | _ => true

def pastTasks : CPc → Bool
  | .remote | .rest | .empty1 | .empty2 | .cas | .blocked => true
  | _ => false

def pastRemote : CPc → Bool
  | .rest | .empty1 | .empty2 | .cas | .blocked => true
  | _ => false

/-- A position is published or its producer still has to. -/
structure BInv (s : State) : Prop where
  tp : ∀ p, p < s.tq.tail → s.tq.pub p = true ∨ ∃ t, s.ppc t = .claimed false p
  rp : ∀ p, p < s.rq.tail → s.rq.pub p = true ∨ ∃ t, s.ppc t = .claimed true p

def Early (s : State) : Prop := ∃ t, early (s.ppc t) = true

/-- The sequence number. -/
structure AInv (s : State) : Prop where
  lt : s.seq < 2 ^ 32
  ll : s.loc < 2 ^ 32
  eq : inLoop s.cpc = true → s.seq = (s.loc + 2 * s.adds) % 2 ^ 32
  bl : s.cpc = .blocked → s.seq = (waitVal + 2 * s.adds) % 2 ^ 32

/-- What the loop knows about items it has not taken. -/
structure WInv (s : State) : Prop where
  ta : pastTasks s.cpc = true → s.done = true → s.adds = 0 → s.tq.head < s.tq.tail → Early s
  re : pastRemote s.cpc = true → s.adds = 0 → s.rq.head < s.rq.tail → Early s
  wk : s.cpc = .blocked → s.adds ≠ 0 → s.ev = true ∨ ∃ t, waking (s.ppc t) = true
  dn : s.cpc = .empty1 ∨ s.cpc = .empty2 ∨ s.cpc = .cas ∨ s.cpc = .blocked → s.done = true

theorem ex_upd {f : Nat → PPc} {P : PPc → Bool} {t : Nat} {v : PPc} (h : ∃ u, P (f u) = true) (hv : P (f t) = true → P v = true) :
    ∃ u, P (upd f t v u) = true := by
  obtain ⟨u, hu⟩ := h
  by_cases e : u = t
  · subst e; exact ⟨u, by rw [upd_same]; exact hv hu⟩
  · exact ⟨u, by rw [upd_ne _ _ e]; exact hu⟩

theorem ex_new {f : Nat → PPc} {P : PPc → Bool} {t : Nat} {v : PPc} (hv : P v = true) : ∃ u, P (upd f t v u) = true :=
  ⟨t, by rw [upd_same]; exact hv⟩

theorem binv_init {s : State} (h : Init s) : BInv s := by
  obtain ⟨u, rfl⟩ := h
  constructor <;> simp [start, fresh]

theorem binv_frame {s s' : State} (h : BInv s) (h1 : s'.ppc = s.ppc) (h2 : s'.tq.tail = s.tq.tail) (h3 : s'.tq.pub = s.tq.pub)
    (h4 : s'.rq.tail = s.rq.tail) (h5 : s'.rq.pub = s.rq.pub) : BInv s' := by
  obtain ⟨a2, a3⟩ := h
  constructor
  · rw [h1, h2, h3]; exact a2
  · rw [h1, h4, h5]; exact a3

theorem binv_c {s s' : State} {c : Ch} (h : BInv s) (hs : stepC s c = some s') : BInv s' := by
  unfold stepC at hs
  cases hp : s.cpc <;> simp only [hp] at hs <;> (repeat' split at hs) <;> cases hs <;>
    exact binv_frame h rfl rfl rfl rfl rfl

theorem ex_keep {f : Nat → PPc} {t : Nat} {v w : PPc} (h : ∃ u, f u = w) (hv : f t ≠ w) : ∃ u, upd f t v u = w := by
  obtain ⟨u, hu⟩ := h
  refine ⟨u, ?_⟩
  rw [upd_ne]
  · exact hu
  · rintro rfl; exact hv hu

theorem binv_step {s s' : State} {a : Act} (h : BInv s) (hs : step s a = some s') : BInv s' := by
  cases a <;> simp only [step] at hs
  case c c => exact binv_c h hs
  case eat => unfold stepEat at hs; split at hs <;> cases hs; exact binv_frame h rfl rfl rfl rfl rfl
  case p t =>
    obtain ⟨a2, a3⟩ := h
    unfold stepP at hs
    cases hp : s.ppc t with
    | idle => simp [hp] at hs
    | claimed r p =>
      simp only [hp] at hs
      have key : ∀ r' p', (r', p') ≠ (r, p) → (∃ u, s.ppc u = .claimed r' p') →
          ∃ u, upd s.ppc t (.add r p) u = .claimed r' p' := by
        intro r' p' hne h
        refine ex_keep h ?_
        rw [hp]; intro h; cases h; exact hne rfl
      cases r <;> simp only [Bool.false_eq_true, if_false, if_true] at hs <;> cases hs <;> constructor <;> intro p' hp' <;> simp only [Inbox.publish] at hp' ⊢
      · by_cases e : p' = p
        · left; rw [upd_apply, if_pos e]
        · rw [upd_apply, if_neg e]; exact (a2 p' hp').imp id (key _ _ (by simp [e]))
      · exact (a3 p' hp').imp id (key _ _ (by simp))
      · exact (a2 p' hp').imp id (key _ _ (by simp))
      · by_cases e : p' = p
        · left; rw [upd_apply, if_pos e]
        · rw [upd_apply, if_neg e]; exact (a3 p' hp').imp id (key _ _ (by simp [e]))
    | add r p =>
      simp only [hp] at hs
      cases hs
      constructor
      · intro p' hp'; exact (a2 p' hp').imp id (fun h => ex_keep h (by rw [hp]; simp))
      · intro p' hp'; exact (a3 p' hp').imp id (fun h => ex_keep h (by rw [hp]; simp))
    | wake r p =>
      simp only [hp] at hs
      cases hs
      constructor
      · intro p' hp'; exact (a2 p' hp').imp id (fun h => ex_keep h (by rw [hp]; simp))
      · intro p' hp'; exact (a3 p' hp').imp id (fun h => ex_keep h (by rw [hp]; simp))
  case call t r =>
    obtain ⟨a2, a3⟩ := h
    split at hs
    · rename_i hi
      cases r <;> simp only [Bool.false_eq_true, if_false, if_true] at hs <;> cases hs <;> constructor <;> intro p' hp' <;> simp only [Inbox.claim] at hp' ⊢
      · by_cases e : p' = s.tq.tail
        · right; exact ⟨t, by rw [upd_same, e]⟩
        · exact (a2 p' (by omega)).imp id (fun h => ex_keep h (by rw [hi]; simp))
      · exact (a3 p' hp').imp id (fun h => ex_keep h (by rw [hi]; simp))
      · exact (a2 p' hp').imp id (fun h => ex_keep h (by rw [hi]; simp))
      · by_cases e : p' = s.rq.tail
        · right; exact ⟨t, by rw [upd_same, e]⟩
        · exact (a3 p' (by omega)).imp id (fun h => ex_keep h (by rw [hi]; simp))
    · cases hs

/-- Where an inbox shows nothing although it has items, a producer is about to publish. -/
theorem unavail {q : Inbox} {f : Nat → PPc} {r : Bool} (h : ∀ p, p < q.tail → q.pub p = true ∨ ∃ t, f t = .claimed r p)
    (h1 : q.avail ≠ true) (h2 : q.head < q.tail) : ∃ t, early (f t) = true := by
  rcases h q.head h2 with h3 | ⟨t, ht⟩
  · exact absurd (by simp [Inbox.avail, h2, h3]) h1
  · exact ⟨t, by rw [ht]; rfl⟩

theorem wait_lt : waitVal < 2 ^ 32 := by unfold waitVal; omega
theorem wait_eq : waitVal = (waitVal + 2 * 0) % 2 ^ 32 := by unfold waitVal; omega

theorem ainv_init {s : State} (h : Init s) : AInv s := by
  obtain ⟨u, rfl⟩ := h
  have h0 : 0 < 2 ^ 32 := by omega
  exact ⟨h0, h0, (fun h => nomatch h), (fun h => nomatch h)⟩

theorem winv_init {s : State} (h : Init s) : WInv s := by
  obtain ⟨u, rfl⟩ := h
  constructor <;> simp [start, pastTasks, pastRemote]

theorem ainv_ctl {s s' : State} (h : AInv s) (h1 : s'.seq = s.seq) (h2 : s'.loc = s.loc) (h3 : s'.adds = s.adds)
    (h4 : inLoop s'.cpc = true → inLoop s.cpc = true) (h5 : s'.cpc = .blocked → s.cpc = .blocked) : AInv s' :=
  ⟨by rw [h1]; exact h.lt, by rw [h2]; exact h.ll, fun hi => by rw [h1, h2, h3]; exact h.eq (h4 hi),
    fun hi => by rw [h1, h3]; exact h.bl (h5 hi)⟩

theorem ainv_c {s s' : State} {c : Ch} (h : AInv s) (hs : stepC s c = some s') : AInv s' := by
  unfold stepC at hs
  cases hp : s.cpc <;> simp only [hp] at hs
  case load =>
    cases hs
    refine ⟨h.lt, h.lt, fun _ => ?_, (fun h => nomatch h)⟩
    show s.seq = (s.seq + 2 * 0) % 2 ^ 32
    have := h.lt; omega
  case store =>
    have h0 : 0 < 2 ^ 32 := by omega
    cases hs; exact ⟨h0, h.ll, (fun h => nomatch h), (fun h => nomatch h)⟩
  case cas =>
    split at hs
    · cases hs; exact ⟨wait_lt, h.ll, (fun h => nomatch h), fun _ => wait_eq⟩
    · cases hs; exact ainv_ctl h rfl rfl rfl (by simp [hp, inLoop]) (by dsimp only; split <;> simp)
  all_goals (repeat' split at hs) <;> cases hs <;>
    exact ainv_ctl h rfl rfl rfl (by simp [hp, inLoop]) (by (try dsimp only) <;> (try split) <;> simp [hp])

theorem winv_c {s s' : State} {c : Ch} (ha : AInv s) (hb : BInv s) (h : WInv s) (hq : NoWrap s) (hs : stepC s c = some s') : WInv s' := by
  have ht := fun h1 => unavail (f := s.ppc) (r := false) hb.tp h1
  obtain ⟨a5,a6,a7,a8⟩ := h
  have hz : s.seq = s.loc → inLoop s.cpc = true → s.adds = 0 := by
    intro e hi
    have := ha.eq hi
    have := ha.ll
    unfold NoWrap at hq
    omega
  clear hq ha hb
  unfold stepC at hs
  cases hp : s.cpc <;> simp only [hp] at hs <;> simp only [hp, inLoop, pastTasks, pastRemote] at a5 a6 a7 a8 hz
  all_goals (repeat' split at hs) <;> cases hs <;>
    (constructor <;> simp only [Early, Inbox.take] at * <;> grind [pastTasks, pastRemote])

theorem ainv_step {s s' : State} {a : Act} (h : AInv s) (hs : step s a = some s') : AInv s' := by
  cases a <;> simp only [step] at hs
  case c c => exact ainv_c h hs
  case eat => unfold stepEat at hs; split at hs <;> cases hs; exact ainv_ctl h rfl rfl rfl id id
  case p t =>
    unfold stepP at hs
    cases hp : s.ppc t with
    | idle => simp [hp] at hs
    | claimed r p => simp only [hp] at hs; cases r <;> cases hs <;> exact ainv_ctl h rfl rfl rfl id id
    | wake r p => simp only [hp] at hs; cases hs; exact ainv_ctl h rfl rfl rfl id id
    | add r p =>
      simp only [hp] at hs
      cases hs
      refine ⟨?_, h.ll, fun hi => ?_, fun hi => ?_⟩
      · show (s.seq + 2) % 2 ^ 32 < 2 ^ 32
        omega
      · have := h.eq hi
        show (s.seq + 2) % 2 ^ 32 = (s.loc + 2 * (s.adds + 1)) % 2 ^ 32
        omega
      · have := h.bl hi
        show (s.seq + 2) % 2 ^ 32 = (waitVal + 2 * (s.adds + 1)) % 2 ^ 32
        omega
  case call t r =>
    split at hs
    · cases r <;> cases hs <;> exact ainv_ctl h rfl rfl rfl id id
    · cases hs

theorem winv_step {s s' : State} {a : Act} (ha : AInv s) (hb : BInv s) (h : WInv s) (hq : NoWrap s) (hs : step s a = some s') :
    WInv s' := by
  cases a <;> simp only [step] at hs
  case c c => exact winv_c ha hb h hq hs
  case eat =>
    clear hq
    unfold stepEat at hs
    split at hs <;> cases hs
    rename_i hc
    exact ⟨h.ta, h.re, fun h1 => absurd h1 hc.1, h.dn⟩
  case p t =>
    unfold stepP at hs
    cases hp : s.ppc t with
    | idle => simp [hp] at hs
    | claimed r p =>
      simp only [hp] at hs
      have he : Early s → ∃ u, early (upd s.ppc t (.add r p) u) = true := fun h => ex_upd h (fun _ => rfl)
      have hw : (∃ u, waking (s.ppc u) = true) → ∃ u, waking (upd s.ppc t (.add r p) u) = true :=
        fun h => ex_upd h (by rw [hp]; simp [waking])
      cases r <;> cases hs <;>
        exact ⟨fun h1 h2 h3 h4 => he (h.ta h1 h2 h3 h4), fun h1 h2 h3 => he (h.re h1 h2 h3), fun h1 h2 => (h.wk h1 h2).imp id hw, h.dn⟩
    | add r p =>
      simp only [hp] at hs
      have hz : s.cpc = .blocked → s.adds = 0 → s.seq = waitVal := by
        intro h1 h2
        have := ha.bl h1
        rw [h2] at this
        rw [this]; exact wait_eq.symm
      cases hs
      refine ⟨fun h1 h2 h3 h4 => absurd h3 (Nat.succ_ne_zero _), fun h1 h2 h3 => absurd h2 (Nat.succ_ne_zero _), fun h1 _ => ?_, h.dn⟩
      by_cases h2 : s.adds = 0
      · right
        rw [if_pos (hz h1 h2)]
        exact ex_new rfl
      · rcases h.wk h1 h2 with h3 | h3
        · exact .inl h3
        · exact .inr (ex_upd h3 (by rw [hp]; simp [waking]))
    | wake r p =>
      simp only [hp] at hs
      have he : Early s → ∃ u, early (upd s.ppc t .idle u) = true := fun h => ex_upd h (by rw [hp]; simp [early])
      cases hs
      exact ⟨fun h1 h2 h3 h4 => he (h.ta h1 h2 h3 h4), fun h1 h2 h3 => he (h.re h1 h2 h3), fun h1 h2 => .inl rfl, h.dn⟩
  case call t r =>
    split at hs
    · rename_i hi
      have he : ∀ p, ∃ u, early (upd s.ppc t (.claimed r p) u) = true := fun p => ex_new rfl
      have hw : ∀ p, (∃ u, waking (s.ppc u) = true) → ∃ u, waking (upd s.ppc t (.claimed r p) u) = true :=
        fun p h => ex_upd h (by rw [hi]; simp [waking])
      cases r <;> cases hs <;>
        exact ⟨fun _ _ _ _ => he _, fun _ _ _ => he _, fun h1 h2 => (h.wk h1 h2).imp id (hw _), h.dn⟩
    · cases hs

structure Inv (s : State) : Prop where
  a : AInv s
  b : BInv s
  w : WInv s

theorem inv_reach {s : State} (h : Reach Init step NoWrap s) : Inv s :=
  Reach.invariant Inv (fun _ hi _ => ⟨ainv_init hi, binv_init hi, winv_init hi⟩)
    (fun _ _ _ hI hq hs _ => ⟨ainv_step hI.a hs, binv_step hI.b hs, winv_step hI.a hI.b hI.w hq hs⟩) h

end Verif.Proactor
