import Verif.EventCount.Model
namespace Verif.EventCount
open Verif.Common
variable {G L C : Type}

/-- Event count whose spinlock a thread holds. -/
def holdsLock : EPc → Option Nat
  | .wCheck i _ => some i
  | .wLink i _ => some i
  | .wPost i _ _ => some i
  | .nLoop i _ _ => some i
  | .nAct i _ _ => some i
  | .nDone i => some i
  | _ => none

/-- Event count a thread is waiting on. -/
def waitIx : EPc → Option Nat
  | .wCheck i _ => some i
  | .wLink i _ => some i
  | .asleep i _ => some i
  | .woken i _ _ => some i
  | .wPost i _ _ => some i
  | .wPull i _ _ => some i
  | _ => none

def hasKey (i : Nat) (x : Th L) : Bool :=
  match x.key with
  | some k => k.ix = i
  | none => false

def State.nkeys (s : State G L) (i : Nat) : Nat := s.th.countP (hasKey i)

def State.ep (s : State G L) (t : Nat) : Option EPc := (s.th[t]?).map Th.ep
def State.key (s : State G L) (t : Nat) : Option Key := (s.th[t]?).bind Th.key

/-- The invariant of locks, queues and activations, in terms of what each thread is doing (`E`) and its key (`K`). -/
structure AInv (ec : Nat → EC) (E : Nat → Option EPc) (K : Nat → Option Key) (tok : Nat → Bool) : Prop where
  wkey : ∀ t p i, E t = some p → waitIx p = some i → ∃ k, K t = some k ∧ k.ix = i
  lockH : ∀ t p i, E t = some p → holdsLock p = some i → (ec i).lock = some t
  lockO : ∀ i t, (ec i).lock = some t → ∃ p, E t = some p ∧ holdsLock p = some i
  qnd : ∀ i, (ec i).queue.Nodup
  qmem : ∀ i t, t ∈ (ec i).queue →
    (∃ tm, E t = some (.asleep i tm)) ∨ E t = some (.woken i true true) ∨ E t = some (.wPost i true true)
  slp : ∀ t i tm, E t = some (.asleep i tm) → t ∈ (ec i).queue ∨ ∃ u all, E u = some (.nAct i all t)
  act : ∀ u i all w, E u = some (.nAct i all w) → w ∉ (ec i).queue ∧ tok w = false ∧
    ((∃ tm, E w = some (.asleep i tm)) ∨ E w = some (.woken i true true))
  tok : ∀ t, tok t = true → (∃ i, (E t = some (.woken i true true) ∨ E t = some (.wPost i true true)) ∧ t ∉ (ec i).queue) ∨
    ∃ i to, E t = some (.wPull i to true)

structure EInv (s : State G L) : Prop where
  len : s.th.length < 2 ^ 32
  val : ∀ i, (s.ec i).val = ((s.ec i).ntf % 2 ^ 32) * 2 ^ 32 + s.nkeys i
  key : ∀ t k, s.key t = some k → k.ep32 = k.gh % 2 ^ 32 ∧ k.gh ≤ (s.ec k.ix).ntf
  a : AInv s.ec s.ep s.key s.tok
  bad : s.bad = false

theorem countP_set {β : Type} {p : β → Bool} {l : List β} {t : Nat} {x y : β} (h : l[t]? = some x) :
    (l.set t y).countP p + (if p x then 1 else 0) = l.countP p + (if p y then 1 else 0) := by
  induction l generalizing t with
  | nil => simp at h
  | cons a l ih =>
    cases t with
    | zero =>
      simp only [List.getElem?_cons_zero, Option.some.injEq] at h
      subst h
      simp only [List.set_cons_zero, List.countP_cons]
      omega
    | succ t =>
      simp only [List.getElem?_cons_succ] at h
      have := ih h
      simp only [List.set_cons_succ, List.countP_cons]
      omega

theorem nkeys_lt {s : State G L} (h : s.th.length < 2 ^ 32) (i : Nat) : s.nkeys i < 2 ^ 32 := by
  have := List.countP_le_length (p := hasKey i) (l := s.th)
  unfold State.nkeys; omega

theorem epoch_eq {s : State G L} (h : EInv s) (i : Nat) : (s.ec i).val / 2 ^ 32 = (s.ec i).ntf % 2 ^ 32 := by
  have h1 := h.val i
  have h2 := nkeys_lt h.len i
  omega

theorem waiters_eq {s : State G L} (h : EInv s) (i : Nat) : (s.ec i).val % 2 ^ 32 = s.nkeys i := by
  have h1 := h.val i
  have h2 := nkeys_lt h.len i
  omega

theorem ep_put {s : State G L} {t : Nat} {x y : Th L} (ht : s.th[t]? = some x) :
    (s.put t y).ep = upd s.ep t (some y.ep) := by
  funext u
  simp only [State.ep, State.put, upd, List.getElem?_set]
  have := lt_of_get ht
  grind

theorem key_put {s : State G L} {t : Nat} {x y : Th L} (ht : s.th[t]? = some x) :
    (s.put t y).key = upd s.key t y.key := by
  funext u
  simp only [State.key, State.put, upd, List.getElem?_set]
  have := lt_of_get ht
  grind

theorem nkeys_put {s : State G L} {t : Nat} {x y : Th L} (ht : s.th[t]? = some x) (i : Nat) :
    (s.put t y).nkeys i + (if hasKey i x then 1 else 0) = s.nkeys i + (if hasKey i y then 1 else 0) :=
  countP_set ht

section pure
variable {ec : Nat → EC} {E : Nat → Option EPc} {K : Nat → Option Key} {tok : Nat → Bool}

theorem upd_apply {β : Type} (f : Nat → β) (i : Nat) (v : β) (j : Nat) : upd f i v j = if j = i then v else f j := rfl

theorem ainv_id {t : Nat} (h : AInv ec E K tok) (ht : E t = some .cl) : AInv ec (upd E t (some .cl)) K tok := by
  have : upd E t (some .cl) = E := by funext u; by_cases e : u = t <;> simp [upd, e, ht]
  rw [this]; exact h

/-- Changing the key of a thread in client code. -/
theorem ainv_key {t : Nat} {k : Option Key} (h : AInv ec E K tok) (ht : E t = some .cl) :
    AInv ec E (upd K t k) tok := by
  obtain ⟨wkey, lockH, lockO, qnd, qmem, slp, act, tk⟩ := h
  refine ⟨?_, lockH, lockO, qnd, qmem, slp, act, tk⟩
  intro u p i hu hp
  have : u ≠ t := by rintro rfl; rw [ht] at hu; simp at hu; subst hu; simp [waitIx] at hp
  rw [upd_ne _ _ this]
  exact wkey u p i hu hp

/-- Changes of the packed word only. -/
theorem ainv_val {i v n : Nat} (h : AInv ec E K tok) :
    AInv (upd ec i { ec i with val := v, ntf := n }) E K tok := by
  have h1 : ∀ j, (upd ec i { ec i with val := v, ntf := n } j).lock = (ec j).lock := by
    intro j; by_cases e : j = i <;> simp [upd, e]
  have h2 : ∀ j, (upd ec i { ec i with val := v, ntf := n } j).queue = (ec j).queue := by
    intro j; by_cases e : j = i <;> simp [upd, e]
  obtain ⟨wkey, lockH, lockO, qnd, qmem, slp, act, tk⟩ := h
  constructor <;> (try simp only [h1, h2]) <;> assumption

theorem ainv_plain {t : Nat} {p p' : EPc} (h : AInv ec E K tok) (ht : E t = some p) (hp : p = .cl ∨ ∃ i all, p = .nLock i all)
    (hp' : p' = .cl ∨ ∃ i all, p' = .nLock i all) : AInv ec (upd E t (some p')) K tok := by
  obtain ⟨wkey, lockH, lockO, qnd, qmem, slp, act, tk⟩ := h
  constructor <;> try simp only [upd_apply]
  · grind [waitIx]
  · grind [holdsLock]
  · grind [holdsLock]
  · grind
  · grind
  · grind
  · grind
  · grind

/-- Acquiring the lock: `wait` from client code with a key, finishing a wait, or a notifier. -/
theorem ainv_lock {t i : Nat} {p p' : EPc} (h : AInv ec E K tok) (ht : E t = some p) (hl : (ec i).lock = none)
    (hp : (p = .cl ∧ (∃ tm, p' = .wCheck i tm) ∧ ∃ k, K t = some k ∧ k.ix = i) ∨
      (∃ tm to, p = .woken i tm to ∧ p' = .wPost i tm to) ∨ ∃ all, p = .nLock i all ∧ p' = .nLoop i all false) :
    AInv (upd ec i { ec i with lock := some t }) (upd E t (some p')) K tok := by
  obtain ⟨wkey, lockH, lockO, qnd, qmem, slp, act, tk⟩ := h
  constructor <;> try simp only [upd_apply]
  · grind [waitIx]
  · grind [holdsLock]
  · grind [holdsLock]
  · grind
  · grind
  · grind
  · grind [holdsLock]
  · grind

/-- Releasing the lock and returning to client code. -/
theorem ainv_unlock {t i : Nat} {p : EPc} (h : AInv ec E K tok) (ht : E t = some p)
    (hp : (∃ tm, p = .wCheck i tm) ∨ (∃ to, p = .wPost i false to) ∨ (∃ all any, p = .nLoop i all any) ∨ p = .nDone i) :
    AInv (upd ec i { ec i with lock := none }) (upd E t (some .cl)) K tok := by
  have hl : (ec i).lock = some t := h.lockH t p i ht (by rcases hp with ⟨tm, rfl⟩ | ⟨to, rfl⟩ | ⟨al, an, rfl⟩ | rfl <;> rfl)
  obtain ⟨wkey, lockH, lockO, qnd, qmem, slp, act, tk⟩ := h
  constructor <;> try simp only [upd_apply]
  · grind [waitIx]
  · grind [holdsLock]
  · grind [holdsLock]
  · grind
  · grind
  · grind
  · grind [holdsLock]
  · intro u hu
    rcases tk u hu with ⟨j, hj, hn⟩ | ⟨i, to, h⟩
    · refine .inl ⟨j, ?_, ?_⟩
      · grind
      · split
        · rename_i e; subst e; exact hn
        · exact hn
    · right; grind

theorem ainv_link {t i : Nat} {tm : Bool} (h : AInv ec E K tok) (ht : E t = some (.wLink i tm)) :
    AInv (upd ec i { ec i with lock := none, queue := (ec i).queue ++ [t] }) (upd E t (some (.asleep i tm))) K tok := by
  have hl : (ec i).lock = some t := h.lockH t _ i ht rfl
  obtain ⟨wkey, lockH, lockO, qnd, qmem, slp, act, tk⟩ := h
  have hn : ∀ j, t ∉ (ec j).queue := by
    intro j hj; have := qmem j t hj; grind
  constructor <;> try simp only [upd_apply]
  · grind [waitIx]
  · grind [holdsLock]
  · grind [holdsLock]
  · intro j
    split
    · simp only [List.nodup_append]
      refine ⟨qnd i, by simp, ?_⟩
      intro a ha b hb
      simp at hb; subst hb
      rintro rfl; exact hn i ha
    · exact qnd j
  · grind
  · grind
  · grind [holdsLock]
  · grind

/-- The epoch comparison succeeded. -/
theorem ainv_match {t i : Nat} {tm : Bool} (h : AInv ec E K tok) (ht : E t = some (.wCheck i tm)) :
    AInv ec (upd E t (some (.wLink i tm))) K tok := by
  obtain ⟨wkey, lockH, lockO, qnd, qmem, slp, act, tk⟩ := h
  constructor <;> try simp only [upd_apply]
  · grind [waitIx]
  · grind [holdsLock]
  · grind [holdsLock]
  · grind
  · grind
  · grind
  · grind
  · grind

theorem ainv_timer {t i : Nat} (h : AInv ec E K tok) (ht : E t = some (.asleep i true)) :
    AInv ec (upd E t (some (.woken i true true))) K tok := by
  obtain ⟨wkey, lockH, lockO, qnd, qmem, slp, act, tk⟩ := h
  constructor <;> try simp only [upd_apply]
  · grind [waitIx]
  · grind [holdsLock]
  · grind [holdsLock]
  · grind
  · grind
  · grind
  · grind
  · grind

/-- A timed waiter that is still linked removes itself. -/
theorem ainv_unlink {t i : Nat} {to : Bool} (h : AInv ec E K tok) (ht : E t = some (.wPost i true to))
    (hq : t ∈ (ec i).queue) :
    AInv (upd ec i { ec i with lock := none, queue := (ec i).queue.erase t }) (upd E t (some (.wPull i true false))) K tok := by
  have hl : (ec i).lock = some t := h.lockH t _ i ht rfl
  obtain ⟨wkey, lockH, lockO, qnd, qmem, slp, act, tk⟩ := h
  have hnd := qnd i
  have hme : ∀ a, a ∈ (ec i).queue.erase t ↔ a ≠ t ∧ a ∈ (ec i).queue := fun a => List.Nodup.mem_erase_iff hnd
  constructor <;> try simp only [upd_apply]
  · grind [waitIx]
  · grind [holdsLock]
  · grind [holdsLock]
  · intro j
    split
    · exact hnd.erase t
    · exact qnd j
  · grind
  · grind
  · grind [holdsLock]
  · grind

theorem ainv_post {t i : Nat} {to : Bool} (h : AInv ec E K tok) (ht : E t = some (.wPost i true to))
    (hq : t ∉ (ec i).queue) :
    AInv (upd ec i { ec i with lock := none }) (upd E t (some (.wPull i to true))) K tok := by
  have hl : (ec i).lock = some t := h.lockH t _ i ht rfl
  obtain ⟨wkey, lockH, lockO, qnd, qmem, slp, act, tk⟩ := h
  constructor <;> try simp only [upd_apply]
  · grind [waitIx]
  · grind [holdsLock]
  · grind [holdsLock]
  · grind
  · grind
  · grind
  · grind [holdsLock]
  · grind

theorem ainv_pull {t i : Nat} {to : Bool} (h : AInv ec E K tok) (ht : E t = some (.wPull i to true)) :
    AInv ec (upd E t (some .cl)) K (upd tok t false) := by
  obtain ⟨wkey, lockH, lockO, qnd, qmem, slp, act, tk⟩ := h
  constructor <;> try simp only [upd_apply]
  · grind [waitIx]
  · grind [holdsLock]
  · grind [holdsLock]
  · grind
  · grind
  · grind
  · grind
  · grind

theorem ainv_pull2 {t i : Nat} {to : Bool} (h : AInv ec E K tok) (ht : E t = some (.wPull i to false)) :
    AInv ec (upd E t (some .cl)) K tok := by
  obtain ⟨wkey, lockH, lockO, qnd, qmem, slp, act, tk⟩ := h
  constructor <;> try simp only [upd_apply]
  · grind [waitIx]
  · grind [holdsLock]
  · grind [holdsLock]
  · grind
  · grind
  · grind
  · grind
  · grind

/-- A notifier removes the first waiter. -/
theorem ainv_pop {t i w : Nat} {all any : Bool} {q : List Nat} (h : AInv ec E K tok)
    (ht : E t = some (.nLoop i all any)) (hq : (ec i).queue = w :: q) :
    AInv (upd ec i { ec i with queue := q }) (upd E t (some (.nAct i all w))) K tok := by
  have hl : (ec i).lock = some t := h.lockH t _ i ht rfl
  obtain ⟨wkey, lockH, lockO, qnd, qmem, slp, act, tk⟩ := h
  have hnd := qnd i
  rw [hq, List.nodup_cons] at hnd
  have hw := qmem i w (by rw [hq]; simp)
  have hme : ∀ a, a ∈ (ec i).queue ↔ a = w ∨ a ∈ q := by intro a; rw [hq]; simp
  have hww : (∃ tm, E w = some (.asleep i tm)) ∨ E w = some (.woken i true true) := by
    rcases hw with hw | hw | hw
    · exact .inl hw
    · exact .inr hw
    · have := lockH w _ i hw rfl
      grind
  have hwt : w ≠ t := by rintro rfl; rw [ht] at hww; simp at hww
  have htok : tok w = false := by
    cases htw : tok w with
    | false => rfl
    | true => exfalso; have := tk w htw; grind
  constructor <;> try simp only [upd_apply]
  · grind [waitIx]
  · grind [holdsLock]
  · grind [holdsLock]
  · grind
  · grind
  · intro u j tm hu
    have hut : u ≠ t := by rintro rfl; grind
    simp only [hut, if_false] at hu
    rcases slp u j tm hu with hm | ⟨v, al, hv⟩
    · by_cases hj : j = i
      · subst hj
        rcases (hme u).1 hm with rfl | hm
        · exact .inr ⟨t, all, by simp⟩
        · exact .inl (by simpa using hm)
      · exact .inl (by simpa [hj] using hm)
    · have : v ≠ t := by rintro rfl; grind
      exact .inr ⟨v, al, by simpa [this] using hv⟩
  · grind [holdsLock]
  · grind

/-- Activating a sleeping waiter. -/
theorem ainv_act1 {t i w : Nat} {all tm : Bool} {p' : EPc} (h : AInv ec E K tok)
    (ht : E t = some (.nAct i all w)) (hw : E w = some (.asleep i tm))
    (hp : p' = .nLoop i all true ∨ p' = .nDone i) :
    AInv ec (upd (upd E w (some (.woken i tm false))) t (some p')) K tok := by
  have hl : (ec i).lock = some t := h.lockH t _ i ht rfl
  obtain ⟨wkey, lockH, lockO, qnd, qmem, slp, act, tk⟩ := h
  obtain ⟨a1, a2, a3⟩ := act t i all w ht
  constructor <;> try simp only [upd_apply]
  · grind [waitIx]
  · grind [holdsLock]
  · grind [holdsLock]
  · grind
  · grind
  · grind [holdsLock]
  · intro u j al v hu
    have hut : u ≠ t := by rintro rfl; grind
    have huw : u ≠ w := by rintro rfl; grind
    have hu' : E u = some (.nAct j al v) := by simpa [hut, huw] using hu
    obtain ⟨b1, b2, b3⟩ := act u j al v hu'
    have hvt : v ≠ t := by rintro rfl; grind
    have hvw : v ≠ w := by
      rintro rfl
      have hji : j = i := by grind
      subst hji
      have := lockH u _ j hu' rfl
      grind
    simp only [hvt, hvw, if_false]
    exact ⟨b1, b2, b3⟩
  · grind

/-- Activating a waiter already resumed by its timer. -/
theorem ainv_act2 {t i w : Nat} {all : Bool} {p' : EPc} (h : AInv ec E K tok)
    (ht : E t = some (.nAct i all w)) (hw : E w = some (.woken i true true))
    (hp : p' = .nLoop i all true ∨ p' = .nDone i) :
    AInv ec (upd E t (some p')) K (upd tok w true) := by
  have hl : (ec i).lock = some t := h.lockH t _ i ht rfl
  obtain ⟨wkey, lockH, lockO, qnd, qmem, slp, act, tk⟩ := h
  obtain ⟨a1, a2, a3⟩ := act t i all w ht
  constructor <;> try simp only [upd_apply]
  · grind [waitIx]
  · grind [holdsLock]
  · grind [holdsLock]
  · grind
  · grind
  · grind [holdsLock]
  · grind [holdsLock]
  · grind

end pure

end Verif.EventCount
