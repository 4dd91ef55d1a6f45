import Verif.SharedMutex.Lemmas
/-!
# C24: `SharedMutex` excludes readers and writers and does not strand them
-/
namespace Verif.SharedMutex
open Verif.Common Verif.EventCount
variable {tr : Bool}

abbrev St := State G Pc

/-- Reachable states; `tr` tells whether users call `try_lock_shared` directly. -/
abbrev R (tr : Bool) (s : St) : Prop := Reach Start (step (client tr)) NoWrap s

/-- Fiber `t` owns the lock exclusively / shared: its `lock`, `try_lock`, `lock_shared` or `try_lock_shared` has succeeded
and it has not called unlock. -/
def Holds (s : St) (t : Nat) (w : Bool) : Prop := ∃ x, s.th[t]? = some x ∧ (x.cl = .hold w ∨ x.cl = .dropX w)

/-- Fiber `t` is blocked in `lock` (`w`) or `lock_shared`. -/
def Blocked (s : St) (t : Nat) (w : Bool) : Prop := ∃ x i tm, s.th[t]? = some x ∧ x.ep = .asleep i tm ∧ x.cl = .wait w

/-- Fiber `u` has unlocked and its `notifyAll` is not finished. -/
def Notifying (s : St) (u : Nat) : Prop := ∃ x, s.th[u]? = some x ∧ x.cl = .owe

/-- Fiber `u` is inside `lock_shared`, has not got the lock and is not blocked: it is going to try again. -/
def RetryingShared (s : St) (u : Nat) : Prop :=
  ∃ x, s.th[u]? = some x ∧ (∀ i tm, x.ep ≠ .asleep i tm) ∧
    (x.cl = .sub0 ∨ x.cl = .prep false ∨ x.cl = .chk1 false ∨ x.cl = .sub1 ∨ x.cl = .wait false ∨ x.cl = .dropL false)

/-- C24. A writer owns the lock alone. -/
theorem C24_exclusion {s : St} (h : R tr s) {t u : Nat} {w : Bool} (ht : Holds s t true) (hu : Holds s u w) : t = u := by
  have hI := inv_reach (fun _ h => h.1) h
  obtain ⟨x, hx, hxc⟩ := ht
  obtain ⟨y, hy, hyc⟩ := hu
  have hw : s.g.wr = some t := (hI.wr t).2 ⟨x.cl, lcl_of hx, by rcases hxc with h | h <;> rw [h] <;> rfl⟩
  cases w with
  | true =>
    have : s.g.wr = some u := (hI.wr u).2 ⟨y.cl, lcl_of hy, by rcases hyc with h | h <;> rw [h] <;> rfl⟩
    rw [hw] at this; simpa using this
  | false =>
    have h1 : inRd y.cl = true := by rcases hyc with h | h <;> rw [h] <;> rfl
    have h2 := hI.excl t hw u y.cl (lcl_of hy) h1
    rcases hyc with h | h <;> rw [h] at h2 <;> simp [isSub] at h2

/-- Waiting readers: their condition is "no writer bit". -/
def rCond : Pc → G → Prop
  | .sub1, g => g.st % 2 = 0
  | .wait false, g => g.st % 2 = 0
  | _, _ => False

def rObl (l : Pc) : Prop := l = .owe

/-- Waiting writers: their condition is "the word is zero". -/
def wCond : Pc → G → Prop
  | .wait true, g => g.st = 0
  | _, _ => False

/-- Those who notify later: unlockers, and readers that retry (if they get the lock, they unlock later). -/
def wObl : Pc → Prop
  | .owe => True
  | .sub0 => True
  | .sub1 => True
  | .prep false => True
  | .chk1 false => True
  | .wait false => True
  | .dropL false => True
  | _ => False

theorem sub32_mod (a : Nat) : sub32 a 4 % 2 = a % 2 := by unfold sub32; omega
theorem add32_mod (a : Nat) : add32 a 4 % 2 = a % 2 := by unfold add32; omega

theorem sub_st (g : G) (t : Nat) : (subReader g t).st = sub32 g.st 4 := by cases g; rfl
theorem add_st {g g' : G} {t : Nat} (h : addReader g t = some g') : g'.st = add32 g.st 4 ∧ g'.st ≠ 0 := by
  unfold addReader at h; split at h
  · rename_i hf
    have e : ∀ a, a + 4 < 2 ^ 32 → add32 a 4 ≠ 0 := by intro a; unfold add32; omega
    have := e _ hf
    simp only [Option.some.injEq] at h; subst h; cases g; exact ⟨rfl, this⟩
  · simp at h

/-- What a lock attempt can do. -/
theorem attempt_cases {g g' : G} {w : Bool} {t : Nat} {ok sub no l' : Pc} (h : attempt g w t ok sub no = some (g', l')) :
    (w = true ∧ g.st = 0 ∧ g'.st = 1 ∧ l' = ok) ∨ (w = true ∧ g.st ≠ 0 ∧ g' = g ∧ l' = no) ∨
    (w = false ∧ g.st % 2 = 1 ∧ g'.st = add32 g.st 4 ∧ g'.st ≠ 0 ∧ l' = sub) ∨ (w = false ∧ g.st % 2 ≠ 1 ∧ g'.st = add32 g.st 4 ∧ g'.st ≠ 0 ∧ l' = ok) := by
  unfold attempt at h
  cases w
  · simp only [Bool.false_eq_true, if_false, Option.map_eq_some_iff] at h
    obtain ⟨g1, h1, h2⟩ := h
    simp only [Prod.mk.injEq] at h2
    obtain ⟨rfl, rfl⟩ := h2
    obtain ⟨this, hz⟩ := add_st h1
    by_cases hp : g.st % 2 = 1
    · simp [hp, hz]; exact this
    · simp [hp, hz]; exact this
  · simp only [if_true] at h
    unfold casWriter at h
    by_cases hz : g.st = 0
    · simp only [hz, if_true, Option.some.injEq, Prod.mk.injEq] at h
      obtain ⟨rfl, rfl⟩ := h; simp [hz]
    · simp only [hz, if_false, Option.some.injEq, Prod.mk.injEq] at h
      obtain ⟨rfl, rfl⟩ := h; simp [hz]

/-- All client steps. -/
theorem loc_cases {g g' : G} {l l' : Pc} {t : Nat} {c : Ch} (h : loc tr g l t c = some (g', l')) :
    (g' = g ∧ ((l = .idle ∧ ((∃ w, l' = .chk0 w) ∨ ∃ w, l' = .tryl w)) ∨
      (g.st ≠ 0 ∧ ((l = .tryl true ∧ l' = .idle) ∨ (l = .chk0 true ∧ l' = .prep true) ∨ (l = .chk1 true ∧ l' = .wait true))))) ∨
    (g.st = 0 ∧ g'.st = 1 ∧ ((l = .tryl true ∧ l' = .hold true) ∨ (l = .chk0 true ∧ l' = .hold true) ∨
      (l = .chk1 true ∧ l' = .dropX true))) ∨
    (g'.st % 2 = g.st % 2 ∧ g'.st ≠ 0 ∧ g.st % 2 = 1 ∧ ((l = .tryl false ∧ l' = .subT) ∨ (l = .chk0 false ∧ l' = .sub0) ∨
      (l = .chk1 false ∧ l' = .sub1))) ∨
    (g'.st % 2 = g.st % 2 ∧ g'.st ≠ 0 ∧ g.st % 2 ≠ 1 ∧ ((l = .tryl false ∧ l' = .hold false) ∨ (l = .chk0 false ∧ l' = .hold false) ∨
      (l = .chk1 false ∧ l' = .dropX false))) ∨
    (g'.st % 2 = g.st % 2 ∧ ((tr = true ∧ l = .subT ∧ l' = .idle) ∨ (l = .sub0 ∧ l' = .prep false) ∨ (l = .sub1 ∧ l' = .wait false) ∨
      (l = .hold false ∧ l' = .owe))) ∨
    (l = .hold true ∧ l' = .owe) := by
  cases l <;> simp only [loc, reduceCtorEq] at h
  · cases c <;> simp only [Option.some.injEq, Prod.mk.injEq, reduceCtorEq] at h
    · obtain ⟨rfl, rfl⟩ := h; simp
    · split at h <;> simp at h
      obtain ⟨rfl, rfl⟩ := h; simp
  · rename_i w
    rcases attempt_cases h with ⟨rfl, h1, h2, rfl⟩ | ⟨rfl, h1, rfl, rfl⟩ | ⟨rfl, h1, h2, h3, rfl⟩ | ⟨rfl, h1, h2, h3, rfl⟩
    · simp [h1, h2]
    · simp [h1]
    · simp [h1, h3]; rw [h2, add32_mod]; exact h1
    · simp [h3]; rw [h2, add32_mod]; simp; omega
  · split at h
    · simp only [Option.some.injEq, Prod.mk.injEq] at h
      obtain ⟨rfl, rfl⟩ := h
      simp_all [sub_st, sub32_mod]
    · simp at h
  · rename_i w
    rcases attempt_cases h with ⟨rfl, h1, h2, rfl⟩ | ⟨rfl, h1, rfl, rfl⟩ | ⟨rfl, h1, h2, h3, rfl⟩ | ⟨rfl, h1, h2, h3, rfl⟩
    · simp [h1, h2]
    · simp [h1]
    · simp [h1, h3]; rw [h2, add32_mod]; exact h1
    · simp [h3]; rw [h2, add32_mod]; simp; omega
  · simp only [Option.some.injEq, Prod.mk.injEq] at h
    obtain ⟨rfl, rfl⟩ := h
    simp [sub_st, sub32_mod]
  · rename_i w
    rcases attempt_cases h with ⟨rfl, h1, h2, rfl⟩ | ⟨rfl, h1, rfl, rfl⟩ | ⟨rfl, h1, h2, h3, rfl⟩ | ⟨rfl, h1, h2, h3, rfl⟩
    · simp [h1, h2]
    · simp [h1]
    · simp [h1, h3]; rw [h2, add32_mod]; exact h1
    · simp [h3]; rw [h2, add32_mod]; simp; omega
  · simp only [Option.some.injEq, Prod.mk.injEq] at h
    obtain ⟨rfl, rfl⟩ := h
    simp [sub_st, sub32_mod]
  · cases c <;> simp only [Option.some.injEq, Prod.mk.injEq, reduceCtorEq] at h
    obtain ⟨rfl, rfl⟩ := h
    rename_i w
    cases w <;> simp [sub_st, sub32_mod]

theorem r_sound : Sound (client tr) 0 rCond rObl := by
  constructor
  · intro g l t c g' l' hc hs hw
    have := loc_cases hs
    grind [rCond]
  · intro l b hc g
    cases l <;> simp [client, call] at hc <;> simp [client, ret, rCond]
  · intro g l t c g' l' hc hs w hcd ho
    have := loc_cases hs
    have hl : ¬ rObl l := by rintro rfl; simp [client, call] at hc
    cases w <;> simp only [rCond] at hcd ho <;> grind [rCond, rObl]
  · intro l g tm ho hc
    rw [ho] at hc; simp [client, call] at hc
  · intro l b ho hc hn
    rw [ho] at hn; simp [client, call] at hn

theorem w_sound : Sound (client false) 0 wCond wObl := by
  constructor
  · intro g l t c g' l' hc hs hw
    have := loc_cases hs
    grind [wCond]
  · intro l b hc g
    cases l <;> simp [client, call] at hc <;> simp [client, ret, wCond]
  · intro g l t c g' l' hc hs w hcd ho
    have := loc_cases hs
    cases w <;> simp only [wCond] at hcd ho
    rename_i w
    cases w <;> simp only [wCond] at hcd ho
    grind [wObl]
  · intro l g tm ho hc
    cases l <;> simp [client, call] at hc
    rename_i w
    cases w <;> simp [wObl, wCond] at ho ⊢
  · intro l b ho hc hn
    cases l <;> simp [client, call] at hc hn <;> rename_i w <;> cases w <;> simp [wObl, client, ret] at ho ⊢

/-- Without direct calls of `try_lock_shared`, its failing path is never entered. -/
theorem not_tryl {Q : State G Pc → Prop} (hQ : ∀ s, Q s → s.th.length < 2 ^ 32) {s : State G Pc}
    (h : Reach Start (step (client false)) Q s) (t : Nat) : s.lcl t ≠ some (.tryl false) ∧ s.lcl t ≠ some .subT := by
  refine client_reach hQ (R := fun _ F _ => ∀ t, F t ≠ some (.tryl false) ∧ F t ≠ some .subT) ?_ ?_ ?_ h t
  · intro s hi _ t
    have hF : ∀ t l, s.lcl t = some l → l = .idle := by
      intro t l hl
      simp only [State.lcl, Option.map_eq_some_iff] at hl
      obtain ⟨x, hx, rfl⟩ := hl
      exact (hi.2.2.1 x (List.mem_of_getElem? hx)).1
    grind
  · intro g F K t l c g' l' hR hF hc hs u
    have h1 := loc_cases hs
    have h2 : l = .idle → l' ≠ .tryl false := by
      rintro rfl
      simp only [client, loc] at hs
      cases c <;> simp at hs <;> grind
    simp only [upd_apply]
    grind
  · intro g F K K' t l b hR hF hc hs u
    have : (client false).ret l b ≠ .tryl false ∧ (client false).ret l b ≠ .subT := by
      cases l <;> simp [client, call] at hc <;> simp [client, ret]
    simp only [upd_apply]
    grind

theorem noOne {P : Bool} : ∀ l, (client P).call l ≠ .notify 0 false := by intro l; cases l <;> simp [client, call]

theorem r_w {s : St} (h : R tr s) : s.W (client tr) 0 rCond rObl :=
  w_reach r_sound (fun _ h => h) h (fun _ h => oneOk_all (fun _ h => h.1) noOne h)

theorem w_w {s : St} (h : R false s) : s.W (client false) 0 wCond wObl :=
  w_reach w_sound (fun _ h => h) h (fun _ h => oneOk_all (fun _ h => h.1) noOne h)

/-- The event count is only used with index 0. -/
theorem blocked_ix {s : St} (h : R tr s) {t : Nat} {w : Bool} (hb : Blocked s t w) :
    ∃ x tm, s.th[t]? = some x ∧ x.ep = .asleep 0 tm ∧ x.cl = .wait w := by
  obtain ⟨x, i, tm, hx, he, hc⟩ := hb
  have hW := r_w h
  obtain ⟨tm', h1⟩ := hW.cw t x.ep x.cl i (ep_of hx) (lcl_of hx) (by rw [he]; rfl)
  rw [hc] at h1
  simp only [client, call, Call.wait.injEq] at h1
  exact ⟨x, tm, hx, by rw [he, h1.1], hc⟩

/-- A thread inside a notification is `Notifying`. -/
theorem notifying_of {s : St} (h : R tr s) {u : Nat} {p : EPc} (hu : s.ep u = some p) (hp : notIx p = some 0) :
    Notifying s u := by
  obtain ⟨x, hx, rfl⟩ : ∃ x, s.th[u]? = some x ∧ x.ep = p := by
    simp only [State.ep, Option.map_eq_some_iff] at hu; exact hu
  obtain ⟨all, h1⟩ := (r_w h).cn u _ x.cl 0 hu (lcl_of hx) hp
  refine ⟨x, hx, ?_⟩
  cases hc : x.cl <;> rw [hc] at h1 <;> simp [client, call] at h1

/-- C24. A reader blocked in `lock_shared` while no writer owns the lock is about to be woken: some other fiber has
unlocked and is still notifying. -/
theorem C24_reader_not_stranded {s : St} (h : R tr s) {t : Nat} (hb : Blocked s t false)
    (hw : ∀ u, ¬ Holds s u true) : ∃ u, u ≠ t ∧ Notifying s u := by
  obtain ⟨x, tm, hx, he, hc⟩ := blocked_ix h hb
  have hI := inv_reach (fun _ h => h.1) h
  have hwr : s.g.wr = none := by
    cases hh : s.g.wr with
    | none => rfl
    | some u =>
      obtain ⟨l, h1, h2⟩ := (hI.wr u).1 hh
      simp only [State.lcl, Option.map_eq_some_iff] at h1
      obtain ⟨y, hy, rfl⟩ := h1
      exfalso
      refine hw u ⟨y, hy, ?_⟩
      cases h3 : y.cl <;> rw [h3] at h2 <;> simp [inWr] at h2 <;> rename_i w <;> cases w <;> simp at h2 ⊢
  have hev : s.g.st % 2 = 0 := by rw [hI.st, hwr]; simp; omega
  obtain ⟨u, hut, hu⟩ := no_lost r_sound (einv_reach (fun _ h => h.1) h) (r_w h) (t := t) (l := x.cl) (tm := tm)
    (by rw [ep_of hx, he]) (lcl_of hx) (by rw [hc]; exact hev)
  refine ⟨u, hut, ?_⟩
  rcases hu with ⟨m, hm, ho, -⟩ | ⟨p, hp, hpi⟩
  · simp only [State.lcl, Option.map_eq_some_iff] at hm
    obtain ⟨y, hy, rfl⟩ := hm
    exact ⟨y, hy, ho⟩
  · exact notifying_of h hp hpi

/-- C24. If `try_lock_shared` is not called directly: when a writer is blocked in `lock` while nobody owns the lock, some
other fiber has unlocked and is still notifying, or is inside `lock_shared`, awake and about to try again (it will then get
the lock, or block behind a new owner; whoever owns the lock notifies on unlocking).
Missing: with direct `try_lock_shared` this is false, see `C24_try_lock_shared_strands_writer`. -/
theorem C24_writer_not_stranded_partial {s : St} (h : R false s) {t : Nat} (hb : Blocked s t true)
    (hw : ∀ u w, ¬ Holds s u w) : ∃ u, u ≠ t ∧ (Notifying s u ∨ RetryingShared s u) := by
  obtain ⟨x, tm, hx, he, hc⟩ := blocked_ix h hb
  have hI := inv_reach (fun _ h => h.1) h
  have hwr : s.g.wr = none := by
    cases hh : s.g.wr with
    | none => rfl
    | some u =>
      obtain ⟨l, h1, h2⟩ := (hI.wr u).1 hh
      simp only [State.lcl, Option.map_eq_some_iff] at h1
      obtain ⟨y, hy, rfl⟩ := h1
      exfalso
      refine hw u true ⟨y, hy, ?_⟩
      cases h3 : y.cl <;> rw [h3] at h2 <;> simp [inWr] at h2 <;> rename_i w <;> cases w <;> simp at h2 ⊢
  have hasl : ∀ (u : Nat) (y : Th Pc) i tm, s.th[u]? = some y → y.ep = .asleep i tm → ∃ w, y.cl = .wait w := by
    intro u y i tm hy hye
    obtain ⟨tm', h1⟩ := (r_w h).cw u y.ep y.cl i (ep_of hy) (lcl_of hy) (by rw [hye]; rfl)
    cases h2 : y.cl <;> rw [h2] at h1 <;> simp [client, call] at h1
    exact ⟨_, rfl⟩
  by_cases hz : s.g.st = 0
  · obtain ⟨u, hut, hu⟩ := no_lost w_sound (einv_reach (fun _ h => h.1) h) (w_w h) (t := t) (l := x.cl) (tm := tm)
      (by rw [ep_of hx, he]) (lcl_of hx) (by rw [hc]; exact hz)
    rcases hu with ⟨m, hm, ho, -⟩ | ⟨p, hp, hpi⟩
    · simp only [State.lcl, Option.map_eq_some_iff] at hm
      obtain ⟨y, hy, rfl⟩ := hm
      by_cases hl : ∃ i tm, y.ep = .asleep i tm
      · obtain ⟨i, tm', hl⟩ := hl
        obtain ⟨w, h1⟩ := hasl u y i tm' hy hl
        have : w = false := by cases w <;> simp [h1, wObl] at ho ⊢
        subst this
        obtain ⟨v, -, hv⟩ := C24_reader_not_stranded h (t := u) ⟨y, i, tm', hy, hl, h1⟩ (fun u => hw u true)
        refine ⟨v, ?_, .inl hv⟩
        rintro rfl
        obtain ⟨z, hz1, hz2⟩ := hv
        rw [hx] at hz1; simp only [Option.some.injEq] at hz1; subst hz1
        rw [hc] at hz2; simp at hz2
      · have hl' : ∀ i tm, y.ep ≠ .asleep i tm := fun i tm e => hl ⟨i, tm, e⟩
        refine ⟨u, hut, ?_⟩
        cases h2 : y.cl <;> rw [h2] at ho <;> try (simp [wObl] at ho; done)
        case owe => exact .inl ⟨y, hy, h2⟩
        all_goals
          right
          refine ⟨y, hy, hl', ?_⟩
          first
            | (rename_i w; cases w <;> simp [wObl] at ho <;> simp [h2]; done)
            | (simp [h2]; done)
    · exact ⟨u, hut, .inl (notifying_of h hp hpi)⟩
  · have : s.g.rd ≠ [] := by
      intro e; apply hz; rw [hI.st, hwr, e]; rfl
    obtain ⟨u, hu⟩ := List.exists_mem_of_ne_nil _ this
    obtain ⟨l, h1, h2⟩ := (hI.rd u).1 hu
    have hnt := not_tryl (fun _ h => h.1) h u
    simp only [State.lcl, Option.map_eq_some_iff] at h1
    obtain ⟨y, hy, rfl⟩ := h1
    refine ⟨u, ?_, .inr ⟨y, hy, ?_, ?_⟩⟩
    · rintro rfl
      rw [hx] at hy; simp only [Option.some.injEq] at hy; subst hy
      rw [hc] at h2; simp [inRd] at h2
    · intro i tm' hl
      obtain ⟨w, h3⟩ := hasl u y i tm' hy hl
      rw [h3] at h2; simp [inRd] at h2
    · rw [lcl_of hy] at hnt
      have h5 := hw u false
      cases h3 : y.cl <;> rw [h3] at h2 hnt <;> simp [inRd] at h2 hnt ⊢
      all_goals
        rename_i w
        cases w <;> simp at h2
        exact h5 ⟨y, hy, by simp [h3]⟩

/-- Everybody is idle, owns the lock or is blocked. -/
def Quiet (s : St) : Prop :=
  ∀ (t : Nat) x, s.th[t]? = some x → x.cl = .idle ∨ (∃ w, x.cl = .hold w) ∨ ∃ i tm w, x.ep = .asleep i tm ∧ x.cl = .wait w

theorem quiet_notifying {s : St} (h : Quiet s) (u : Nat) : ¬ Notifying s u := by
  rintro ⟨x, hx, hc⟩
  rcases h u x hx with h | ⟨w, h⟩ | ⟨i, tm, w, -, h⟩ <;> rw [h] at hc <;> simp at hc

/-- C24. When everybody is idle, owns the lock or is blocked, and a reader is blocked, a writer owns the lock. -/
theorem C24_quiescent_reader {s : St} (h : R tr s) (hq : Quiet s) {t : Nat} (hb : Blocked s t false) :
    ∃ u, Holds s u true := by
  apply Classical.byContradiction
  intro hn
  obtain ⟨u, -, hu⟩ := C24_reader_not_stranded h hb (fun u hu => hn ⟨u, hu⟩)
  exact quiet_notifying hq u hu

/-- C24. When everybody is idle, owns the lock or is blocked, and somebody is blocked, somebody owns the lock, provided
`try_lock_shared` is not called directly. -/
theorem C24_quiescent_partial {s : St} (h : R false s) (hq : Quiet s) {t : Nat} {w : Bool} (hb : Blocked s t w) :
    ∃ u w, Holds s u w := by
  apply Classical.byContradiction
  intro hn
  cases w
  · obtain ⟨u, hu⟩ := C24_quiescent_reader h hq hb
    exact hn ⟨u, true, hu⟩
  · obtain ⟨u, -, hu⟩ := C24_writer_not_stranded_partial h hb (fun u w hu => hn ⟨u, w, hu⟩)
    rcases hu with hu | ⟨x, hx, h1, h2⟩
    · exact quiet_notifying hq u hu
    · rcases hq u x hx with h | ⟨w, h⟩ | ⟨i, tm, w, h, -⟩
      · rw [h] at h2; simp at h2
      · rw [h] at h2; simp at h2
      · exact h1 i tm h

/-- C24. The state word counts the owners (and the readers that are taking back a failed attempt); with nobody inside a lock
operation it is zero exactly when the lock is free. -/
theorem C24_free {s : St} (h : R tr s) : s.g.st = 0 ↔
    ∀ u, ¬ Holds s u true ∧ ¬ Holds s u false ∧ ∀ x, s.th[u]? = some x → isSub x.cl = false := by
  have hI := inv_reach (fun _ h => h.1) h
  constructor
  · intro hz u
    have h1 : s.g.rd = [] ∧ s.g.wr = none := by
      have := hI.st; rw [hz] at this
      refine ⟨List.length_eq_zero_iff.1 (by omega), ?_⟩
      cases hh : s.g.wr <;> simp [hh] at this ⊢
    have h2 := (hI.rd u)
    have h3 := (hI.wr u)
    rw [h1.1] at h2; rw [h1.2] at h3
    refine ⟨?_, ?_, ?_⟩
    · rintro ⟨x, hx, h4⟩
      exact absurd (h3.2 ⟨x.cl, lcl_of hx, by rcases h4 with h | h <;> rw [h] <;> rfl⟩) (by simp)
    · rintro ⟨x, hx, h4⟩
      exact absurd (h2.2 ⟨x.cl, lcl_of hx, by rcases h4 with h | h <;> rw [h] <;> rfl⟩) (by simp)
    · intro x hx
      cases hs : isSub x.cl with
      | false => rfl
      | true =>
        refine absurd (h2.2 ⟨x.cl, lcl_of hx, ?_⟩) (by simp)
        cases hc : x.cl <;> rw [hc] at hs <;> simp [isSub] at hs <;> rfl
  · intro hu
    have h1 : s.g.rd = [] := by
      apply List.eq_nil_iff_forall_not_mem.2
      intro u hm
      obtain ⟨l, hl, hr⟩ := (hI.rd u).1 hm
      simp only [State.lcl, Option.map_eq_some_iff] at hl
      obtain ⟨x, hx, rfl⟩ := hl
      have h2 := (hu u).2.2 x hx
      have h3 := (hu u).2.1
      cases hc : x.cl <;> rw [hc] at h2 hr <;> simp [inRd, isSub] at h2 hr
      all_goals
        rename_i w; cases w <;> simp at hr
        exact h3 ⟨x, hx, by simp [hc]⟩
    have h2 : s.g.wr = none := by
      cases hh : s.g.wr with
      | none => rfl
      | some u =>
        obtain ⟨l, hl, hr⟩ := (hI.wr u).1 hh
        simp only [State.lcl, Option.map_eq_some_iff] at hl
        obtain ⟨x, hx, rfl⟩ := hl
        exfalso
        refine (hu u).1 ⟨x, hx, ?_⟩
        cases h3 : x.cl <;> rw [h3] at hr <;> simp [inWr] at hr <;> rename_i w <;> cases w <;> simp at hr ⊢
    rw [hI.st, h1, h2]; rfl

/-! ## Concrete executions -/

def lockT (t : Nat) (w : Bool) (k : Nat) : List (Act Ch) := List.replicate k (.go t (.lock w))
def tryT (t : Nat) (w : Bool) (k : Nat) : List (Act Ch) := List.replicate k (.go t (.tryLock w))
def unlockT (t k : Nat) : List (Act Ch) := List.replicate k (.go t .unlock)

def blockedB (s : St) (t : Nat) (w : Bool) : Bool :=
  match s.th[t]? with
  | some x => match x.ep with
    | .asleep _ _ => decide (x.cl = .wait w)
    | _ => false
  | none => false

theorem blocked_of {s : St} {t : Nat} {w : Bool} (h : blockedB s t w = true) : Blocked s t w := by
  unfold blockedB at h
  split at h
  · rename_i x hx
    split at h
    · rename_i i tm he
      exact ⟨x, i, tm, hx, he, by simpa using h⟩
    · simp at h
  · simp at h

def pcB (s : St) (t : Nat) (l : Pc) : Bool := match s.th[t]? with | some x => decide (x.cl = l) | none => false

theorem pc_of {s : St} {t : Nat} {l : Pc} (h : pcB s t l = true) : ∃ x, s.th[t]? = some x ∧ x.cl = l := by
  unfold pcB at h
  split at h
  · rename_i x hx; exact ⟨x, hx, by simpa using h⟩
  · simp at h

def quietB (s : St) : Bool := s.th.all fun x =>
  match x.cl, x.ep with
  | .idle, _ => true
  | .hold _, _ => true
  | .wait _, .asleep _ _ => true
  | _, _ => false

theorem quiet_of {s : St} (h : quietB s = true) : Quiet s := by
  intro t x hx
  have := List.all_eq_true.1 h x (List.mem_of_getElem? hx)
  split at this
  · rename_i hc; exact .inl hc
  · rename_i w hc; exact .inr (.inl ⟨w, hc⟩)
  · rename_i w i tm hc he; exact .inr (.inr ⟨i, tm, w, he, hc⟩)
  · simp at this

/-- C24. Counterexample: fiber 0 owned the lock and has unlocked and notified; fiber 2's `try_lock_shared` failed; fiber 1 is
blocked in `lock` although nobody owns the lock, nobody is notifying and everybody else is idle. -/
theorem C24_try_lock_shared_strands_writer : ∃ s : St, R true s ∧ Quiet s ∧ Blocked s 1 true ∧ s.g.st = 0 ∧
    ∀ u w, ¬ Holds s u w := by
  have : ∃ s : St, R true s ∧ (Quiet s ∧ Blocked s 1 true ∧ s.g.st = 0) := by
    refine run_ex (g := { st := 0, rd := [], wr := none }) (l := .idle) rfl rfl 3
      (lockT 0 true 2 ++ tryT 2 false 2 ++ unlockT 0 2 ++ lockT 1 true 7 ++ tryT 2 false 1)
      (fun s => quietB s && (blockedB s 1 true && s.g.st == 0)) ?_ (by decide +kernel)
    intro s h
    simp only [Bool.and_eq_true] at h
    exact ⟨quiet_of h.1, blocked_of h.2.1, by simpa using h.2.2⟩
  obtain ⟨s, h, h1, h2, h3⟩ := this
  refine ⟨s, h, h1, h2, h3, ?_⟩
  have := (C24_free h).1 h3
  intro u w
  cases w
  · exact (this u).2.1
  · exact (this u).1

/-- A writer blocked while a reader owns the lock; then a second reader comes in. -/
example : ∃ s : St, R false s ∧ (Quiet s ∧ Blocked s 1 true ∧ Holds s 0 false ∧ Holds s 2 false) := by
  refine run_ex (g := { st := 0, rd := [], wr := none }) (l := .idle) rfl rfl 3
    (lockT 0 false 2 ++ lockT 1 true 7 ++ lockT 2 false 2)
    (fun s => quietB s && (blockedB s 1 true && (pcB s 0 (.hold false) && pcB s 2 (.hold false)))) ?_ (by decide +kernel)
  intro s h
  simp only [Bool.and_eq_true] at h
  obtain ⟨x, h1, h2⟩ := pc_of h.2.2.1
  obtain ⟨y, h3, h4⟩ := pc_of h.2.2.2
  exact ⟨quiet_of h.1, blocked_of h.2.1, ⟨x, h1, .inl h2⟩, ⟨y, h3, .inl h4⟩⟩

/-- A reader and a writer blocked, the owner has unlocked and is about to notify. -/
example : ∃ s : St, R false s ∧ (Blocked s 1 true ∧ Blocked s 2 false ∧ Notifying s 0 ∧ s.g.st = 0) := by
  refine run_ex (g := { st := 0, rd := [], wr := none }) (l := .idle) rfl rfl 3
    (lockT 0 true 2 ++ lockT 1 true 7 ++ lockT 2 false 9 ++ unlockT 0 1)
    (fun s => blockedB s 1 true && (blockedB s 2 false && (pcB s 0 .owe && s.g.st == 0))) ?_ (by decide +kernel)
  intro s h
  simp only [Bool.and_eq_true] at h
  obtain ⟨x, h1, h2⟩ := pc_of h.2.2.1
  exact ⟨blocked_of h.1, blocked_of h.2.1, ⟨x, h1, h2⟩, by simpa using h.2.2.2⟩

/-- What the fiber has asked for: exclusive (`true`) or shared (`false`). -/
def kind : Pc → Option Bool
  | .tryl w | .chk0 w | .prep w | .chk1 w | .wait w | .dropL w | .dropX w | .hold w => some w
  | .subT | .sub0 | .sub1 => some false
  | .idle | .owe => none

/-- C24. A fiber gets what it asked for: what `lock`, `try_lock` (exclusive), `lock_shared` and `try_lock_shared` (shared)
ask for stays the same at every step until the lock is owned; only the `try` calls can end without the lock, `try_lock` if
somebody owns it, `try_lock_shared` after a writer was seen. -/
theorem C24_kind (g : G) (l : Pc) (t : Nat) (c : Ch) (g' : G) (l' : Pc) (h : loc tr g l t c = some (g', l')) :
    (l = .idle → ∃ w, (c = .lock w ∧ l' = .chk0 w ∨ c = .tryLock w ∧ l' = .tryl w) ∧ kind l' = some w) ∧
    ((∃ w, l = .hold w) → l' = .owe) ∧
    (l ≠ .idle → (∀ w, l ≠ .hold w) → kind l' = kind l ∨ l' = .idle ∧ (l = .subT ∨ l = .tryl true ∧ g.st ≠ 0)) ∧
    (l' = .subT → g.st % 2 = 1) := by
  have key : ∀ w ok sub no, attempt g w t ok sub no = some (g', l') → l' = ok ∨ (w = false ∧ l' = sub ∧ g.st % 2 = 1) ∨
      (w = true ∧ l' = no ∧ g.st ≠ 0) := by
    intro w ok sub no h
    cases w
    · simp only [attempt, addReader, Bool.false_eq_true, if_false] at h
      by_cases hf : Fits g
      · rw [if_pos hf] at h
        simp only [Option.map_some, Option.some.injEq, Prod.mk.injEq] at h
        by_cases h1 : g.st % 2 = 1
        · rw [if_pos h1] at h; exact .inr (.inl ⟨rfl, h.2.symm, h1⟩)
        · rw [if_neg h1] at h; exact .inl h.2.symm
      · rw [if_neg hf] at h; simp at h
    · simp only [attempt, casWriter, if_true] at h
      by_cases h0 : g.st = 0
      · rw [if_pos h0] at h
        simp only [Option.some.injEq, Prod.mk.injEq] at h
        exact .inl h.2.symm
      · rw [if_neg h0] at h
        simp only [Option.some.injEq, Prod.mk.injEq] at h
        exact .inr (.inr ⟨rfl, h.2.symm, h0⟩)
  cases l with
  | idle =>
    have h' : ∃ w, c = .lock w ∧ l' = .chk0 w ∨ c = .tryLock w ∧ l' = .tryl w := by
      cases c with
      | lock w => simp only [loc, Option.some.injEq, Prod.mk.injEq] at h; exact ⟨w, .inl ⟨rfl, h.2.symm⟩⟩
      | tryLock w =>
        simp only [loc] at h
        split at h
        · simp only [Option.some.injEq, Prod.mk.injEq] at h; exact ⟨w, .inr ⟨rfl, h.2.symm⟩⟩
        · simp at h
      | unlock => simp [loc] at h
    obtain ⟨w, hw⟩ := h'
    rcases hw with ⟨rfl, rfl⟩ | ⟨rfl, rfl⟩
    · exact ⟨fun _ => ⟨w, .inl ⟨rfl, rfl⟩, rfl⟩, fun ⟨_, e⟩ => (by cases e), fun e => absurd rfl e, fun e => by cases e⟩
    · exact ⟨fun _ => ⟨w, .inr ⟨rfl, rfl⟩, rfl⟩, fun ⟨_, e⟩ => (by cases e), fun e => absurd rfl e, fun e => by cases e⟩
  | hold w =>
    cases c with
    | unlock =>
      simp only [loc, Option.some.injEq, Prod.mk.injEq] at h
      obtain ⟨_, rfl⟩ := h
      exact ⟨fun e => (by cases e), fun _ => rfl, fun _ e => absurd rfl (e w), fun e => by cases e⟩
    | lock _ => simp [loc] at h
    | tryLock _ => simp [loc] at h
  | subT =>
    simp only [loc] at h
    split at h
    · simp only [Option.some.injEq, Prod.mk.injEq] at h
      obtain ⟨_, rfl⟩ := h
      exact ⟨fun e => (by cases e), fun ⟨_, e⟩ => (by cases e), fun _ _ => .inr ⟨rfl, .inl rfl⟩, fun e => by cases e⟩
    · simp at h
  | tryl w =>
    rcases key _ _ _ _ h with rfl | ⟨rfl, rfl, h1⟩ | ⟨rfl, rfl, h1⟩
    · exact ⟨fun e => (by cases e), fun ⟨_, e⟩ => (by cases e), fun _ _ => .inl rfl, fun e => by cases e⟩
    · exact ⟨fun e => (by cases e), fun ⟨_, e⟩ => (by cases e), fun _ _ => .inl rfl, fun _ => h1⟩
    · exact ⟨fun e => (by cases e), fun ⟨_, e⟩ => (by cases e), fun _ _ => .inr ⟨rfl, .inr ⟨rfl, h1⟩⟩, fun e => by cases e⟩
  | chk0 w =>
    rcases key _ _ _ _ h with rfl | ⟨rfl, rfl, h1⟩ | ⟨rfl, rfl, h1⟩ <;>
      exact ⟨fun e => (by cases e), fun ⟨_, e⟩ => (by cases e), fun _ _ => .inl rfl, fun e => by cases e⟩
  | chk1 w =>
    rcases key _ _ _ _ h with rfl | ⟨rfl, rfl, h1⟩ | ⟨rfl, rfl, h1⟩ <;>
      exact ⟨fun e => (by cases e), fun ⟨_, e⟩ => (by cases e), fun _ _ => .inl rfl, fun e => by cases e⟩
  | sub0 =>
    simp only [loc, Option.some.injEq, Prod.mk.injEq] at h
    obtain ⟨_, rfl⟩ := h
    exact ⟨fun e => (by cases e), fun ⟨_, e⟩ => (by cases e), fun _ _ => .inl rfl, fun e => by cases e⟩
  | sub1 =>
    simp only [loc, Option.some.injEq, Prod.mk.injEq] at h
    obtain ⟨_, rfl⟩ := h
    exact ⟨fun e => (by cases e), fun ⟨_, e⟩ => (by cases e), fun _ _ => .inl rfl, fun e => by cases e⟩
  | prep w => simp [loc] at h
  | wait w => simp [loc] at h
  | dropL w => simp [loc] at h
  | dropX w => simp [loc] at h
  | owe => simp [loc] at h

/-- C24. The event count operations do not change what a fiber asked for either. -/
theorem C24_kind_ret (l : Pc) (b : Bool) : kind (ret l b) = kind l := by
  cases l <;> rfl

end Verif.SharedMutex
