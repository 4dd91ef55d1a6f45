import Verif.AwsRefresh.Spec
/-! C107: credentials are refreshed by one fiber at a time. -/
namespace Verif.AwsRefresh
open Verif.Common Spec

/-- What is known of a fiber by where it is. -/
def Ok (src : Source) (s : St) : Pc → Prop
  | .idle => True
  | .tTry c => c.kind = .token ∧ c.v0 ≤ s.version ∧ c.f0 ≤ s.ended ∧ c.t0 ≤ s.now
  | .tWait c => c.kind = .token ∧ c.v0 ≤ s.version ∧ c.f0 ≤ s.ended ∧ c.t0 ≤ s.now ∧ (s.flag = false → c.f0 < s.ended)
  | .iCheck c => c.kind = .ifExpiring ∧ c.v0 ≤ s.version ∧ c.f0 ≤ s.ended ∧ c.t0 ≤ s.now
  | .iTry c => c.kind = .ifExpiring ∧ c.v0 ≤ s.version ∧ c.f0 ≤ s.ended ∧ c.t0 ≤ s.now
  | .fetch c => c.v0 ≤ s.version ∧ c.f0 ≤ s.ended ∧ c.t0 ≤ s.now
  | .fetched c ok => c.f0 ≤ s.ended ∧ c.t0 ≤ s.now ∧ (ok = true → src = .remote → c.v0 < s.version) ∧ (ok = true → src ≠ .none) ∧ (ok = false → src ≠ .static)
  | .done c r => c.t0 ≤ s.now ∧ (r = .ok → c.kind = .token ∧ c.f0 < s.ended) ∧ (r = .yes → c.kind = .ifExpiring ∧ (src = .remote → c.v0 < s.version)) ∧ (r = .no → c.kind = .ifExpiring) ∧
      (r = .timeout → c.t0 + 30 ≤ s.now) ∧ (r = .err → src ≠ .static)

structure Inv (src : Source) (s : St) : Prop where
  all : ∀ i, Ok src s (s.pc i)
  one : ∀ i j, Refreshing s i → Refreshing s j → i = j
  flag : s.flag = true ↔ ∃ i, Refreshing s i
  static : src = .static → s.expiry = 0

/-- The places of the refresh proper. -/
def inside : Pc → Bool
  | .fetch _ => true
  | .fetched _ _ => true
  | _ => false

theorem refreshing_iff {s : St} {i : Nat} : Refreshing s i ↔ inside (s.pc i) = true := by
  unfold Refreshing
  cases s.pc i <;> simp [inside]

theorem ok_mono {src : Source} {s s' : St} {p : Pc} (h : Ok src s p) (h1 : s.version ≤ s'.version) (h2 : s.ended ≤ s'.ended) (h3 : s.now ≤ s'.now) (h4 : s'.flag = false → s.flag = false ∨ s.ended < s'.ended) : Ok src s' p := by
  cases p with
  | idle => trivial
  | tTry c => obtain ⟨a, b, d, e⟩ := h; exact ⟨a, by omega, by omega, by omega⟩
  | tWait c =>
    obtain ⟨a, b, d, e, f⟩ := h
    refine ⟨a, by omega, by omega, by omega, fun hf => ?_⟩
    rcases h4 hf with h5 | h5
    · have := f h5; omega
    · omega
  | iCheck c => obtain ⟨a, b, d, e⟩ := h; exact ⟨a, by omega, by omega, by omega⟩
  | iTry c => obtain ⟨a, b, d, e⟩ := h; exact ⟨a, by omega, by omega, by omega⟩
  | fetch c => obtain ⟨b, d, e⟩ := h; exact ⟨by omega, by omega, by omega⟩
  | fetched c ok => obtain ⟨b, d, e, f, g⟩ := h; exact ⟨by omega, by omega, fun x y => by have := e x y; omega, f, g⟩
  | done c r =>
    obtain ⟨a, b, d, e, f, g⟩ := h
    exact ⟨by omega, fun x => ⟨(b x).1, by have := (b x).2; omega⟩, fun x => ⟨(d x).1, fun y => by have := (d x).2 y; omega⟩, e, fun x => by have := f x; omega, g⟩

/-- A move of one fiber keeps the invariant, if the flag follows it. -/
theorem inv_move {src : Source} {s s' : St} {i : Nat} {p : Pc} (h : Inv src s) (hpc : s'.pc = upd s.pc i p) (h1 : s.version ≤ s'.version) (h2 : s.ended ≤ s'.ended) (h3 : s.now ≤ s'.now)
    (h4 : s'.flag = false → s.flag = false ∨ s.ended < s'.ended) (hp : Ok src s' p) (hs : src = .static → s'.expiry = 0)
    (hf : inside (s.pc i) = inside p ∧ s'.flag = s.flag ∨ s.flag = false ∧ s'.flag = true ∧ inside p = true ∨ inside (s.pc i) = true ∧ s'.flag = false ∧ inside p = false) : Inv src s' := by
  have hr : ∀ j, Refreshing s' j ↔ (if j = i then inside p = true else Refreshing s j) := by
    intro j
    rw [refreshing_iff, hpc]
    by_cases e : j = i
    · rw [e, upd_same, if_pos rfl]
    · rw [upd_ne _ _ e, if_neg e, refreshing_iff]
  have hold : Refreshing s i ↔ inside (s.pc i) = true := refreshing_iff
  refine ⟨fun j => ?_, fun j k hj hk => ?_, ?_, hs⟩
  · rw [hpc]
    by_cases e : j = i
    · rw [e, upd_same]; exact hp
    · rw [upd_ne _ _ e]; exact ok_mono (h.all j) h1 h2 h3 h4
  · rw [hr] at hj hk
    rcases hf with ⟨a, b⟩ | ⟨a, b, c⟩ | ⟨a, b, c⟩
    · have : ∀ j, (if j = i then inside p = true else Refreshing s j) → Refreshing s j := by
        intro j hj
        by_cases e : j = i
        · rw [e, hold, a]; rw [if_pos e] at hj; exact hj
        · rwa [if_neg e] at hj
      exact h.one j k (this j hj) (this k hk)
    · have hno : ∀ j, ¬ Refreshing s j := fun j hj => by
        have := h.flag.mpr ⟨j, hj⟩; rw [a] at this; cases this
      have : ∀ j, (if j = i then inside p = true else Refreshing s j) → j = i := by
        intro j hj
        refine Classical.byContradiction fun e => ?_
        rw [if_neg e] at hj; exact hno j hj
      rw [this j hj, this k hk]
    · by_cases e : j = i
      · rw [if_pos e, c] at hj; cases hj
      · rw [if_neg e] at hj
        exact absurd (h.one j i hj (hold.mpr a)) e
  · rcases hf with ⟨a, b⟩ | ⟨a, b, c⟩ | ⟨a, b, c⟩
    · rw [b, h.flag]
      constructor
      · rintro ⟨j, hj⟩
        refine ⟨j, (hr j).mpr ?_⟩
        by_cases e : j = i
        · rw [if_pos e, ← a, ← hold, ← e]; exact hj
        · rwa [if_neg e]
      · rintro ⟨j, hj⟩
        rw [hr] at hj
        by_cases e : j = i
        · rw [if_pos e, ← a, ← hold] at hj; exact ⟨i, hj⟩
        · rw [if_neg e] at hj; exact ⟨j, hj⟩
    · rw [b]
      exact ⟨fun _ => ⟨i, (hr i).mpr (by rw [if_pos rfl]; exact c)⟩, fun _ => rfl⟩
    · rw [b]
      refine ⟨fun x => (by cases x), ?_⟩
      rintro ⟨j, hj⟩
      rw [hr] at hj
      by_cases e : j = i
      · rw [if_pos e, c] at hj; cases hj
      · rw [if_neg e] at hj
        exact absurd (h.one j i hj (hold.mpr a)) e

theorem inv_step {src : Source} {s s' : St} {a : Act} (h : Inv src s) (hs : step src s a = some s') : Inv src s' := by
  cases a with
  | tick =>
    cases hs
    refine ⟨fun i => ok_mono (h.all i) (Nat.le_refl _) (Nat.le_refl _) (by simp) (fun x => Or.inl x), h.one, h.flag, h.static⟩
  | call i k =>
    have hi := h.all i
    simp only [step] at hs
    split at hs
    · rename_i e
      cases hs
      refine inv_move h rfl (Nat.le_refl _) (Nat.le_refl _) (Nat.le_refl _) (fun x => Or.inl x) ?_ h.static (Or.inl ⟨?_, rfl⟩)
      · cases k <;> simp [Ok, St.set]
      · rw [e]; cases k <;> rfl
    · rename_i e
      cases hs
      refine inv_move h rfl (Nat.le_refl _) (Nat.le_refl _) (Nat.le_refl _) (fun x => Or.inl x) ?_ h.static (Or.inl ⟨?_, rfl⟩)
      · cases k <;> simp [Ok, St.set]
      · rw [e]; cases k <;> rfl
    · cases hs
  | go i =>
    have hi := h.all i
    simp only [step] at hs
    split at hs
    · rename_i c e
      rw [e] at hi
      obtain ⟨a, b, d, f⟩ := hi
      split at hs
      · rename_i hf
        cases hs
        exact inv_move h rfl (Nat.le_refl _) (Nat.le_refl _) (Nat.le_refl _) (fun x => Or.inl x) ⟨a, b, d, f, fun x => by rw [show (s.set i (.tWait c)).flag = s.flag from rfl, hf] at x; cases x⟩ h.static (Or.inl ⟨by rw [e]; rfl, rfl⟩)
      · rename_i hf
        cases hs
        exact inv_move h rfl (Nat.le_refl _) (Nat.le_refl _) (Nat.le_refl _) (fun x => by cases x) ⟨b, d, f⟩ h.static (Or.inr (Or.inl ⟨by simpa using hf, rfl, rfl⟩))
    · rename_i c e
      rw [e] at hi
      obtain ⟨a, b, d, f, g⟩ := hi
      split at hs
      · split at hs
        · rename_i hf ht
          cases hs
          exact inv_move h rfl (Nat.le_refl _) (Nat.le_refl _) (Nat.le_refl _) (fun x => Or.inl x) ⟨f, by simp, by simp, by simp, fun _ => ht, by simp⟩ h.static (Or.inl ⟨by rw [e]; rfl, rfl⟩)
        · cases hs; exact h
      · rename_i hf
        cases hs
        exact inv_move h rfl (Nat.le_refl _) (Nat.le_refl _) (Nat.le_refl _) (fun x => Or.inl x) ⟨f, fun _ => ⟨a, g (by simpa using hf)⟩, by simp, by simp, by simp, by simp⟩ h.static (Or.inl ⟨by rw [e]; rfl, rfl⟩)
    · rename_i c e
      rw [e] at hi
      obtain ⟨a, b, d, f⟩ := hi
      split at hs
      · cases hs
        exact inv_move h rfl (Nat.le_refl _) (Nat.le_refl _) (Nat.le_refl _) (fun x => Or.inl x) ⟨a, b, d, f⟩ h.static (Or.inl ⟨by rw [e]; rfl, rfl⟩)
      · cases hs
        exact inv_move h rfl (Nat.le_refl _) (Nat.le_refl _) (Nat.le_refl _) (fun x => Or.inl x) ⟨f, by simp, by simp, fun _ => a, by simp, by simp⟩ h.static (Or.inl ⟨by rw [e]; rfl, rfl⟩)
    · rename_i c e
      rw [e] at hi
      obtain ⟨a, b, d, f⟩ := hi
      split at hs
      · split at hs
        · rename_i hf ht
          cases hs
          exact inv_move h rfl (Nat.le_refl _) (Nat.le_refl _) (Nat.le_refl _) (fun x => Or.inl x) ⟨f, by simp, by simp, by simp, fun _ => ht, by simp⟩ h.static (Or.inl ⟨by rw [e]; rfl, rfl⟩)
        · cases hs
          exact inv_move h rfl (Nat.le_refl _) (Nat.le_refl _) (Nat.le_refl _) (fun x => Or.inl x) ⟨a, b, d, f⟩ h.static (Or.inl ⟨by rw [e]; rfl, rfl⟩)
      · rename_i hf
        cases hs
        exact inv_move h rfl (Nat.le_refl _) (Nat.le_refl _) (Nat.le_refl _) (fun x => by cases x) ⟨b, d, f⟩ h.static (Or.inr (Or.inl ⟨by simpa using hf, rfl, rfl⟩))
    · rename_i c e
      rw [e] at hi
      obtain ⟨b, d, f⟩ := hi
      split at hs
      · cases hs
        exact inv_move h rfl (Nat.le_refl _) (Nat.le_refl _) (Nat.le_refl _) (fun x => Or.inl x) ⟨d, f, by simp, by simp, by simp⟩ h.static (Or.inl ⟨by rw [e]; rfl, rfl⟩)
      · cases hs
        exact inv_move h rfl (Nat.le_refl _) (Nat.le_refl _) (Nat.le_refl _) (fun x => Or.inl x) ⟨d, f, by simp, by simp, by simp⟩ h.static (Or.inl ⟨by rw [e]; rfl, rfl⟩)
      · cases hs
    · rename_i c ok e
      rw [e] at hi
      obtain ⟨d, f, g, g1, g2⟩ := hi
      cases hs
      refine inv_move h rfl (Nat.le_refl _) (Nat.le_succ _) (Nat.le_refl _) (fun x => Or.inr (Nat.lt_succ_self _)) ?_ h.static (Or.inr (Or.inr ⟨by rw [e]; rfl, rfl, rfl⟩))
      unfold ownerRet
      cases hk : c.kind <;> cases hok : ok <;> simp_all [Ok, St.set] <;> omega
    · cases hs
  | fetchOk i x =>
    have hi := h.all i
    simp only [step] at hs
    split at hs
    · rename_i c e
      rw [e] at hi
      obtain ⟨b, d, f⟩ := hi
      cases hs
      exact inv_move h rfl (Nat.le_succ _) (Nat.le_refl _) (Nat.le_refl _) (fun x => Or.inl x) ⟨d, f, fun _ _ => Nat.lt_succ_of_le b, by simp, by simp⟩ (by simp) (Or.inl ⟨by rw [e]; rfl, rfl⟩)
    · cases hs
  | fetchErr i =>
    have hi := h.all i
    simp only [step] at hs
    split at hs
    · rename_i c e
      rw [e] at hi
      obtain ⟨b, d, f⟩ := hi
      cases hs
      exact inv_move h rfl (Nat.le_refl _) (Nat.le_refl _) (Nat.le_refl _) (fun x => Or.inl x) ⟨d, f, by simp, by simp, by simp⟩ h.static (Or.inl ⟨by rw [e]; rfl, rfl⟩)
    · cases hs

theorem inv {src : Source} {s : St} (h : Reachable (Init src) (step src) s) : Inv src s := by
  refine Reachable.invariant (Inv src) (fun s hi => ?_) (fun s a s' hI hs => inv_step hI hs) h
  obtain ⟨h1, h2, h3⟩ := hi
  have hn : ∀ i, ¬ Refreshing s i := fun i => by rw [refreshing_iff, h2]; simp [inside]
  exact ⟨fun i => by rw [h2]; trivial, fun i j hi => absurd hi (hn i), ⟨fun x => (by rw [h1] at x; cases x), fun ⟨i, hi⟩ => absurd hi (hn i)⟩, h3⟩

/-- **C107** At most one fiber refreshes the credentials at a time, whatever the others call, and the flag says whether there is one. -/
theorem C107_one_refresh (src : Source) (s : St) (h : Reachable (Init src) (step src) s) : (∀ i j, Refreshing s i → Refreshing s j → i = j) ∧ (s.flag = true ↔ ∃ i, Refreshing s i) :=
  ⟨(inv h).one, (inv h).flag⟩

/-- **C107** `RefreshIfExpiring` returns true only if the credentials are newer than at the call. With static credentials it returns false, and nothing is ever an error. -/
theorem C107_refreshed (src : Source) (s : St) (h : Reachable (Init src) (step src) s) (i : Nat) (c : Call) (r : Ret) (hr : Returned s i .ifExpiring c r) :
    (r = .yes → src = .remote → c.v0 < s.version) ∧ r ≠ .ok ∧ (src = .static → r ≠ .err) := by
  have := (inv h).all i
  rw [hr.1] at this
  obtain ⟨-, a, b, d, e, f⟩ := this
  refine ⟨fun x => (b x).2, fun x => ?_, fun x y => f y x⟩
  have := (a x).1; rw [hr.2] at this; cases this

/-- **C107** If `RefreshToken` returns no error, a refresh ended between the call and the return: its own or that of another fiber. What is missing: that it succeeded, which holds for its own (`C107_own`). -/
theorem C107_token_partial (src : Source) (s : St) (h : Reachable (Init src) (step src) s) (i : Nat) (c : Call) (r : Ret) (hr : Returned s i .token c r) :
    (r = .ok → c.f0 < s.ended) ∧ r ≠ .yes ∧ r ≠ .no ∧ (src = .static → r ≠ .err) := by
  have := (inv h).all i
  rw [hr.1] at this
  obtain ⟨-, a, b, d, e, f⟩ := this
  refine ⟨fun x => (a x).2, fun x => ?_, fun x => ?_, fun x y => f y x⟩
  · have := (b x).1; rw [hr.2] at this; cases this
  · have := d x; rw [hr.2] at this; cases this

/-- **C107** A fiber that refreshed itself and returns success has newer credentials than at its call. -/
theorem C107_own (s s' : St) (h : Reachable (Init .remote) (step .remote) s) (i : Nat) (c : Call) (r : Ret) (hi : Refreshing s i) (hs : step .remote s (.go i) = some s') (hr : s'.pc i = .done c r) (hok : r = .ok ∨ r = .yes) : c.v0 < s'.version := by
  have ha := (inv h).all i
  rw [refreshing_iff] at hi
  match e : s.pc i with
  | .idle | .tTry _ | .tWait _ | .iCheck _ | .iTry _ | .done _ _ => rw [e] at hi; simp [inside] at hi
  | .fetch c' => simp [step, e] at hs
  | .fetched c' ok =>
    rw [e] at ha
    simp only [step, e] at hs
    cases hs
    simp only [St.set, upd_same] at hr
    cases hr
    obtain ⟨-, -, g, -, -⟩ := ha
    refine g ?_ rfl
    unfold ownerRet at hok
    cases ok
    · simp at hok
    · rfl

/-- **C107** A call ends with a timeout only 30 seconds after it began. -/
theorem C107_timeout (src : Source) (s : St) (h : Reachable (Init src) (step src) s) (i : Nat) (c : Call) (hr : s.pc i = .done c .timeout) : c.t0 + 30 ≤ s.now := by
  have := (inv h).all i
  rw [hr] at this
  exact this.2.2.2.2.1 rfl

/-- **C107** No fiber is stuck: in a call it can always move, and while it waits for another fiber that one is in a refresh, from which two moves of its own let the others go on. The flag is never left set. -/
theorem C107_no_deadlock (src : Source) (s : St) (h : Reachable (Init src) (step src) s) (i : Nat) (hb : Busy s i) :
    (∃ a s', (a = .go i ∨ a = .fetchErr i) ∧ step src s a = some s') ∧ (s.flag = true → ∃ j acts s', (∀ a ∈ acts, a = .go j ∨ a = .fetchErr j) ∧ acts.length ≤ 2 ∧ exec (step src) s acts = some s' ∧ s'.flag = false) := by
  constructor
  · obtain ⟨h1, h2⟩ := hb
    match e : s.pc i with
    | .idle => exact absurd e h1
    | .done c r => exact absurd e (h2 c r)
    | .tTry c => by_cases hf : s.flag = true <;> exact ⟨.go i, _, Or.inl rfl, by simp only [step, e, hf]; rfl⟩
    | .tWait c => by_cases hf : s.flag = true <;> by_cases ht : s.now ≥ c.t0 + waitTimeout <;> exact ⟨.go i, _, Or.inl rfl, by simp only [step, e, hf, ht]; rfl⟩
    | .iCheck c => by_cases hf : isExpiring s = true <;> exact ⟨.go i, _, Or.inl rfl, by simp only [step, e, hf]; rfl⟩
    | .iTry c => by_cases hf : s.flag = true <;> by_cases ht : s.now ≥ c.t0 + waitTimeout <;> exact ⟨.go i, _, Or.inl rfl, by simp only [step, e, hf, ht]; rfl⟩
    | .fetch c => cases src with
      | none => exact ⟨.go i, _, Or.inl rfl, by simp only [step, e]; rfl⟩
      | static => exact ⟨.go i, _, Or.inl rfl, by simp only [step, e]; rfl⟩
      | remote => exact ⟨.fetchErr i, _, Or.inr rfl, by simp only [step, e]; rfl⟩
    | .fetched c ok => exact ⟨.go i, _, Or.inl rfl, by simp only [step, e]; rfl⟩
  · intro hf
    obtain ⟨j, hj⟩ := (inv h).flag.mp hf
    rcases hj with ⟨c, e⟩ | ⟨c, ok, e⟩
    · cases src with
      | none => exact ⟨j, [.go j, .go j], _, by simp, by simp, by simp only [exec, step, e, St.set, upd_same]; rfl, rfl⟩
      | static => exact ⟨j, [.go j, .go j], _, by simp, by simp, by simp only [exec, step, e, St.set, upd_same]; rfl, rfl⟩
      | remote => exact ⟨j, [.fetchErr j, .go j], _, by simp, by simp, by simp only [exec, step, e, St.set, upd_same]; rfl, rfl⟩
    · exact ⟨j, [.go j], _, by simp, by simp, by simp only [exec, step, e]; rfl, rfl⟩

/-- Nobody refreshes, and the credentials expire at 40. -/
def start : St := ⟨false, 0, 40, 10, 0, fun _ => .idle⟩

theorem start_init (src : Source) (h : src ≠ .static) : Init src start := ⟨rfl, fun _ => rfl, fun e => absurd e h⟩

/-- **C107** Disagreement: `RefreshToken` returns no error to a fiber that waited for another one, although that one failed and the credentials are the same; the request is signed with them again. -/
theorem C107_failure_hidden : ∃ s, Reachable (Init .remote) (step .remote) s ∧ s.pc 1 = .done ⟨.token, 10, 0, 0⟩ .ok ∧ s.pc 0 = .done ⟨.token, 10, 0, 0⟩ .err ∧ s.version = 0 := by
  have h : ∃ s, exec (step .remote) start [.call 0 .token, .go 0, .call 1 .token, .go 1, .fetchErr 0, .go 0, .go 1] = some s ∧ s.pc 1 = .done ⟨.token, 10, 0, 0⟩ .ok ∧ s.pc 0 = .done ⟨.token, 10, 0, 0⟩ .err ∧ s.version = 0 := ⟨_, rfl, by decide +kernel⟩
  obtain ⟨s, h1, h2⟩ := h
  exact ⟨s, Reachable.exec (.init (start_init _ (by decide)) trivial) _ h1, h2⟩

/-- **C107** Disagreement: `RefreshIfExpiring` returns false to a fiber that waited while another one refreshed, so the sender does not sign its request again: it is sent with the credentials that were found to expire. -/
theorem C107_not_signed_again : ∃ s, Reachable (Init .remote) (step .remote) s ∧ s.pc 1 = .done ⟨.ifExpiring, 10, 0, 0⟩ .no ∧ s.version = 1 ∧ (∃ s0, Reachable (Init .remote) (step .remote) s0 ∧ isExpiring s0 = true ∧ s0.version = 0 ∧ s0.pc 1 = .iTry ⟨.ifExpiring, 10, 0, 0⟩) := by
  have h0 : ∃ s, exec (step .remote) start [.call 0 .ifExpiring, .go 0, .go 0, .call 1 .ifExpiring, .go 1] = some s ∧ isExpiring s = true ∧ s.version = 0 ∧ s.pc 1 = .iTry ⟨.ifExpiring, 10, 0, 0⟩ := ⟨_, rfl, by decide +kernel⟩
  have h : ∃ s, exec (step .remote) start [.call 0 .ifExpiring, .go 0, .go 0, .call 1 .ifExpiring, .go 1, .go 1, .fetchOk 0 5000, .go 0, .go 1] = some s ∧ s.pc 1 = .done ⟨.ifExpiring, 10, 0, 0⟩ .no ∧ s.version = 1 := ⟨_, rfl, by decide +kernel⟩
  obtain ⟨s0, a1, a2⟩ := h0
  obtain ⟨s, h1, h2, h3⟩ := h
  exact ⟨s, Reachable.exec (.init (start_init _ (by decide)) trivial) _ h1, h2, h3, s0, Reachable.exec (.init (start_init _ (by decide)) trivial) _ a1, a2⟩

/-- Both fibers refresh, one after the other; a third returns false at once. -/
example : ∃ s, exec (step .remote) start [.call 0 .token, .go 0, .fetchOk 0 4000, .go 0, .call 1 .token, .go 1, .fetchOk 1 5000, .go 1, .call 2 .ifExpiring, .go 2] = some s ∧
    s.pc 0 = .done ⟨.token, 10, 0, 0⟩ .ok ∧ s.pc 1 = .done ⟨.token, 10, 1, 1⟩ .ok ∧ s.pc 2 = .done ⟨.ifExpiring, 10, 2, 2⟩ .no ∧ s.version = 2 ∧ s.flag = false := ⟨_, rfl, by decide +kernel⟩

end Verif.AwsRefresh
