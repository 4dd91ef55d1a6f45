import Verif.FiberHandle.Spec
/-!
# Properties of fiber handles (C125)
-/
namespace Verif.FiberHandle
open Verif.Common

structure Inv (s : S) : Prop where
  uniq : ∀ h g f, s.obj h = some (some f) → s.obj g = some (some f) → h = g
  held : ∀ h f, s.obj h = some (some f) → f < s.next ∧ times s f = 0
  new : ∀ f, s.next ≤ f → times s f = 0
  once : ∀ f, f < s.next → (∃ h, s.obj h = some (some f)) ∨ times s f = 1
  fin : ∀ f, (f, true) ∈ s.ended → s.finished f = true

theorem times_add (s s' : S) (f : Nat) (b : Bool) (he : s'.ended = s.ended ++ [(f, b)]) (x : Nat) :
    times s' x = times s x + if f = x then 1 else 0 := by
  unfold times
  rw [he]
  by_cases h : f = x <;> simp [h]

/-- Moving a fiber between two objects. -/
theorem inv_swap (s : S) (h g : Nat) (a b : Option Nat) (I : Inv s) (hne : h ≠ g) (hh : s.obj h = some a ∨ (s.obj h = none ∧ a = none)) (hg : s.obj g = some b) :
    Inv { s with obj := upd (upd s.obj h (some b)) g (some a) } := by
  have hA : ∀ f, a = some f → s.obj h = some (some f) := by
    rintro f rfl
    rcases hh with hh | hh
    · exact hh
    · cases hh.2
  have obj : ∀ x f, (upd (upd s.obj h (some b)) g (some a)) x = some (some f) → s.obj (if x = g then h else if x = h then g else x) = some (some f) := by
    intro x f hx
    simp only [upd] at hx
    by_cases h1 : x = g
    · rw [if_pos h1] at hx ⊢; exact hA f (by simpa using hx)
    · rw [if_neg h1] at hx ⊢
      by_cases h2 : x = h
      · rw [if_pos h2] at hx ⊢; rw [hg, hx]
      · rw [if_neg h2] at hx ⊢; exact hx
  refine ⟨?_, ?_, I.new, ?_, I.fin⟩
  · intro x y f hx hy
    have := I.uniq _ _ f (obj x f hx) (obj y f hy)
    grind
  · intro x f hx
    exact I.held _ f (obj x f hx)
  · intro f hf
    rcases I.once f hf with ⟨x, hx⟩ | ht
    · left
      refine ⟨if x = g then h else if x = h then g else x, ?_⟩
      simp only [upd]
      by_cases h1 : x = g
      · subst h1
        rw [if_pos rfl, if_neg hne, if_pos rfl]
        rw [hg] at hx; exact hx
      · rw [if_neg h1]
        by_cases h2 : x = h
        · subst h2
          rw [if_pos rfl, if_pos rfl]
          rcases hh with hh | hh
          · rw [hh] at hx; exact hx
          · rw [hh.1] at hx; cases hx
        · rw [if_neg h2, if_neg h1, if_neg h2]; exact hx
    · exact .inr ht

theorem inv_end (s : S) (h f : Nat) (b : Bool) (I : Inv s) (hf : s.obj h = some (some f)) (hb : b = true → s.finished f = true) :
    Inv { s with obj := upd s.obj h (some none), ended := s.ended ++ [(f, b)] } := by
  have ht := times_add s { s with obj := upd s.obj h (some none), ended := s.ended ++ [(f, b)] } f b rfl
  have hlt := I.held h f hf
  refine ⟨?_, ?_, ?_, ?_, ?_⟩
  · intro x y k hx hy
    have := I.uniq x y k
    grind [upd]
  · intro x k hx
    have h1 : x ≠ h ∧ s.obj x = some (some k) := by grind [upd]
    have hk := I.held x k h1.2
    have : f ≠ k := fun e => h1.1 (I.uniq x h k h1.2 (e ▸ hf))
    refine ⟨hk.1, ?_⟩
    rw [ht, if_neg this]; exact hk.2
  · intro k hk
    have := I.new k hk
    have : f ≠ k := by rintro rfl; have := hlt.1; dsimp only at hk; omega
    rw [ht, if_neg this]; exact I.new k hk
  · intro k hk
    by_cases hfk : f = k
    · right; rw [ht, if_pos hfk, ← hfk, hlt.2]
    · rcases I.once k hk with ⟨x, hx⟩ | h'
      · left; refine ⟨x, ?_⟩
        have : x ≠ h := by rintro rfl; rw [hf] at hx; simp at hx; exact hfk hx
        simp [upd, this, hx]
      · right; rw [ht, if_neg hfk, h']
  · intro k hk
    rcases List.mem_append.1 hk with hk | hk
    · exact I.fin k hk
    · simp only [List.mem_singleton, Prod.mk.injEq] at hk
      rw [hk.1]; exact hb hk.2.symm

theorem inv_join (s s' : S) (me h : Nat) (o : Option Nat) (I : Inv s) (ho : s.obj h = some o) (hj : join s me h o = .ok s') : Inv s' := by
  cases o with
  | none => cases hj
  | some f =>
    simp only [join] at hj
    split at hj
    · cases hj
    · split at hj
      · rename_i hf
        cases hj
        exact inv_end s h f true I ho (fun _ => hf)
      · cases hj

theorem inv_call (s s' : S) (a : Act) (I : Inv s) (h : call s a = some (.ok s')) : Inv s' := by
  cases a with
  | start h =>
    simp only [call] at h
    split at h
    · rename_i x hx
      cases h
      refine ⟨?_, ?_, ?_, ?_, I.fin⟩
      · intro a b f ha hb
        have := I.uniq a b f
        have := I.held a f
        have := I.held b f
        grind [upd]
      · intro a f ha
        have := I.held a f
        have h2 := I.new s.next (Nat.le_refl _)
        simp only [upd] at ha
        split at ha
        · cases ha; exact ⟨Nat.lt_succ_self _, h2⟩
        · have := this ha; exact ⟨Nat.lt_succ_of_lt this.1, this.2⟩
      · intro f hf; exact I.new f (Nat.le_of_succ_le hf)
      · intro f hf
        by_cases hfn : f = s.next
        · left; exact ⟨_, by simp only [upd]; rw [if_pos rfl, hfn]⟩
        · rcases I.once f (by dsimp only at hf; omega) with ⟨y, hy⟩ | h'
          · left; refine ⟨y, ?_⟩
            simp only [upd]
            rw [if_neg]; exact hy
            rintro rfl; rw [hx] at hy; cases hy
          · exact .inr h'
    · cases h
  | empty h =>
    simp only [call] at h
    split at h
    · rename_i x hx
      cases h
      refine ⟨?_, ?_, I.new, ?_, I.fin⟩
      · intro a b f; have := I.uniq a b f; grind [upd]
      · intro a f ha; refine I.held a f ?_; grind [upd]
      · intro f hf
        rcases I.once f hf with ⟨y, hy⟩ | h'
        · left; exact ⟨y, by grind [upd]⟩
        · exact .inr h'
    · cases h
  | moveNew h g =>
    simp only [call] at h
    split at h
    · rename_i o hh hg
      cases h
      exact inv_swap s _ _ none o I (by intro e; rw [← e, hh] at hg; cases hg) (.inr ⟨hh, rfl⟩) hg
    · cases h
  | assign h g =>
    simp only [call] at h
    split at h
    · cases h
    · rename_i o hh hg
      simp only [Option.some.injEq, R.ok.injEq] at h
      split at h
      · subst h; exact I
      · rename_i hne; subst h; exact inv_swap s _ _ none o I hne (.inl hh) hg
    · cases h
  | swap k g =>
    simp only [call] at h
    split at h
    · rename_i a b hh hg
      simp only [Option.some.injEq, R.ok.injEq] at h
      subst h
      by_cases hne : k = g
      · subst hne
        rw [hh] at hg; cases hg
        have : upd (upd s.obj k (some a)) k (some a) = s.obj := by
          funext x; simp only [upd]; split
          · rename_i e; rw [e, hh]
          · rfl
        rw [this]; exact I
      · exact inv_swap s _ _ a b I hne (.inl hh) hg
    · cases h
  | join me h =>
    simp only [call] at h
    split at h
    · rename_i o ho
      simp only [Option.some.injEq] at h
      exact inv_join s s' me _ o I ho h
    · cases h
  | joinIfNeeded me h =>
    simp only [call] at h
    split at h
    · cases h; exact I
    · rename_i o ho
      simp only [Option.some.injEq] at h
      exact inv_join s s' me _ _ I ho h
    · cases h
  | detach h =>
    simp only [call] at h
    split at h
    · cases h; exact I
    · rename_i f ho
      cases h
      exact inv_end s _ f false I ho (by simp)
    · cases h
  | destroy h =>
    simp only [call] at h
    split at h
    · rename_i hx
      cases h
      refine ⟨?_, ?_, I.new, ?_, I.fin⟩
      · intro a b f; have := I.uniq a b f; grind [upd]
      · intro a f ha; refine I.held a f ?_; grind [upd]
      · intro f hf
        rcases I.once f hf with ⟨y, hy⟩ | h'
        · left; exact ⟨y, by grind [upd]⟩
        · exact .inr h'
    · cases h
    · cases h
  | finish f =>
    simp only [call] at h
    split at h
    · cases h
      refine ⟨I.uniq, I.held, I.new, I.once, fun k hk => ?_⟩
      have := I.fin k hk
      simp only [upd]; split <;> simp [this]
    · cases h

theorem inv_reach {s : S} (h : Ok s) : Inv s := by
  refine Reachable.invariant Inv ?_ ?_ h
  · rintro _ rfl
    exact ⟨by simp [init], by simp [init], by simp [init, times], by simp [init], by simp [init]⟩
  · intro s a s' I hs
    unfold step at hs
    split at hs
    · rename_i s1 hc; cases hs; exact inv_call s _ a I hc
    · cases hs

/-- No fiber is held by two handles. A fiber that was started is either held by a handle, and neither joined nor detached, or it was joined or detached exactly once
and no handle holds it. -/
theorem C125_owner {s : S} (h : Ok s) (f : Nat) (hf : f < s.next) :
    (∀ a b, Holds s a f → Holds s b f → a = b) ∧
    (((∃ a, Holds s a f) ∧ times s f = 0) ∨ ((¬ ∃ a, Holds s a f) ∧ times s f = 1)) := by
  have I := inv_reach h
  refine ⟨fun a b => I.uniq a b f, ?_⟩
  rcases I.once f hf with ⟨a, ha⟩ | ht
  · exact .inl ⟨⟨a, ha⟩, (I.held a f ha).2⟩
  · refine .inr ⟨?_, ht⟩
    rintro ⟨a, ha⟩
    have := (I.held a f ha).2
    omega

/-- When all handles are destroyed every fiber was joined or detached, exactly once. -/
theorem C125_none_lost {s : S} (h : Ok s) (hd : ∀ a, s.obj a = none) (f : Nat) (hf : f < s.next) : times s f = 1 := by
  rcases (C125_owner h f hf).2 with ⟨⟨a, ha⟩, -⟩ | ⟨-, ht⟩
  · unfold Holds at ha; rw [hd a] at ha; cases ha
  · exact ht

/-- A fiber is joined only after it finished. -/
theorem C125_joined_finished {s : S} (h : Ok s) (f : Nat) (hf : (f, true) ∈ s.ended) : s.finished f = true := (inv_reach h).fin f hf

/-- The calls that crash are those that misuse handles, whatever the state. -/
theorem C125_crash (s : S) (a : Act) : (∃ r, call s a = some r ∧ r matches .crash) ↔ Misuse s a := by
  cases a with
  | join me h =>
    simp only [call, Misuse, Holds]
    cases ho : s.obj h with
    | none => simp
    | some o =>
      cases o with
      | none => simp [join]
      | some f =>
        simp only [join]
        by_cases e : me = f
        · simp [e]
        · have : f ≠ me := fun x => e x.symm
          rw [if_neg e]; split <;> simp [this]
  | joinIfNeeded me h =>
    simp only [call, Misuse, Holds]
    cases ho : s.obj h with
    | none => simp
    | some o =>
      cases o with
      | none => simp
      | some f =>
        simp only [join]
        by_cases e : me = f
        · simp [e]
        · have : f ≠ me := fun x => e x.symm
          rw [if_neg e]; split <;> simp [this]
  | assign h g =>
    simp only [call, Misuse, Holds]
    cases hh : s.obj h with
    | none => simp
    | some o => cases o <;> cases hg : s.obj g <;> simp
  | destroy h =>
    simp only [call, Misuse, Holds]
    cases hh : s.obj h with
    | none => simp
    | some o => cases o <;> simp
  | start h => simp only [call, Misuse]; cases s.obj h <;> simp
  | empty h => simp only [call, Misuse]; cases s.obj h <;> simp
  | moveNew h g => simp only [call, Misuse]; cases s.obj h <;> cases s.obj g <;> simp
  | swap h g => simp only [call, Misuse]; cases s.obj h <;> cases s.obj g <;> simp
  | detach h =>
    simp only [call, Misuse]
    cases s.obj h with
    | none => simp
    | some o => cases o <;> simp
  | finish f => simp only [call, Misuse]; split <;> simp

/-- Moving moves: the fiber is then held by the target and the source is empty. -/
theorem C125_move (s s' : S) (a : Act) (h g f : Nat) (ha : a = .moveNew h g ∨ a = .assign h g) (hg : Holds s g f) (hs : step s a = some s') :
    Holds s' h f ∧ s'.obj g = some none := by
  unfold Holds at *
  rcases ha with rfl | rfl
  · simp only [step, call] at hs
    cases hh : s.obj h with
    | none =>
      have hne : h ≠ g := by rintro rfl; rw [hh] at hg; cases hg
      simp only [hh, hg, Option.some.injEq] at hs
      subst hs; simp [upd, hne]
    | some o => simp [hh] at hs
  · simp only [step, call] at hs
    cases hh : s.obj h with
    | none => simp [hh] at hs
    | some o =>
      cases o with
      | some f' => simp [hh, hg] at hs
      | none =>
        have hne : h ≠ g := by rintro rfl; rw [hh] at hg; cases hg
        simp only [hh, hg, Option.some.injEq, if_neg hne] at hs
        subst hs; simp [upd, hne]

/-- Assigning a handle to itself does nothing if it is empty and crashes if it holds a fiber, as the check comes before the comparison. -/
theorem C125_self_assign (s : S) (h : Nat) : (s.obj h = some none → call s (.assign h h) = some (.ok s)) ∧
    (∀ f, Holds s h f → call s (.assign h h) = some .crash) := by
  constructor
  · intro hh; simp [call, hh]
  · intro f hf; unfold Holds at hf; simp [call, hf]

/-- Two fibers; one handle is moved and joined, the other detached, and all are destroyed. -/
theorem C125_case : ∃ s, Ok s ∧ s.next = 2 ∧ s.ended = [(0, true), (1, false)] ∧ s.obj 0 = none ∧ s.obj 1 = none ∧ s.obj 2 = none :=
  ⟨_, Reachable.exec (.init rfl trivial) [.start 0, .start 1, .moveNew 2 0, .swap 1 2, .assign 0 1, .finish 0, .joinIfNeeded 7 0, .joinIfNeeded 7 0, .detach 2, .destroy 0,
    .destroy 1, .destroy 2] rfl, rfl, rfl, rfl, rfl, rfl⟩

end Verif.FiberHandle
