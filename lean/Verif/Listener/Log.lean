import Verif.Listener.Trav
/-! What the observer sees of a connection: started once, then closed once. -/
namespace Verif.Listener
open Verif.Common

/-- Not started, started, `OnConnectionClose` called. -/
def cls (x : Conn) : Nat :=
  match x.pc with
  | .queued => 0
  | .closing | .gone => 2
  | _ => 1

def cl (s : S) (c : Nat) : Option Nat := (s.conns[c]?).map cls

def Ev.other : Ev → Bool
  | .start _ _ | .close _ => false
  | _ => true

def LShape (s s1 : S) : Prop :=
  ((∀ c, cl s1 c = cl s c) ∧ (s1.log = s.log ∨ ∃ e, e.other = true ∧ s1.log = s.log ++ [e])) ∨
  (s1.log = s.log ∧ ∃ c, cl s c = none ∧ ∀ d, cl s1 d = if d = c then some 0 else cl s d) ∨
  (∃ c t, cl s c = some 0 ∧ (∀ d, cl s1 d = if d = c then some 1 else cl s d) ∧ s1.log = s.log ++ [.start c t]) ∨
  (∃ c, cl s c = some 1 ∧ (∀ d, cl s1 d = if d = c then some 2 else cl s d) ∧ s1.log = s.log ++ [.close c])

theorem cl_set {s s1 : S} {c : Nat} {x y : Conn} (hx : s.conns[c]? = some x) (e : s1.conns = s.conns.set c y) (d : Nat) :
    cl s1 d = if d = c then some (cls y) else cl s d := by
  unfold cl
  rw [e]
  by_cases h : d = c
  · subst h
    simp [lt_of_get hx]
  · rw [if_neg h, List.getElem?_set_ne (Ne.symm h)]

theorem LShape.same {s s1 : S} (h1 : s1.conns = s.conns) (h2 : s1.log = s.log) : LShape s s1 :=
  Or.inl ⟨fun c => by unfold cl; rw [h1], Or.inl h2⟩

theorem LShape.keep {s s1 : S} {c : Nat} {x y : Conn} (hx : s.conns[c]? = some x) (e : s1.conns = s.conns.set c y)
    (h : cls y = cls x) (h2 : s1.log = s.log) : LShape s s1 := by
  refine Or.inl ⟨fun d => ?_, Or.inl h2⟩
  rw [cl_set hx e]
  split
  · rename_i hd
    subst hd
    simp [cl, hx, h]
  · rfl

theorem LShape.ev {s s1 : S} {e : Ev} (h1 : s1.conns = s.conns) (h : e.other = true) (h2 : s1.log = s.log ++ [e]) : LShape s s1 :=
  Or.inl ⟨fun c => by unfold cl; rw [h1], Or.inr ⟨e, h, h2⟩⟩

theorem lshape_sdGo {s s0 s1 : S} {t : Nat} {i : Option Nat} (hc : s0.conns = s.conns) (hl : s0.log = s.log)
    (h : sdGo s0 t i = some s1) : LShape s s1 := by
  unfold sdGo at h
  split at h
  · cases h; exact .same hc hl
  · split at h
    · cases h
    · rename_i x hx
      cases h
      rw [hc] at hx
      exact .keep (y := { x with shut := true }) hx (by simp [S.setC, hc]) rfl hl

theorem lshape_enter {s s0 s1 : S} {k : Nat} {r : Tr} (hc : s0.conns = s.conns) (hl : s0.log = s.log)
    (h : enter s0 k r = some s1) : LShape s s1 := by
  unfold enter at h
  repeat' split at h
  all_goals first | (cases h; done) | (cases h; exact .same hc hl)

theorem lshape {s s1 : S} (st : Str s) {a : Act} (h : stepA s a = some s1) : LShape s s1 := by
  cases a with
  | setMax m =>
    simp only [stepA] at h
    split at h <;> cases h
    exact .same rfl rfl
  | setPause b =>
    simp only [stepA] at h
    split at h <;> cases h
    exact .same rfl rfl
  | accept t =>
    simp only [stepA, accept] at h
    split at h
    · cases h
    split at h
    · cases h; exact .ev rfl rfl rfl
    split at h
    · cases h; exact .ev rfl rfl rfl
    split at h
    · cases h
    · cases h
      refine Or.inr (Or.inl ⟨rfl, s.conns.length, by simp [cl], fun d => ?_⟩)
      unfold cl
      by_cases hd : d = s.conns.length
      · subst hd; simp [cls]
      · rw [if_neg hd]
        by_cases h2 : d < s.conns.length
        · simp only; rw [List.getElem?_append_left h2]
        · simp only
          rw [List.getElem?_eq_none (by simp; omega), List.getElem?_eq_none (by omega)]
  | pop t =>
    simp only [stepA, pop] at h
    split at h
    · split at h
      · cases h
      split at h
      · cases h
      · rename_i c q e
        obtain ⟨x, hx, hp, _⟩ := st.q1 t c (by rw [e]; simp [mem_qc])
        rw [hx] at h
        simp only at h
        split at h
        · cases h; exact .same rfl rfl
        · cases h
          refine Or.inr (Or.inr (Or.inl ⟨c, t, by simp [cl, hx, cls, hp], fun d => ?_, rfl⟩))
          exact cl_set (y := { x with pc := .running, hook := some t }) hx rfl d
      · split at h
        · cases h; exact .same rfl rfl
        · exact lshape_sdGo (by rfl) (by rfl) h
      · split at h
        · cases h; exact .same rfl rfl
        · cases h; exact .same rfl rfl
    · cases h
  | migBegin c d =>
    simp only [stepA, migBegin] at h
    split at h
    · cases h
    rename_i x hx
    split at h
    · cases h
    rename_i hc
    have hp : x.pc = .running := Classical.byContradiction fun hn => hc (Or.inl hn)
    split at h
    · cases h; exact .same rfl rfl
    split at h
    · cases h; exact .same rfl rfl
    · cases h
      exact .keep hx rfl (by simp [cls, hp]) rfl
  | migAdd c =>
    simp only [stepA, migAdd] at h
    split at h
    · cases h
    rename_i x hx
    split at h
    · rename_i d hp
      split at h
      · cases h
      split at h
      · cases h; exact .same rfl rfl
      · cases h
        refine .keep hx rfl ?_ rfl
        simp only [cls, hp]
        split <;> simp_all
        all_goals split at * <;> simp_all
    · cases h
  | migBack c =>
    simp only [stepA, migBack] at h
    split at h
    · cases h
    rename_i x hx
    split at h
    · rename_i d hp
      split at h
      · cases h
      split at h
      · cases h; exact .same rfl rfl
      · cases h
        exact .keep hx rfl (by simp [cls, hp]) rfl
    · cases h
  | migUnlink c =>
    simp only [stepA, migUnlink] at h
    split at h
    · cases h
    rename_i x hx
    split at h
    · rename_i d hp
      split at h
      · cases h
      split at h
      · cases h
        exact .keep hx rfl (by simp [cls, hp]) rfl
      · cases h; exact .same rfl rfl
      · cases h; exact .same rfl rfl
    · cases h
  | migArrive c =>
    simp only [stepA, migArrive] at h
    split at h
    · cases h
    rename_i x hx
    split at h
    · rename_i d hp
      split at h
      · cases h
      split at h
      · cases h
        exact .keep hx rfl (by simp [cls, hp]) rfl
      · cases h
        exact .keep hx rfl (by simp [cls, hp]) rfl
    · cases h
  | migRelease c =>
    simp only [stepA, migRelease] at h
    split at h
    · cases h
    rename_i x hx
    split at h
    · rename_i hp
      split at h
      · cases h
      split at h
      · cases h; exact .same rfl rfl
      · cases h
        exact .keep hx rfl (by simp [cls, hp]) rfl
    · cases h
  | finish c =>
    simp only [stepA, finish] at h
    split at h
    · cases h
    rename_i x hx
    split at h
    · rename_i hp
      split at h
      · cases h
      split at h
      · cases h; exact .same rfl rfl
      · cases h
        exact Or.inr (Or.inr (Or.inr ⟨c, by simp [cl, hx, cls, hp], cl_set (y := { x with pc := .closing }) hx rfl, rfl⟩))
    · cases h
  | close c =>
    simp only [stepA, close] at h
    split at h
    · cases h
    rename_i x hx
    split at h
    · rename_i hp
      split at h
      · cases h
      split at h
      · cases h; exact .same rfl rfl
      split at h
      · cases h
        exact .keep hx rfl (by simp [cls, hp]) rfl
      split at h
      · cases h; exact .same rfl rfl
      · cases h
        exact .keep hx rfl (by simp [cls, hp]) rfl
    · cases h
  | callAll =>
    simp only [stepA, callAll] at h
    split at h <;> cases h
    exact .same rfl rfl
  | callOne t l fr =>
    simp only [stepA, callOne] at h
    split at h <;> cases h
    exact .same rfl rfl
  | trAdd k =>
    simp only [stepA, trAdd] at h
    split at h
    · cases h
    split at h
    · cases h
    split at h
    · cases h; exact .same rfl rfl
    split at h
    · cases h; exact .same rfl rfl
    · split at h
      · exact lshape_enter (by rfl) (by rfl) h
      · cases h; exact .same rfl rfl
  | trCheck k =>
    simp only [stepA, trCheck] at h
    split at h
    · cases h
    split at h
    · cases h
    split at h
    · cases h; exact .same rfl rfl
    split at h
    · exact lshape_enter rfl rfl h
    · cases h; exact .same rfl rfl
  | trVisit k =>
    simp only [stepA, trVisit] at h
    repeat' split at h
    all_goals first | (cases h; done) | (cases h; exact .same rfl rfl)
  | stop =>
    simp only [stepA, stop] at h
    split at h <;> cases h
    exact .ev rfl rfl rfl
  | sdNext t =>
    simp only [stepA, sdNext] at h
    repeat' split at h
    all_goals first | (cases h; done) | (cases h; exact .same rfl rfl) | exact lshape_sdGo rfl rfl h
  | stop2 =>
    simp only [stepA, stop2] at h
    split at h <;> cases h
    exact .same rfl rfl
  | emptied t =>
    simp only [stepA, emptied] at h
    repeat' split at h
    all_goals first | (cases h; done) | (cases h; exact .same rfl rfl)
  | post =>
    simp only [stepA, post] at h
    split at h <;> cases h
    exact .ev rfl rfl rfl
  | destroy =>
    simp only [stepA, destroy] at h
    split at h <;> cases h
    exact .same rfl rfl

def Ev.isStart (c : Nat) : Ev → Bool
  | .start d _ => decide (d = c)
  | _ => false
def Ev.isClose (c : Nat) : Ev → Bool
  | .close d => decide (d = c)
  | _ => false

structure LInv (s : S) : Prop where
  st : ∀ c, s.log.countP (Ev.isStart c) = if cl s c = some 1 ∨ cl s c = some 2 then 1 else 0
  cz : ∀ c, s.log.countP (Ev.isClose c) = if cl s c = some 2 then 1 else 0
  ord : ∀ (pre post : List Ev) (c : Nat), s.log = pre ++ .close c :: post → pre.countP (Ev.isStart c) = 1

theorem append_mid {α : Type} {l pre post : List α} {e x : α} (h : l ++ [e] = pre ++ x :: post) :
    (∃ post', l = pre ++ x :: post') ∨ (x = e ∧ pre = l) := by
  rcases List.eq_nil_or_concat post with rfl | ⟨post', y, rfl⟩
  · have := List.append_inj' h rfl
    exact Or.inr ⟨by simpa using this.2.symm, this.1.symm⟩
  · left
    refine ⟨post', ?_⟩
    have : l ++ [e] = (pre ++ x :: post') ++ [y] := by simpa using h
    exact (List.append_inj' this rfl).1

theorem linv_step {s s1 : S} (st : Str s) (i : LInv s) {a : Act} (h : stepA s a = some s1) : LInv s1 := by
  rcases lshape st h with ⟨h1, h2⟩ | ⟨h2, c, h0, h1⟩ | ⟨c, t, h0, h1, h2⟩ | ⟨c, h0, h1, h2⟩
  · have e1 : ∀ p : Ev → Bool, (∀ e, e.other = true → p e = false) → s1.log.countP p = s.log.countP p := by
      intro p hp
      rcases h2 with h2 | ⟨e, he, h2⟩
      · rw [h2]
      · rw [h2, List.countP_append]; simp [hp e he]
    refine ⟨fun c => ?_, fun c => ?_, ?_⟩
    · rw [e1 _ (fun e he => by cases e <;> first | rfl | cases he), i.st, h1]
    · rw [e1 _ (fun e he => by cases e <;> first | rfl | cases he), i.cz, h1]
    · intro pre post c e
      rcases h2 with h2 | ⟨e', he, h2⟩
      · rw [h2] at e; exact i.ord pre post c e
      · rw [h2] at e
        rcases append_mid e with ⟨post', e⟩ | ⟨rfl, _⟩
        · exact i.ord pre post' c e
        · cases he
  · refine ⟨fun d => ?_, fun d => ?_, by rw [h2]; exact i.ord⟩
    · rw [h2, i.st, h1]
      by_cases hd : d = c
      · subst hd; simp [h0]
      · simp [hd]
    · rw [h2, i.cz, h1]
      by_cases hd : d = c
      · subst hd; simp [h0]
      · simp [hd]
  · refine ⟨fun d => ?_, fun d => ?_, ?_⟩
    · rw [h2, List.countP_append, i.st, h1]
      by_cases hd : d = c
      · subst hd; simp [h0, Ev.isStart]
      · simp [hd, Ev.isStart, Ne.symm hd]
    · rw [h2, List.countP_append, i.cz, h1]
      by_cases hd : d = c
      · subst hd; simp [h0, Ev.isClose]
      · simp [hd, Ev.isClose]
    · intro pre post c' e
      rw [h2] at e
      rcases append_mid e with ⟨post', e⟩ | ⟨h3, _⟩
      · exact i.ord pre post' c' e
      · cases h3
  · refine ⟨fun d => ?_, fun d => ?_, ?_⟩
    · rw [h2, List.countP_append, i.st, h1]
      by_cases hd : d = c
      · subst hd; simp [h0, Ev.isStart]
      · simp [hd, Ev.isStart]
    · rw [h2, List.countP_append, i.cz, h1]
      by_cases hd : d = c
      · subst hd; simp [h0, Ev.isClose]
      · simp [hd, Ev.isClose, Ne.symm hd]
    · intro pre post c' e
      rw [h2] at e
      rcases append_mid e with ⟨post', e⟩ | ⟨h3, rfl⟩
      · exact i.ord pre post' c' e
      · cases h3
        rw [i.st, if_pos (Or.inl h0)]

theorem linv_of {s : S} (h : Reachable Init step s) : LInv s := by
  refine (Reachable.invariant (fun s => Str s ∧ LInv s) (fun s hi => ⟨(inv_init hi).t, ?_⟩) (fun s a s' hI hst => ?_) h).2
  · obtain ⟨n, max, _, _, rfl⟩ := hi
    exact ⟨by simp [S.init, cl], by simp [S.init, cl], by simp [S.init]⟩
  · obtain ⟨_, hst⟩ := step_eq hst
    exact ⟨str_step hI.1 hst, linv_step hI.1 hI.2 hst⟩

end Verif.Listener
