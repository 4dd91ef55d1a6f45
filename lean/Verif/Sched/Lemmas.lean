import Verif.Sched.Model

namespace Verif.Sched

open Verif.Common

theorem upd_apply {β : Type} (f : Nat → β) (i : Nat) (v : β) (j : Nat) :
    upd f i v j = if j = i then v else f j := rfl

/-- The bookkeeping of the queues. -/
structure Inv (s : St) : Prop where
  nbad : s.bad = false
  ncrash : s.crash = false
  ndN : s.rn.Nodup
  ndB : s.rb.Nodup
  ndS : s.sl.Nodup
  ndT : s.term.Nodup
  ndR : s.remote.Nodup
  nB : ∀ f, f ∈ s.rn → f ∉ s.rb
  nS : ∀ f, f ∈ s.rn → f ∉ s.sl
  bS : ∀ f, f ∈ s.rb → f ∉ s.sl
  aN : s.act ∉ s.rn
  aB : s.act ∉ s.rb
  aS : s.act ∉ s.sl
  pN : ∀ f, f ∈ s.rn → s.prio f ≠ .background
  pB : ∀ f, f ∈ s.rb → s.prio f = .background
  disp : s.act ≠ 0 → s.prio s.act ≠ .background → 0 ∈ s.rn
  dbg : s.prio s.act = .background → 0 ∉ s.rn
  p0 : s.prio 0 ≠ .background
  s0 : 0 ∉ s.sl
  l0 : s.life 0 = .live
  e0 : s.pend 0 = .none
  lN : ∀ f, f ∈ s.rn → s.life f = .live
  lB : ∀ f, f ∈ s.rb → s.life f = .live
  lS : ∀ f, f ∈ s.sl → s.life f = .live
  lA : s.life s.act = .live
  lT : ∀ f, f ∈ s.term → s.life f = .dead
  lP : ∀ f, s.pend f ≠ .none → s.life f = .live
  rP : ∀ f, s.reg f = true → s.pend f ≠ .none
  qP : ∀ f, f ∈ s.remote → s.pend f ≠ .none
  qR : ∀ f, f ∈ s.remote → s.reg f = false
  lost : ∀ f, f ≠ 0 → s.life f = .live →
    f = s.act ∨ f ∈ s.rn ∨ f ∈ s.rb ∨ f ∈ s.sl ∨ s.reg f = true ∨ f ∈ s.remote

theorem linked_iff (s : St) (f : Nat) : linked s f = true ↔ f ∈ s.rn ∨ f ∈ s.rb ∨ f ∈ s.term := by
  simp [linked, or_assoc]

theorem mem_insSleep (tp : Nat → Nat) (f g : Nat) (l : List Nat) :
    g ∈ insSleep tp f l ↔ g = f ∨ g ∈ l := by
  induction l with
  | nil => simp [insSleep]
  | cons a l ih => unfold insSleep; split <;> grind

theorem nodup_insSleep (tp : Nat → Nat) (f : Nat) (l : List Nat) (h : l.Nodup) (hf : f ∉ l) :
    (insSleep tp f l).Nodup := by
  induction l with
  | nil => simp [insSleep]
  | cons a l ih =>
    unfold insSleep
    split
    · grind
    · have := mem_insSleep tp f a l
      grind

theorem nodup_push {l : List Nat} {f : Nat} {b : Bool} (h : l.Nodup) (hf : f ∉ l) :
    (if b then f :: l else l ++ [f]).Nodup := by
  split
  · exact List.nodup_cons.2 ⟨hf, h⟩
  · rw [List.nodup_append]; refine ⟨h, by simp, ?_⟩
    intro a ha c hc; simp at hc; rintro rfl; exact hf (hc ▸ ha)

theorem mem_push {l : List Nat} {f g : Nat} {b : Bool} :
    g ∈ (if b then f :: l else l ++ [f]) ↔ g = f ∨ g ∈ l := by
  split <;> simp [or_comm]

/-- What `AddReady` does to the queues when the fiber is not linked. -/
theorem addReady_eq (s : St) (f : Nat) (b : Bool) (h : linked s f = false) :
    addReady s f b = { s with
      rn := if s.prio f = .background then s.rn else if b then f :: s.rn else s.rn ++ [f]
      rb := if s.prio f = .background then (if b then f :: s.rb else s.rb ++ [f]) else s.rb
      sl := s.sl.erase f
      log := s.log ++ [.ready f (s.prio f == .background) b] } := by
  unfold addReady push
  cases hp : s.prio f <;> simp [h]

theorem fire1_eq (s : St) (f : Nat) (h : linked s f = false) :
    fire1 s f = { s with
      rn := if s.prio f = .background then s.rn else s.rn ++ [f]
      rb := if s.prio f = .background then s.rb ++ [f] else s.rb
      sl := s.sl.erase f
      tp := upd s.tp f s.T
      log := s.log ++ [.fired f s.now, .ready f (s.prio f == .background) false] } := by
  unfold fire1 push
  cases hp : s.prio f <;> simp [h]

theorem init_inv (s : St) (h : init s) : Inv s := by
  obtain ⟨h1, h2, h3, h4, h5, h6, h7, h8, h9, h10, h11, h12, h13, h14, h15⟩ := h
  constructor <;> simp_all

theorem wake_inv (s : St) (f : Nat) (h : Inv s) (hp : s.pend f ≠ .none) (ha : f ≠ s.act) :
    Inv (wake s f) := by
  unfold wake
  split
  · exact h
  · rename_i hl
    have hl' := linked_iff s f
    rw [addReady_eq s f _ (by simpa using hl)]
    have hlive := h.lP f hp
    have hnt : f ∉ s.term := fun c => by have := h.lT f c; grind
    obtain ⟨h1, h2, h3, h4, h5, h6, h7, h8, h9, h10, h11, h12, h13, h14, h15, h16, h17, h18, h19, h20,
      h21, h22, h23, h24, h25, h26, h27, h28, h29, h30, h31⟩ := h
    generalize toFront s f = b
    have hsl : ∀ g, g ∈ s.sl.erase f ↔ g ≠ f ∧ g ∈ s.sl := fun g => h5.mem_erase_iff
    constructor
    all_goals dsimp only
    all_goals grind

theorem wake_frame (s : St) (f : Nat) : (wake s f).act = s.act ∧ (wake s f).pend = s.pend ∧
    (wake s f).remote = s.remote ∧ (wake s f).now = s.now ∧ (wake s f).T = s.T ∧
    (wake s f).tp = s.tp ∧ (wake s f).reg = s.reg ∧ (wake s f).prio = s.prio ∧
    (wake s f).life = s.life ∧ (wake s f).term = s.term := by
  unfold wake addReady push
  split
  · simp
  · cases s.prio f <;> simp

theorem pull1_frame (a : Option Nat) (s : St) (f : Nat) : (pull1 a s f).act = s.act ∧
    (pull1 a s f).pend = s.pend ∧ (pull1 a s f).remote = s.remote.erase f ∧
    (pull1 a s f).now = s.now ∧ (pull1 a s f).T = s.T ∧ (pull1 a s f).tp = s.tp ∧
    (pull1 a s f).reg = s.reg ∧ (pull1 a s f).prio = s.prio ∧ (pull1 a s f).life = s.life ∧
    (pull1 a s f).term = s.term := by
  unfold pull1
  dsimp only
  split
  · simp
  · simp [wake_frame]

theorem pull1_inv (a : Option Nat) (s : St) (f : Nat) (h : Inv s) (hf : f ∈ s.remote)
    (ha : (s.act = 0 ∧ a = none) ∨ a = some s.act) : Inv (pull1 a s f) := by
  have hp := h.qP f hf
  have he0 := h.e0
  unfold pull1
  dsimp only
  have key : ∀ g, g ∈ s.remote.erase f ↔ g ≠ f ∧ g ∈ s.remote := fun g => h.ndR.mem_erase_iff
  split
  · rename_i e
    have hfa : f = s.act := by grind
    obtain ⟨h1, h2, h3, h4, h5, h6, h7, h8, h9, h10, h11, h12, h13, h14, h15, h16, h17, h18, h19, h20,
      h21, h22, h23, h24, h25, h26, h27, h28, h29, h30, h31⟩ := h
    constructor
    all_goals dsimp only
    all_goals grind
  · rename_i e
    have hfa : f ≠ s.act := by grind
    have hlive := h.lP f hp
    have hnt : f ∉ s.term := fun c => by have := h.lT f c; grind
    unfold wake
    split
    · rename_i hl
      rw [linked_iff] at hl
      dsimp only at hl
      obtain ⟨h1, h2, h3, h4, h5, h6, h7, h8, h9, h10, h11, h12, h13, h14, h15, h16, h17, h18, h19, h20,
        h21, h22, h23, h24, h25, h26, h27, h28, h29, h30, h31⟩ := h
      constructor
      all_goals dsimp only
      all_goals grind
    · rename_i hl
      have hl' := linked_iff s f
      rw [addReady_eq _ f _ (by simpa using hl)]
      replace hl : ¬ linked s f = true := hl
      obtain ⟨h1, h2, h3, h4, h5, h6, h7, h8, h9, h10, h11, h12, h13, h14, h15, h16, h17, h18, h19, h20,
        h21, h22, h23, h24, h25, h26, h27, h28, h29, h30, h31⟩ := h
      generalize toFront _ f = b
      have hsl : ∀ g, g ∈ s.sl.erase f ↔ g ≠ f ∧ g ∈ s.sl := fun g => h5.mem_erase_iff
      constructor
      all_goals dsimp only
      all_goals grind

/-- An induction principle for the loop of `ProcessRemoteReady`. -/
theorem processRemote_induct (a : Option Nat) (P : St → Prop)
    (hstep : ∀ s f, P s → f ∈ s.remote → s.remote.Nodup → P (pull1 a s f)) (s : St) (h : P s)
    (hn : s.remote.Nodup) : P (processRemote a s) ∧ (processRemote a s).remote = [] := by
  unfold processRemote
  generalize hl : s.remote = l
  induction l generalizing s with
  | nil => exact ⟨h, hl⟩
  | cons f l ih =>
    simp only [List.foldl_cons]
    have hr : (pull1 a s f).remote = l := by
      rw [(pull1_frame a s f).2.2.1, hl]; simp
    refine ih _ (hstep s f h (by rw [hl]; simp) hn) ?_ hr
    rw [hr]; rw [hl] at hn; exact (List.nodup_cons.1 hn).2

theorem processRemote_inv (a : Option Nat) (s : St) (h : Inv s) (ha : (s.act = 0 ∧ a = none) ∨ a = some s.act) :
    Inv (processRemote a s) ∧ (processRemote a s).act = s.act ∧ (processRemote a s).remote = [] ∧
    (processRemote a s).pend = s.pend ∧ (processRemote a s).tp = s.tp ∧
    (processRemote a s).T = s.T ∧ (processRemote a s).now = s.now ∧ (processRemote a s).reg = s.reg := by
  have := processRemote_induct a (fun s' => Inv s' ∧ s'.act = s.act ∧ s'.pend = s.pend ∧ s'.tp = s.tp ∧
    s'.T = s.T ∧ s'.now = s.now ∧ s'.reg = s.reg)
    (fun s' f h' hf _ => by
      have hfr := pull1_frame a s' f
      refine ⟨pull1_inv a s' f h'.1 hf (by rw [h'.2.1]; exact ha), ?_⟩
      obtain ⟨e1, e2, e3, e4, e5, e6, e7, _⟩ := hfr
      rw [e1, e2, e4, e5, e6, e7]
      exact h'.2) s ⟨h, rfl, rfl, rfl, rfl, rfl, rfl⟩ h.ndR
  obtain ⟨⟨h1, h2, h3, h4, h5, h6, h7⟩, h8⟩ := this
  exact ⟨h1, h2, h8, h3, h4, h5, h6, h7⟩

theorem fire1_inv (s : St) (f : Nat) (h : Inv s) (hf : f ∈ s.sl) : Inv (fire1 s f) := by
  have hlive := h.lS f hf
  have hnt : f ∉ s.term := fun c => by have := h.lT f c; grind
  have hl : linked s f = false := by
    have h1 := linked_iff s f
    have h2 := h.nS f
    have h3 := h.bS f
    grind
  rw [fire1_eq s f hl]
  obtain ⟨h1, h2, h3, h4, h5, h6, h7, h8, h9, h10, h11, h12, h13, h14, h15, h16, h17, h18, h19, h20,
    h21, h22, h23, h24, h25, h26, h27, h28, h29, h30, h31⟩ := h
  have hsl : ∀ g, g ∈ s.sl.erase f ↔ g ≠ f ∧ g ∈ s.sl := fun g => h5.mem_erase_iff
  have hn := @nodup_push s.rn f false h3
  have hb := @nodup_push s.rb f false h4
  clear hl
  constructor
  all_goals dsimp only
  all_goals grind

theorem fire1_frame (s : St) (f : Nat) : (fire1 s f).act = s.act ∧ (fire1 s f).pend = s.pend ∧
    (fire1 s f).remote = s.remote ∧ (fire1 s f).now = s.now ∧ (fire1 s f).T = s.T ∧
    (fire1 s f).tp = upd s.tp f s.T ∧ (fire1 s f).reg = s.reg ∧ (fire1 s f).prio = s.prio ∧
    (fire1 s f).sl = s.sl.erase f := by
  unfold fire1 push
  cases s.prio f <;> simp

/-- An induction principle for the loop of `ProcessSleep`. -/
theorem fold_fire_induct (P : St → Prop)
    (hstep : ∀ s f, P s → f ∈ s.sl → s.tp f ≤ s.now → P (fire1 s f)) (l : List Nat) (s : St) (h : P s)
    (hn : l.Nodup) (hs : ∀ f ∈ l, f ∈ s.sl ∧ s.tp f ≤ s.now) : P (l.foldl fire1 s) := by
  induction l generalizing s with
  | nil => exact h
  | cons f l ih =>
    simp only [List.foldl_cons]
    have hfr := fire1_frame s f
    refine ih _ (hstep s f h (hs f (by simp)).1 (hs f (by simp)).2) (List.nodup_cons.1 hn).2 ?_
    intro g hg
    have hgf : g ≠ f := by rintro rfl; exact (List.nodup_cons.1 hn).1 hg
    have := hs g (by simp [hg])
    rw [hfr.2.2.2.2.2.2.2.2, hfr.2.2.2.2.2.1, hfr.2.2.2.1, upd_ne _ _ hgf]
    exact ⟨(List.mem_erase_of_ne hgf).2 this.1, this.2⟩

theorem mem_takeWhile {p : Nat → Bool} {l : List Nat} {f : Nat} (h : f ∈ l.takeWhile p) :
    p f = true := by
  induction l with
  | nil => simp at h
  | cons a l ih =>
    rw [List.takeWhile_cons] at h
    split at h
    · rename_i hp
      rcases List.mem_cons.1 h with rfl | h
      · exact hp
      · exact ih h
    · simp at h

theorem due_mem (s : St) (f : Nat) (h : f ∈ due s) : f ∈ s.sl ∧ s.tp f ≤ s.now := by
  unfold due at h
  exact ⟨List.takeWhile_subset _ h, by simpa using mem_takeWhile h⟩

theorem due_nodup (s : St) (h : s.sl.Nodup) : (due s).Nodup :=
  h.sublist (List.takeWhile_sublist _)

theorem processSleep_induct (P : St → Prop)
    (hstep : ∀ s f, P s → f ∈ s.sl → s.tp f ≤ s.now → P (fire1 s f)) (s : St) (h : P s)
    (hn : s.sl.Nodup) : P (processSleep s) :=
  fold_fire_induct P hstep _ s h (due_nodup s hn) (due_mem s)

theorem processSleep_inv (s : St) (h : Inv s) : Inv (processSleep s) :=
  processSleep_induct Inv (fun s f h hf _ => fire1_inv s f h hf) s h h.ndS

/-- The invariant while no fiber runs: the one that ran has been put away. -/
structure Off (s : St) : Prop where
  nbad : s.bad = false
  ncrash : s.crash = false
  ndN : s.rn.Nodup
  ndB : s.rb.Nodup
  ndS : s.sl.Nodup
  ndT : s.term.Nodup
  ndR : s.remote.Nodup
  nB : ∀ f, f ∈ s.rn → f ∉ s.rb
  nS : ∀ f, f ∈ s.rn → f ∉ s.sl
  bS : ∀ f, f ∈ s.rb → f ∉ s.sl
  pN : ∀ f, f ∈ s.rn → s.prio f ≠ .background
  pB : ∀ f, f ∈ s.rb → s.prio f = .background
  p0 : s.prio 0 ≠ .background
  s0 : 0 ∉ s.sl
  l0 : s.life 0 = .live
  e0 : s.pend 0 = .none
  lN : ∀ f, f ∈ s.rn → s.life f = .live
  lB : ∀ f, f ∈ s.rb → s.life f = .live
  lS : ∀ f, f ∈ s.sl → s.life f = .live
  lT : ∀ f, f ∈ s.term → s.life f = .dead
  lP : ∀ f, s.pend f ≠ .none → s.life f = .live
  rP : ∀ f, s.reg f = true → s.pend f ≠ .none
  qP : ∀ f, f ∈ s.remote → s.pend f ≠ .none
  qR : ∀ f, f ∈ s.remote → s.reg f = false
  lost : ∀ f, f ≠ 0 → s.life f = .live →
    f ∈ s.rn ∨ f ∈ s.rb ∨ f ∈ s.sl ∨ s.reg f = true ∨ f ∈ s.remote

theorem off_next (s : St) (h : Off s) (h0 : 0 ∈ s.rn) (ha : s.rn.head? ≠ some s.act) :
    Inv (switchNext s) := by
  obtain ⟨h1, h2, h3, h4, h5, h6, h7, h8, h9, h10, h11, h12, h13, h14, h15, h16, h17, h18, h19, h20,
    h21, h22, h23, h24, h25⟩ := h
  unfold switchNext switchTo
  split
  · simp_all
  · rename_i x l hl
    simp only [hl, List.head?_cons, ne_eq, Option.some.injEq] at ha
    rw [hl] at h3 h8 h9 h0 h11 h17 h25
    have hx : (s.act == x) = false := by simp; exact fun c => ha c.symm
    constructor
    all_goals dsimp only
    all_goals grind

theorem off_disp (s : St) (h : Off s) (h0 : 0 ∉ s.rn) (ha : s.act ≠ 0) : Inv (switchTo s 0) := by
  obtain ⟨h1, h2, h3, h4, h5, h6, h7, h8, h9, h10, h11, h12, h13, h14, h15, h16, h17, h18, h19, h20,
    h21, h22, h23, h24, h25⟩ := h
  unfold switchTo
  have hx : (s.act == 0) = false := by simpa using ha
  constructor
  all_goals dsimp only
  all_goals grind

theorem off_preempt (s : St) (h : Off s) (ha : s.act ≠ 0)
    (hn : s.prio s.act ≠ .background → 0 ∈ s.rn ∧ s.rn.head? ≠ some s.act)
    (hb : s.prio s.act = .background → 0 ∉ s.rn) : Inv (preempt s) := by
  unfold preempt
  split
  · rename_i hp; exact off_disp s h (hb hp) ha
  · rename_i hp; exact off_next s h (hn hp).1 (hn hp).2

/-- Putting the running fiber away into a ready queue. -/
theorem off_add (s : St) (h : Inv s) : Off (addReady s s.act false) ∨ s.act = 0 := by
  by_cases h0 : s.act = 0
  · exact Or.inr h0
  left
  have hl : linked s s.act = false := by
    have h1 := linked_iff s s.act
    have h2 := h.lT s.act
    have h3 := h.lA
    have h4 := h.aN
    have h5 := h.aB
    grind
  rw [addReady_eq _ _ _ hl]
  obtain ⟨h1, h2, h3, h4, h5, h6, h7, h8, h9, h10, h11, h12, h13, h14, h15, h16, h17, h18, h19, h20,
    h21, h22, h23, h24, h25, h26, h27, h28, h29, h30, h31⟩ := h
  have hsl : s.sl.erase s.act = s.sl := List.erase_of_not_mem h13
  rw [hsl]
  have hn := @nodup_push s.rn s.act false h3
  have hb := @nodup_push s.rb s.act false h4
  clear hl
  constructor
  all_goals dsimp only
  all_goals grind

theorem act_linked (s : St) (h : Inv s) : linked s s.act = false := by
  have h1 := linked_iff s s.act
  have h2 := h.lT s.act
  have h3 := h.lA
  have h4 := h.aN
  have h5 := h.aB
  grind

theorem head_ne {l : List Nat} {a : Nat} (h : a ∉ l) : l.head? ≠ some a := by
  cases l <;> simp_all; exact fun c => h.1 c.symm

theorem yield_inv (s : St) (h : Inv s) (ha : s.act ≠ 0) : Inv (preempt (addReady s s.act false)) := by
  have ho := (off_add s h).resolve_right ha
  have hl := act_linked s h
  rw [addReady_eq _ _ _ hl] at ho ⊢
  refine off_preempt _ ho ha ?_ ?_
  · dsimp only
    intro hp
    have := h.disp ha hp
    have h2 := h.aN
    simp only [hp, if_false, Bool.false_eq_true]
    refine ⟨by simp [this], ?_⟩
    cases hr : s.rn with
    | nil => simp [hr] at this
    | cons x l =>
      simp only [List.cons_append, List.head?_cons, ne_eq, Option.some.injEq]
      rintro rfl
      simp [hr] at h2
  · dsimp only
    intro hp
    have := h.dbg hp
    simpa [hp] using this

/-- Putting the running fiber to sleep (a timed wait, or a background fiber that yields). -/
theorem sleep_inv (s : St) (h : Inv s) (ha : s.act ≠ 0) (tp : Nat → Nat) (e : Pend) (r : Bool)
    (l : List Ev) (hr : r = true → e ≠ .none) (hre : s.act ∉ s.remote) :
    Inv (preempt { s with
      pend := upd s.pend s.act e, reg := upd s.reg s.act r, tp := tp,
      sl := insSleep tp s.act s.sl, log := l }) := by
  have hm := mem_insSleep tp s.act
  have hnd := nodup_insSleep tp s.act s.sl h.ndS h.aS
  refine off_preempt _ ?_ ha ?_ ?_
  · obtain ⟨h1, h2, h3, h4, h5, h6, h7, h8, h9, h10, h11, h12, h13, h14, h15, h16, h17, h18, h19, h20,
      h21, h22, h23, h24, h25, h26, h27, h28, h29, h30, h31⟩ := h
    constructor
    all_goals dsimp only
    all_goals try simp only [upd_apply]
    all_goals grind
  · exact fun hp => ⟨h.disp ha hp, head_ne h.aN⟩
  · exact fun hp => h.dbg hp

theorem suspend_inv (s : St) (h : Inv s) (ha : s.act ≠ 0) (hre : s.act ∉ s.remote) :
    Inv (preempt { s with pend := upd s.pend s.act .plain, reg := upd s.reg s.act true }) := by
  refine off_preempt _ ?_ ha ?_ ?_
  · obtain ⟨h1, h2, h3, h4, h5, h6, h7, h8, h9, h10, h11, h12, h13, h14, h15, h16, h17, h18, h19, h20,
      h21, h22, h23, h24, h25, h26, h27, h28, h29, h30, h31⟩ := h
    constructor
    all_goals dsimp only
    all_goals try simp only [upd_apply]
    all_goals grind
  · exact fun hp => ⟨h.disp ha hp, head_ne h.aN⟩
  · exact fun hp => h.dbg hp

theorem terminate_inv (s : St) (h : Inv s) (ha : s.act ≠ 0) (he : s.pend s.act = .none) :
    Inv (preempt { s with
        bad := s.bad || linked s s.act, term := s.term ++ [s.act],
        life := upd s.life s.act .dead }) := by
  have hl := act_linked s h
  refine off_preempt _ ?_ ha ?_ ?_
  · obtain ⟨h1, h2, h3, h4, h5, h6, h7, h8, h9, h10, h11, h12, h13, h14, h15, h16, h17, h18, h19, h20,
      h21, h22, h23, h24, h25, h26, h27, h28, h29, h30, h31⟩ := h
    have hn := @nodup_push s.term s.act false h6
    rw [hl, h1]
    clear hl
    constructor
    all_goals dsimp only
    all_goals try simp only [upd_apply]
    all_goals grind
  · exact fun hp => ⟨h.disp ha hp, head_ne h.aN⟩
  · exact fun hp => h.dbg hp

theorem migrate_inv (s : St) (h : Inv s) (ha : s.act ≠ 0) (he : s.pend s.act = .none) :
    Inv (switchTo { s with rn := s.rn.erase 0, life := upd s.life s.act .away } 0) := by
  obtain ⟨h1, h2, h3, h4, h5, h6, h7, h8, h9, h10, h11, h12, h13, h14, h15, h16, h17, h18, h19, h20,
    h21, h22, h23, h24, h25, h26, h27, h28, h29, h30, h31⟩ := h
  have hm : ∀ g, g ∈ s.rn.erase 0 ↔ g ≠ 0 ∧ g ∈ s.rn := fun g => h3.mem_erase_iff
  have hnd := h3.erase 0
  refine off_disp _ ?_ ?_ ha
  · constructor
    all_goals dsimp only
    all_goals try simp only [upd_apply]
    all_goals grind
  · dsimp only; grind

theorem finish_inv (s : St) (h : Inv s) (hr : s.act ∉ s.remote) (l : List Ev) :
    Inv { s with pend := upd s.pend s.act .none, reg := upd s.reg s.act false, log := l } := by
  obtain ⟨h1, h2, h3, h4, h5, h6, h7, h8, h9, h10, h11, h12, h13, h14, h15, h16, h17, h18, h19, h20,
    h21, h22, h23, h24, h25, h26, h27, h28, h29, h30, h31⟩ := h
  constructor
  all_goals dsimp only
  all_goals try simp only [upd_apply]
  all_goals grind

theorem runNormal_inv (s : St) (h : Inv s) (ha : s.act = 0) (f : Nat) (l : List Nat)
    (hl : s.rn = f :: l) : Inv (switchTo (addReady { s with rn := l } 0 false) f) := by
  have h0 := act_linked s h
  have hlk : linked { s with rn := l } 0 = false := by
    have h1 := linked_iff s 0
    have h2 := linked_iff { s with rn := l } 0
    rw [ha] at h0
    grind
  rw [addReady_eq _ _ _ hlk]
  obtain ⟨h1, h2, h3, h4, h5, h6, h7, h8, h9, h10, h11, h12, h13, h14, h15, h16, h17, h18, h19, h20,
    h21, h22, h23, h24, h25, h26, h27, h28, h29, h30, h31⟩ := h
  have hsl : s.sl.erase 0 = s.sl := List.erase_of_not_mem h19
  clear hlk h0
  unfold switchTo
  have hx : (s.act == f) = false := by grind
  have hn := @nodup_push l 0 false
  rw [hl] at h3 h8 h9 h11 h14 h17 h22 h31
  rw [ha] at h11 h12 h13 h16 h17 h25 h31 hx
  simp only [if_neg h18, hsl, ha, hx]
  constructor
  all_goals dsimp only
  all_goals grind

theorem runBack_inv (s : St) (h : Inv s) (ha : s.act = 0) (f : Nat) (l : List Nat)
    (hl : s.rb = f :: l) : Inv (switchTo { s with rb := l } f) := by
  obtain ⟨h1, h2, h3, h4, h5, h6, h7, h8, h9, h10, h11, h12, h13, h14, h15, h16, h17, h18, h19, h20,
    h21, h22, h23, h24, h25, h26, h27, h28, h29, h30, h31⟩ := h
  unfold switchTo
  have hx : (s.act == f) = false := by grind
  rw [hl] at h4 h8 h10 h12 h15 h23 h31
  rw [ha] at h11 h12 h13 h16 h17 h25 h31 hx
  simp only [ha, hx]
  constructor
  all_goals dsimp only
  all_goals grind

theorem notifyRemote_inv (s : St) (h : Inv s) (f : Nat) (hr : s.reg f = true) (l : List Ev) :
    Inv { s with reg := upd s.reg f false, remote := s.remote ++ [f], log := l } := by
  obtain ⟨h1, h2, h3, h4, h5, h6, h7, h8, h9, h10, h11, h12, h13, h14, h15, h16, h17, h18, h19, h20,
    h21, h22, h23, h24, h25, h26, h27, h28, h29, h30, h31⟩ := h
  have hn := @nodup_push s.remote f false h7
  constructor
  all_goals dsimp only
  all_goals try simp only [upd_apply]
  all_goals grind

/-- A new fiber appears in a ready queue. -/
theorem add_new_inv (s : St) (h : Inv s) (f : Nat) (p : Prio) (b : Bool) (hf : s.life f ≠ .live)
    (hd : s.life f ≠ .dead) : Inv (addReady (create s f p) f b) := by
  have hlk : linked (create s f p) f = false := by
    have h2 := linked_iff (create s f p) f
    have h3 := h.lN f
    have h4 := h.lB f
    have h5 := h.lT f
    unfold create at *
    grind
  rw [addReady_eq _ _ _ hlk]
  clear hlk
  obtain ⟨h1, h2, h3, h4, h5, h6, h7, h8, h9, h10, h11, h12, h13, h14, h15, h16, h17, h18, h19, h20,
    h21, h22, h23, h24, h25, h26, h27, h28, h29, h30, h31⟩ := h
  have hn := @nodup_push s.rn f b h3
  have hb := @nodup_push s.rb f b h4
  have hsl : s.sl.erase f = s.sl := List.erase_of_not_mem (by grind)
  unfold create
  dsimp only
  rw [hsl]
  simp only [upd_same]
  constructor
  all_goals dsimp only
  all_goals try simp only [upd_apply]
  all_goals grind

theorem dispatch_inv (s : St) (h : Inv s) (f : Nat) (p : Prio) (hf : s.life f = .fresh)
    (hp : p = .background ↔ s.prio s.act = .background) :
    Inv (switchTo (addReady (create s f p) s.act false) f) := by
  have hfa : f ≠ s.act := by have := h.lA; grind
  have hlk : linked (create s f p) s.act = false := act_linked s h
  rw [addReady_eq _ _ _ hlk]
  clear hlk
  obtain ⟨h1, h2, h3, h4, h5, h6, h7, h8, h9, h10, h11, h12, h13, h14, h15, h16, h17, h18, h19, h20,
    h21, h22, h23, h24, h25, h26, h27, h28, h29, h30, h31⟩ := h
  have hn := @nodup_push s.rn s.act false h3
  have hb := @nodup_push s.rb s.act false h4
  have hsl : s.sl.erase s.act = s.sl := List.erase_of_not_mem h13
  have hx : (s.act == f) = false := by simpa using fun c => hfa c.symm
  unfold create switchTo
  dsimp only
  rw [hsl, hx]
  simp only [upd_ne s.prio p (Ne.symm hfa)]
  constructor
  all_goals dsimp only
  all_goals try simp only [upd_apply]
  all_goals grind

theorem notify_inv (s : St) (h : Inv s) (f : Nat) (l : List Ev) (hr : s.reg f = true)
    (hfa : f ≠ s.act) : Inv (wake { s with reg := upd s.reg f false, log := l } f) := by
  have hp := h.rP f hr
  have hlive := h.lP f hp
  have hnt : f ∉ s.term := fun c => by have := h.lT f c; grind
  have he0 := h.e0
  unfold wake
  split
  · rename_i hl
    rw [linked_iff] at hl
    dsimp only at hl
    obtain ⟨h1, h2, h3, h4, h5, h6, h7, h8, h9, h10, h11, h12, h13, h14, h15, h16, h17, h18, h19, h20,
      h21, h22, h23, h24, h25, h26, h27, h28, h29, h30, h31⟩ := h
    constructor
    all_goals dsimp only
    all_goals try simp only [upd_apply]
    all_goals grind
  · rename_i hl
    have hl' := linked_iff s f
    rw [addReady_eq _ f _ (by simpa using hl)]
    replace hl : ¬ linked s f = true := hl
    obtain ⟨h1, h2, h3, h4, h5, h6, h7, h8, h9, h10, h11, h12, h13, h14, h15, h16, h17, h18, h19, h20,
      h21, h22, h23, h24, h25, h26, h27, h28, h29, h30, h31⟩ := h
    generalize toFront _ f = b
    have hsl : ∀ g, g ∈ s.sl.erase f ↔ g ≠ f ∧ g ∈ s.sl := fun g => h5.mem_erase_iff
    constructor
    all_goals dsimp only
    all_goals try simp only [upd_apply]
    all_goals grind

theorem upd_eta {β : Type} (f : Nat → β) (i : Nat) : upd f i (f i) = f := by
  funext j; simp only [upd_apply]; split <;> simp_all

theorem user_iff (s : St) : user s = true ↔ s.act ≠ 0 ∧ s.pend s.act = .none := by
  simp [user]

theorem step_inv (s s' : St) (a : Act) (h : Inv s) (hal : Allowed s a) (hs : step s a = some s') :
    Inv s' := by
  unfold step at hs
  rw [if_neg (by rw [h.nbad, h.ncrash]; simp)] at hs
  have hrem : s.pend s.act = .none → s.act ∉ s.remote := fun e c => h.qP _ c e
  cases a with
  | yield =>
    simp only [stepUser, Option.ite_none_right_eq_some, Option.some.injEq, user_iff] at hs
    obtain ⟨hu, rfl⟩ := hs
    exact yield_inv s h hu.1
  | yieldKeep =>
    simp only [stepUser, Option.ite_none_right_eq_some, Option.some.injEq] at hs
    obtain ⟨hu, rfl⟩ := hs
    exact h
  | yieldSleep t =>
    simp only [stepUser, Option.ite_none_right_eq_some, Option.some.injEq, Bool.and_eq_true,
      user_iff] at hs
    obtain ⟨hu, rfl⟩ := hs
    have hreg : s.reg s.act = false := by
      cases hc : s.reg s.act
      · rfl
      · exact absurd hu.1.2 (h.rP _ hc)
    have := sleep_inv s h hu.1.1 (upd s.tp s.act t) (s.pend s.act) (s.reg s.act) s.log
      (fun c => h.rP _ c) (hrem hu.1.2)
    rw [upd_eta, upd_eta] at this
    exact this
  | suspend =>
    simp only [stepUser, Option.ite_none_right_eq_some, Option.some.injEq, user_iff] at hs
    obtain ⟨hu, rfl⟩ := hs
    exact suspend_inv s h hu.1 (hrem hu.2)
  | waitUntil d =>
    simp only [stepUser, Option.ite_none_right_eq_some, Option.some.injEq, Bool.and_eq_true,
      user_iff] at hs
    obtain ⟨hu, rfl⟩ := hs
    exact sleep_inv s h hu.1.1 _ _ true _ (fun _ => by simp) (hrem hu.1.2)
  | finish =>
    simp only [stepUser, Option.ite_none_right_eq_some, Option.some.injEq] at hs
    obtain ⟨hu, rfl⟩ := hs
    split
    · have hp := processRemote_inv (some s.act) s h (Or.inr rfl)
      exact finish_inv _ hp.1 (by rw [hp.2.2.1]; simp) _
    · rename_i hc
      exact finish_inv s h (by simpa using hc) _
  | terminate =>
    simp only [stepUser, Option.ite_none_right_eq_some, Option.some.injEq, Bool.and_eq_true,
      user_iff] at hs
    obtain ⟨hu, rfl⟩ := hs
    exact terminate_inv s h hu.1.1 hu.1.2
  | migrate =>
    simp only [stepUser, Option.ite_none_right_eq_some, Bool.and_eq_true, user_iff] at hs
    obtain ⟨hu, hs⟩ := hs
    have hl : linked s 0 = true := (linked_iff s 0).2 (Or.inl (h.disp hu.1.1 hal))
    rw [if_pos hl] at hs
    cases hs
    exact migrate_inv s h hu.1.1 hu.1.2
  | post f p =>
    simp only [stepBoth, Option.ite_none_right_eq_some, Option.some.injEq] at hs
    obtain ⟨hu, rfl⟩ := hs
    exact add_new_inv s h f p _ (by rw [hu.2]; simp) (by rw [hu.2]; simp)
  | dispatch f p =>
    simp only [stepBoth, Option.ite_none_right_eq_some, Option.some.injEq] at hs
    obtain ⟨hu, rfl⟩ := hs
    exact dispatch_inv s h f p hu.2 hal
  | notify f =>
    simp only [stepBoth, Option.ite_none_right_eq_some, Option.some.injEq, user_iff] at hs
    obtain ⟨hu, rfl⟩ := hs
    have hp := h.rP f hu.2
    have hfa : f ≠ s.act := by
      rintro rfl
      rcases hu.1 with hu | hu
      · exact hp hu.2
      · exact hp (hu ▸ h.e0)
    exact notify_inv s h f _ hu.2 hfa
  | remoteReady =>
    simp only [stepDisp, Option.ite_none_right_eq_some, Option.some.injEq] at hs
    obtain ⟨hu, rfl⟩ := hs
    exact (processRemote_inv none s h (Or.inl ⟨hu, rfl⟩)).1
  | sleepers =>
    simp only [stepDisp, Option.ite_none_right_eq_some, Option.some.injEq] at hs
    obtain ⟨hu, rfl⟩ := hs
    exact processSleep_inv s h
  | runNormal =>
    simp only [stepDisp, Option.ite_none_right_eq_some] at hs
    obtain ⟨hu, hs⟩ := hs
    split at hs
    · cases hs
    · rename_i f l hl
      cases hs
      exact runNormal_inv s h hu f l hl
  | runBackground =>
    simp only [stepDisp, Option.ite_none_right_eq_some] at hs
    obtain ⟨hu, hs⟩ := hs
    split at hs
    · cases hs
    · rename_i f l hl
      cases hs
      exact runBack_inv s h hu f l hl
  | destroy =>
    simp only [stepDisp, Option.ite_none_right_eq_some, Option.some.injEq] at hs
    obtain ⟨hu, rfl⟩ := hs
    obtain ⟨h1, h2, h3, h4, h5, h6, h7, h8, h9, h10, h11, h12, h13, h14, h15, h16, h17, h18, h19, h20,
      h21, h22, h23, h24, h25, h26, h27, h28, h29, h30, h31⟩ := h
    constructor <;> first | assumption | simp
  | attach f p =>
    simp only [stepDisp, Option.ite_none_right_eq_some, Option.some.injEq] at hs
    obtain ⟨hu, rfl⟩ := hs
    exact add_new_inv s h f p _ (by grind) (by grind)
  | notifyRemote f =>
    simp only [stepDisp, Option.ite_none_right_eq_some, Option.some.injEq] at hs
    obtain ⟨hu, rfl⟩ := hs
    exact notifyRemote_inv s h f hu _
  | tick t =>
    simp only [stepDisp, Option.ite_none_right_eq_some, Option.some.injEq] at hs
    obtain ⟨hu, rfl⟩ := hs
    obtain ⟨h1, h2, h3, h4, h5, h6, h7, h8, h9, h10, h11, h12, h13, h14, h15, h16, h17, h18, h19, h20,
      h21, h22, h23, h24, h25, h26, h27, h28, h29, h30, h31⟩ := h
    constructor <;> assumption

theorem reach_inv (s : St) (h : ReachA s) : Inv s := by
  induction h with
  | init hi => exact init_inv _ hi
  | step _ ha hs ih => exact step_inv _ _ _ ih ha hs

end Verif.Sched
