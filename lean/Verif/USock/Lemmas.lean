import Verif.USock.Spec
/-! Invariants of the io_uring sockets. -/
namespace Verif.USock
open Verif.Common

theorem upd_self {β : Type} (f : Nat → β) (i : Nat) (v : β) : upd f i v i = v := by simp [upd]

/-! ### The word -/

theorem shifted_mk (fd : Nat) (u : Bool) : shifted (mkWord fd u) = fd := by
  unfold shifted mkWord
  cases u <;> simp <;> omega

theorem mk_nonneg (fd : Nat) (u : Bool) : 0 ≤ mkWord fd u := by
  unfold mkWord
  cases u <;> simp <;> omega

theorem mk_flags (fd : Nat) (u : Bool) : mkWord fd u % 16 < 4 := by
  unfold mkWord
  cases u <;> simp <;> omega

theorem shut_mk (fd : Nat) (u : Bool) : isShut (mkWord fd u) = false := by
  unfold isShut mkWord
  cases u <;> simp <;> omega

theorem uds_mk (fd : Nat) (u : Bool) : isUds (mkWord fd u) = u := by
  unfold isUds mkWord
  cases u <;> simp <;> omega

theorem shifted_set (w : Int) : shifted (setShut w) = shifted w := by
  unfold setShut shifted
  split <;> omega

theorem shut_set (w : Int) : isShut (setShut w) = true := by
  unfold setShut isShut
  split <;> simp <;> omega

theorem uds_set (w : Int) : isUds (setShut w) = isUds w := by
  unfold setShut isUds
  split
  · rfl
  · have : (w + 1) / 2 = w / 2 := by omega
    rw [this]

theorem set_nonneg {w : Int} (h : 0 ≤ w) : 0 ≤ setShut w := by
  unfold setShut
  split <;> omega

theorem set_flags {w : Int} (h : w % 16 < 4) : setShut w % 16 < 4 := by
  unfold setShut
  split <;> omega

/-! ### Ownership of descriptors -/

/-- Socket `o` holds descriptor `fd` with file `f`. -/
def Holds (s : S) (o fd f : Nat) : Prop :=
  0 ≤ s.word o ∧ shifted (s.word o) = (fd : Int) ∧ s.tab fd = some f ∧ s.mine o = some f ∧ fd < 2 ^ 27

structure Own (s : S) : Prop where
  each : ∀ o, (s.word o = -1 ∧ s.mine o = none) ∨ ∃ fd f, Holds s o fd f
  all : ∀ fd f, s.tab fd = some f → f < s.nextFile ∧ ∃ o, Holds s o fd f
  inj : ∀ fd fd' f, s.tab fd = some f → s.tab fd' = some f → fd = fd'
  one : ∀ o o' f, s.mine o = some f → s.mine o' = some f → o = o'

theorem own_opened {s : S} (h : Own s) {o fd : Nat} (u : Bool) (h1 : s.tab fd = none) (h2 : fd < 2 ^ 27) (h3 : s.word o = -1) :
    Own (s.opened o fd u) := by
  have hm : s.mine o = none := by
    rcases h.each o with h | ⟨fd', f, h⟩
    · exact h.2
    · have := h.1; omega
  have hlt : ∀ o' f, s.mine o' = some f → f < s.nextFile := by
    intro o' f hf
    rcases h.each o' with h' | ⟨fd', f', h'⟩
    · rw [h'.2] at hf; cases hf
    · have := h'.2.2.2.1
      rw [hf] at this; cases this
      exact (h.all fd' f h'.2.2.1).1
  have keep : ∀ o' fd' f', o' ≠ o → Holds s o' fd' f' → Holds (s.opened o fd u) o' fd' f' := by
    intro o' fd' f' hne ⟨a, b, c, d, e⟩
    have hfd : fd' ≠ fd := fun e => by rw [e, h1] at c; cases c
    exact ⟨by simpa [S.opened, upd_ne _ _ hne] using a, by simpa [S.opened, upd_ne _ _ hne] using b,
      by simpa [S.opened, upd_ne _ _ hfd] using c, by simpa [S.opened, upd_ne _ _ hne] using d, e⟩
  have new : Holds (s.opened o fd u) o fd s.nextFile :=
    ⟨by simpa [S.opened, upd_self] using mk_nonneg fd u, by simpa [S.opened, upd_self] using shifted_mk fd u,
     by simp [S.opened, upd_self], by simp [S.opened, upd_self], h2⟩
  refine ⟨fun o' => ?_, fun fd' f' ht => ?_, fun a b f' ha hb => ?_, fun a b f' ha hb => ?_⟩
  · by_cases e : o' = o
    · subst e; exact Or.inr ⟨fd, _, new⟩
    · rcases h.each o' with ⟨a, b⟩ | ⟨fd', f', h'⟩
      · exact Or.inl ⟨by simpa [S.opened, upd_ne _ _ e] using a, by simpa [S.opened, upd_ne _ _ e] using b⟩
      · exact Or.inr ⟨fd', f', keep o' fd' f' e h'⟩
  · by_cases e : fd' = fd
    · subst e
      have : f' = s.nextFile := by simpa [S.opened, upd_self, eq_comm] using ht
      subst this
      exact ⟨Nat.lt_succ_self _, o, new⟩
    · have ht' : s.tab fd' = some f' := by simpa [S.opened, upd_ne _ _ e] using ht
      obtain ⟨hl, o', h'⟩ := h.all fd' f' ht'
      refine ⟨Nat.lt_succ_of_lt hl, o', keep o' fd' f' (fun e => ?_) h'⟩
      subst e
      have := h'.1; omega
  · by_cases e : a = fd
    · subst e
      have hf : f' = s.nextFile := by simpa [S.opened, upd_self, eq_comm] using ha
      by_cases e' : b = a
      · exact e'.symm
      · have hb' : s.tab b = some f' := by simpa [S.opened, upd_ne _ _ e'] using hb
        have := (h.all b f' hb').1
        omega
    · have ha' : s.tab a = some f' := by simpa [S.opened, upd_ne _ _ e] using ha
      by_cases e' : b = fd
      · subst e'
        have hf : f' = s.nextFile := by simpa [S.opened, upd_self, eq_comm] using hb
        have := (h.all a f' ha').1
        omega
      · exact h.inj a b f' ha' (by simpa [S.opened, upd_ne _ _ e'] using hb)
  · by_cases e : a = o
    · subst e
      have hf : f' = s.nextFile := by simpa [S.opened, upd_self, eq_comm] using ha
      by_cases e' : b = a
      · exact e'.symm
      · have := hlt b f' (by simpa [S.opened, upd_ne _ _ e'] using hb)
        omega
    · have ha' : s.mine a = some f' := by simpa [S.opened, upd_ne _ _ e] using ha
      by_cases e' : b = o
      · subst e'
        have hf : f' = s.nextFile := by simpa [S.opened, upd_self, eq_comm] using hb
        have := hlt a f' ha'
        omega
      · exact h.one a b f' ha' (by simpa [S.opened, upd_ne _ _ e'] using hb)

theorem own_close {s : S} (h : Own s) (o : Nat) : Own (s.close o) := by
  unfold S.close
  split
  · exact h
  · rename_i hw
    rcases h.each o with h' | ⟨fd, f, ho⟩
    · exact absurd (by omega : s.word o < 0) hw
    · obtain ⟨h0, hs, ht, hm, hb⟩ := ho
      have e : (shifted (s.word o)).toNat = fd := by omega
      rw [e]
      have keep : ∀ o' fd' f', o' ≠ o → Holds s o' fd' f' → fd' ≠ fd := by
        intro o' fd' f' hne ⟨_, _, c, d, _⟩ e
        subst e
        rw [ht] at c; cases c
        exact hne (h.one o' o f d hm)
      refine ⟨fun o' => ?_, fun fd' f' ht' => ?_, fun a b f' ha hb' => ?_, fun a b f' ha hb' => ?_⟩
      · by_cases e' : o' = o
        · subst e'; exact Or.inl ⟨upd_self .., upd_self ..⟩
        · rcases h.each o' with ⟨a, b⟩ | ⟨fd', f', h'⟩
          · exact Or.inl ⟨by rw [← a]; exact upd_ne _ _ e', by rw [← b]; exact upd_ne _ _ e'⟩
          · have hn := keep o' fd' f' e' h'
            obtain ⟨x, y, z, w, v⟩ := h'
            exact Or.inr ⟨fd', f', by show 0 ≤ upd s.word o (-1) o'; rwa [upd_ne _ _ e'],
              by show shifted (upd s.word o (-1) o') = _; rwa [upd_ne _ _ e'], by show upd s.tab fd none fd' = _; rwa [upd_ne _ _ hn],
              by show upd s.mine o none o' = _; rwa [upd_ne _ _ e'], v⟩
      · have hne : fd' ≠ fd := fun e => by
          subst e
          have : upd s.tab fd' none fd' = some f' := ht'
          rw [upd_self] at this; cases this
        have ht2 : s.tab fd' = some f' := by
          have : upd s.tab fd none fd' = some f' := ht'
          rwa [upd_ne _ _ hne] at this
        obtain ⟨hl, o', x, y, z, w, v⟩ := h.all fd' f' ht2
        have e' : o' ≠ o := fun e => by
          subst e
          omega
        exact ⟨hl, o', by show 0 ≤ upd s.word o (-1) o'; rwa [upd_ne _ _ e'],
          by show shifted (upd s.word o (-1) o') = _; rwa [upd_ne _ _ e'], by show upd s.tab fd none fd' = _; rwa [upd_ne _ _ hne],
          by show upd s.mine o none o' = _; rwa [upd_ne _ _ e'], v⟩
      · have go : ∀ a, upd s.tab fd none a = some f' → s.tab a = some f' := by
          intro a ha
          by_cases e : a = fd
          · subst e; rw [upd_self] at ha; cases ha
          · rwa [upd_ne _ _ e] at ha
        exact h.inj a b f' (go a ha) (go b hb')
      · have go : ∀ a, upd s.mine o none a = some f' → s.mine a = some f' := by
          intro a ha
          by_cases e : a = o
          · subst e; rw [upd_self] at ha; cases ha
          · rwa [upd_ne _ _ e] at ha
        exact h.one a b f' (go a ha) (go b hb')

theorem own_shutdown {s : S} (h : Own s) (o : Nat) : Own (s.shutdown o) := by
  unfold S.shutdown
  split
  · exact ⟨h.each, h.all, h.inj, h.one⟩
  · rename_i hw
    have keep : ∀ o' fd f, Holds s o' fd f → Holds { s with word := upd s.word o (setShut (s.word o)) } o' fd f := by
      intro o' fd f ⟨a, b, c⟩
      by_cases e : o' = o
      · subst e
        exact ⟨by show 0 ≤ upd s.word o' _ o'; rw [upd_self]; exact set_nonneg a,
          by show shifted (upd s.word o' _ o') = _; rw [upd_self, shifted_set]; exact b, c⟩
      · exact ⟨by show 0 ≤ upd s.word o _ o'; rwa [upd_ne _ _ e], by show shifted (upd s.word o _ o') = _; rwa [upd_ne _ _ e], c⟩
    refine ⟨fun o' => ?_, fun fd f ht => ?_, h.inj, h.one⟩
    · rcases h.each o' with ⟨a, b⟩ | ⟨fd, f, h'⟩
      · have e : o' ≠ o := fun e => by subst e; omega
        exact Or.inl ⟨by show upd s.word o _ o' = _; rwa [upd_ne _ _ e], b⟩
      · exact Or.inr ⟨fd, f, keep o' fd f h'⟩
    · obtain ⟨hl, o', h'⟩ := h.all fd f ht
      exact ⟨hl, o', keep o' fd f h'⟩

/-- Only opening, closing and shutting down touch the descriptors. -/
theorem own_congr {s s' : S} (h : Own s) (h1 : s'.tab = s.tab) (h2 : s'.nextFile = s.nextFile) (h3 : s'.word = s.word)
    (h4 : s'.mine = s.mine) : Own s' := by
  refine ⟨fun o => ?_, fun fd f ht => ?_, by rw [h1]; exact h.inj, by rw [h4]; exact h.one⟩
  · rw [h3, h4]
    rcases h.each o with h' | ⟨fd, f, h'⟩
    · exact Or.inl h'
    · exact Or.inr ⟨fd, f, by unfold Holds at h' ⊢; rw [h1, h3, h4]; exact h'⟩
  · rw [h1] at ht
    obtain ⟨hl, o, h'⟩ := h.all fd f ht
    exact ⟨by omega, o, by unfold Holds at h' ⊢; rw [h1, h3, h4]; exact h'⟩

/-- What a step does to the part of the state that is about descriptors. -/
theorem failed_desc (s : S) (id : Nat) (r : Req) (e : Nat) : (s.failed id r e).tab = s.tab ∧ (s.failed id r e).nextFile = s.nextFile ∧
    (s.failed id r e).word = s.word ∧ (s.failed id r e).mine = s.mine := by
  unfold S.failed S.done
  split <;> exact ⟨rfl, rfl, rfl, rfl⟩

theorem submit_desc {s s' : S} {id : Nat} (h : s.submit id = some s') : s'.tab = s.tab ∧ s'.nextFile = s.nextFile ∧
    s'.word = s.word ∧ s'.mine = s.mine := by
  unfold S.submit at h
  split at h
  · split at h
    · split at h
      · cases h; exact ⟨rfl, rfl, rfl, rfl⟩
      · cases h; exact failed_desc ..
    · cases h
  · cases h

theorem complete_desc {s s' : S} {id : Nat} {k : KAns} (h : s.complete id k = some s') : s'.tab = s.tab ∧ s'.nextFile = s.nextFile ∧
    s'.word = s.word ∧ s'.mine = s.mine := by
  unfold S.complete at h
  split at h
  · split at h
    · split at h
      · split at h
        · cases h
        · cases h; exact failed_desc ..
      · split at h
        · cases h; exact ⟨rfl, rfl, rfl, rfl⟩
        · cases h
      · split at h
        · cases h; exact ⟨rfl, rfl, rfl, rfl⟩
        · cases h
    · cases h
  · cases h

theorem call_desc (s : S) (a : Api) (g : Arg) (o : Nat) : (s.call a g o).tab = s.tab ∧ (s.call a g o).nextFile = s.nextFile ∧
    (s.call a g o).word = s.word ∧ (s.call a g o).mine = s.mine := by
  unfold S.call
  split <;> exact ⟨rfl, rfl, rfl, rfl⟩

theorem own_step {s s' : S} {a : Act} (h : Own s) (hs : step s a = some s') : Own s' := by
  cases a with
  | create o fd u =>
    simp only [step] at hs
    split at hs
    · rename_i hg
      split at hs
      · cases hs; exact own_opened h u hg.1 hg.2 ‹_›
      · cases hs; exact own_congr h rfl rfl rfl rfl
    · cases hs
  | accept l o fd =>
    simp only [step] at hs
    split at hs
    · rename_i hg
      cases hs; exact own_opened h _ hg.1 hg.2.1 hg.2.2.1
    · cases hs
  | connect o fd =>
    simp only [step] at hs
    split at hs
    · rename_i hg
      split at hs
      · cases hs; exact own_opened h _ hg.1 hg.2 ‹_›
      · cases hs; exact own_congr h rfl rfl rfl rfl
    · cases hs
  | shutdown o => simp only [step, Option.some.injEq] at hs; subst hs; exact own_shutdown h o
  | close o => simp only [step, Option.some.injEq] at hs; subst hs; exact own_close h o
  | call a g o =>
    simp only [step] at hs
    split at hs
    · cases hs
      obtain ⟨a1, a2, a3, a4⟩ := call_desc s a g o
      exact own_congr h a1 a2 a3 a4
    · cases hs
  | submit id =>
    obtain ⟨a1, a2, a3, a4⟩ := submit_desc hs
    exact own_congr h a1 a2 a3 a4
  | complete id k =>
    obtain ⟨a1, a2, a3, a4⟩ := complete_desc hs
    exact own_congr h a1 a2 a3 a4
  | arrive f bs =>
    simp only [step] at hs
    split at hs
    · cases hs
    · cases hs; exact own_congr h rfl rfl rfl rfl
  | peerEof f => simp only [step, Option.some.injEq] at hs; subst hs; exact own_congr h rfl rfl rfl rfl

theorem own_init : Own S.init :=
  ⟨fun _ => Or.inl ⟨rfl, rfl⟩, fun _ _ h => (by cases h), fun _ _ _ h => (by cases h), fun _ _ _ h => (by cases h)⟩

theorem own {s : S} (h : Reached s) : Own s :=
  Reachable.invariant Own (fun s hs => by subst hs; exact own_init) (fun _ _ _ hi hs => own_step hi hs) h

/-! ### What a step does to the calls -/

/-- The kinds of steps, as seen from the calls. -/
inductive Eff (s s' : S) : Prop
  /-- nothing but perhaps bytes that arrive -/
  | other (h1 : s'.reqs = s.reqs) (h2 : s'.nextReq = s.nextReq) (h3 : s'.log = s.log) (h4 : s'.wire = s.wire)
      (h5 : ∃ d : Nat → List Nat, (∀ f, s'.rx f = s.rx f ++ d f) ∧ ∀ f, s'.arrived f = s.arrived f ++ d f)
  /-- a call that returns at once -/
  | refused (a : Api) (g : Arg) (o : Nat) (hg : argOk a g = true) (h1 : s'.reqs = s.reqs) (h2 : s'.nextReq = s.nextReq + 1)
      (h3 : s'.log = s.log ++ [⟨s.nextReq, a, g, o, s.mine o, .err ECONNABORTED⟩]) (h4 : s'.wire = s.wire) (h5 : s'.rx = s.rx)
      (h6 : s'.arrived = s.arrived)
  /-- a call that suspends -/
  | prepped (a : Api) (g : Arg) (o : Nat) (hg : argOk a g = true)
      (h1 : s'.reqs = upd s.reqs s.nextReq (some ⟨a, g, o, shifted (s.word o), s.mine o, .prepped⟩)) (h2 : s'.nextReq = s.nextReq + 1)
      (h3 : s'.log = s.log) (h4 : s'.wire = s.wire) (h5 : s'.rx = s.rx) (h6 : s'.arrived = s.arrived)
  /-- a request that goes to the kernel, or is prepared again -/
  | moved (id : Nat) (r : Req) (t : RSt) (hr : s.reqs id = some r) (ht : t = .prepped ∨ ∃ f, t = .kernel f ∧ s.look r.fd = some f)
      (h1 : s'.reqs = upd s.reqs id (some { r with st := t })) (h2 : s'.nextReq = s.nextReq)
      (h3 : s'.log = s.log) (h4 : s'.wire = s.wire) (h5 : s'.rx = s.rx) (h6 : s'.arrived = s.arrived)
  /-- a call that fails -/
  | failed (id : Nat) (r : Req) (e : Nat) (hr : s.reqs id = some r) (he : ¬ (e = EAGAIN ∧ retries r.api r.arg = true))
      (h1 : s'.reqs = upd s.reqs id none) (h2 : s'.nextReq = s.nextReq)
      (h3 : s'.log = s.log ++ [⟨id, r.api, r.arg, r.sock, r.file, .err e⟩]) (h4 : s'.wire = s.wire) (h5 : s'.rx = s.rx)
      (h6 : s'.arrived = s.arrived)
  /-- a call that has sent bytes -/
  | sent (id : Nat) (r : Req) (f n : Nat) (data : List Nat) (hr : s.reqs id = some r) (hst : r.st = .kernel f) (ha : r.arg = .send data)
      (hn : n ≤ data.length ∧ (n = 0 → data = [])) (h1 : s'.reqs = upd s.reqs id none) (h2 : s'.nextReq = s.nextReq)
      (h3 : s'.log = s.log ++ [⟨id, r.api, r.arg, r.sock, r.file, .sent n⟩]) (h4 : s'.wire = upd s.wire f (s.wire f ++ data.take n))
      (h5 : s'.rx = s.rx) (h6 : s'.arrived = s.arrived)
  /-- a call that has received bytes -/
  | got (id : Nat) (r : Req) (f n c : Nat) (w : Bool) (hr : s.reqs id = some r) (hst : r.st = .kernel f) (ha : r.arg = .room c w)
      (hn : n ≤ c ∧ n ≤ (s.rx f).length ∧ (n = 0 → c = 0 ∨ (s.rx f = [] ∧ s.eof f = true))) (h1 : s'.reqs = upd s.reqs id none) (h2 : s'.nextReq = s.nextReq)
      (h3 : s'.log = s.log ++ [⟨id, r.api, r.arg, r.sock, r.file, .got ((s.rx f).take n)⟩]) (h4 : s'.wire = s.wire)
      (h5 : s'.rx = upd s.rx f ((s.rx f).drop n)) (h6 : s'.arrived = s.arrived)

theorem eff_same {s s' : S} (h1 : s'.reqs = s.reqs) (h2 : s'.nextReq = s.nextReq) (h3 : s'.log = s.log) (h4 : s'.wire = s.wire)
    (h5 : s'.rx = s.rx) (h6 : s'.arrived = s.arrived) : Eff s s' :=
  .other h1 h2 h3 h4 ⟨fun _ => [], fun f => by rw [h5, List.append_nil], fun f => by rw [h6, List.append_nil]⟩

theorem failed_eff (s : S) (id : Nat) (r : Req) (e : Nat) (hr : s.reqs id = some r) : Eff s (s.failed id r e) := by
  unfold S.failed S.done
  split
  · exact .moved id r .prepped hr (Or.inl rfl) rfl rfl rfl rfl rfl rfl
  · exact .failed id r e hr ‹_› rfl rfl rfl rfl rfl rfl

theorem step_eff {s s' : S} {a : Act} (hs : step s a = some s') : Eff s s' := by
  cases a with
  | create o fd u =>
    simp only [step] at hs
    split at hs
    · split at hs <;> cases hs <;> exact eff_same rfl rfl rfl rfl rfl rfl
    · cases hs
  | accept l o fd =>
    simp only [step] at hs
    split at hs
    · cases hs; exact eff_same rfl rfl rfl rfl rfl rfl
    · cases hs
  | connect o fd =>
    simp only [step] at hs
    split at hs
    · split at hs <;> cases hs <;> exact eff_same rfl rfl rfl rfl rfl rfl
    · cases hs
  | shutdown o =>
    simp only [step, Option.some.injEq] at hs; subst hs
    unfold S.shutdown
    split <;> exact eff_same rfl rfl rfl rfl rfl rfl
  | close o =>
    simp only [step, Option.some.injEq] at hs; subst hs
    unfold S.close
    split <;> exact eff_same rfl rfl rfl rfl rfl rfl
  | call a g o =>
    simp only [step] at hs
    split at hs
    · rename_i hg
      cases hs
      unfold S.call
      split
      · exact .refused a g o hg rfl rfl rfl rfl rfl rfl
      · exact .prepped a g o hg rfl rfl rfl rfl rfl rfl
    · cases hs
  | submit id =>
    simp only [step, S.submit] at hs
    split at hs
    · rename_i r hr
      split at hs
      · split at hs
        · rename_i f hf
          cases hs
          exact .moved id r (.kernel f) hr (Or.inr ⟨f, rfl, hf⟩) rfl rfl rfl rfl rfl rfl
        · cases hs; exact failed_eff s id r EBADF hr
      · cases hs
    · cases hs
  | complete id k =>
    simp only [step, S.complete] at hs
    split at hs
    · rename_i r hr
      split at hs
      · rename_i f hf
        split at hs
        · split at hs
          · cases hs
          · cases hs; exact failed_eff s id r _ hr
        · rename_i n data ha
          split at hs
          · rename_i hn
            cases hs
            exact .sent id r f n data hr hf ha hn rfl rfl rfl rfl rfl rfl
          · cases hs
        · rename_i n c w ha
          split at hs
          · rename_i hn
            cases hs
            exact .got id r f n c w hr hf ha hn rfl rfl rfl rfl rfl rfl
          · cases hs
      · cases hs
    · cases hs
  | arrive f bs =>
    simp only [step] at hs
    split at hs
    · cases hs
    · cases hs
      refine .other rfl rfl rfl rfl ⟨upd (fun _ => []) f bs, fun g => ?_, fun g => ?_⟩
      · show upd s.rx f _ g = _
        by_cases e : g = f
        · subst e; simp
        · rw [upd_ne _ _ e, upd_ne _ _ e, List.append_nil]
      · show upd s.arrived f _ g = _
        by_cases e : g = f
        · subst e; simp
        · rw [upd_ne _ _ e, upd_ne _ _ e, List.append_nil]
  | peerEof f => simp only [step, Option.some.injEq] at hs; subst hs; exact eff_same rfl rfl rfl rfl rfl rfl

/-! ### Each call returns once -/

structure Once (s : S) : Prop where
  lt : ∀ id r, s.reqs id = some r → id < s.nextReq ∧ argOk r.api r.arg = true
  nodup : (s.log.map Ret.id).Nodup
  dis : ∀ id, id ∈ s.log.map Ret.id → s.reqs id = none ∧ id < s.nextReq
  all : ∀ id, id < s.nextReq → id ∈ s.log.map Ret.id ∨ ∃ r, s.reqs id = some r
  again : ∀ x ∈ s.log, retries x.api x.arg = true → x.res ≠ .err EAGAIN
  fits : ∀ x ∈ s.log, (∀ n, x.res = .sent n → ∃ d, x.arg = .send d ∧ n ≤ d.length ∧ (n = 0 → d = [])) ∧
    ∀ bs, x.res = .got bs → ∃ c w, x.arg = .room c w ∧ bs.length ≤ c

theorem once_ret {s s' : S} (h : Once s) {id : Nat} {r : Req} {res : Res} (hr : s.reqs id = some r)
    (h1 : s'.reqs = upd s.reqs id none) (h2 : s'.nextReq = s.nextReq) (h3 : s'.log = s.log ++ [⟨id, r.api, r.arg, r.sock, r.file, res⟩])
    (h4 : retries r.api r.arg = true → res ≠ .err EAGAIN)
    (h5 : (∀ n, res = .sent n → ∃ d, r.arg = .send d ∧ n ≤ d.length ∧ (n = 0 → d = [])) ∧ ∀ bs, res = .got bs → ∃ c w, r.arg = .room c w ∧ bs.length ≤ c) :
    Once s' := by
  have hn : id ∉ s.log.map Ret.id := fun hm => by rw [(h.dis id hm).1] at hr; cases hr
  refine ⟨fun j q hq => ?_, ?_, fun j hj => ?_, fun j hj => ?_, fun x hx => ?_, fun x hx => ?_⟩
  · rw [h1] at hq
    by_cases e : j = id
    · subst e; rw [upd_self] at hq; cases hq
    · rw [upd_ne _ _ e] at hq; rw [h2]; exact h.lt j q hq
  · rw [h3, List.map_append]
    refine List.nodup_append.2 ⟨h.nodup, by simp, fun a ha b hb e => ?_⟩
    simp only [List.map_cons, List.map_nil, List.mem_singleton] at hb
    subst hb; subst e
    exact hn ha
  · rw [h3, List.map_append] at hj
    rw [h1, h2]
    rcases List.mem_append.1 hj with hj' | hj
    · by_cases e : j = id
      · subst e; exact absurd hj' hn
      · rw [upd_ne _ _ e]; exact h.dis j hj'
    · simp only [List.map_cons, List.map_nil, List.mem_singleton] at hj
      subst hj
      exact ⟨upd_self .., (h.lt _ _ hr).1⟩
  · rw [h3, List.map_append, h1]
    rw [h2] at hj
    by_cases e : j = id
    · subst e; exact Or.inl (by simp)
    · rw [upd_ne _ _ e]
      rcases h.all j hj with hj | hj
      · exact Or.inl (List.mem_append.2 (Or.inl hj))
      · exact Or.inr hj
  · rw [h3] at hx
    rcases List.mem_append.1 hx with hx | hx
    · exact h.again x hx
    · rw [List.mem_singleton] at hx; subst hx; exact h4
  · rw [h3] at hx
    rcases List.mem_append.1 hx with hx | hx
    · exact h.fits x hx
    · rw [List.mem_singleton] at hx; subst hx; exact h5

theorem once_step {s s' : S} (h : Once s) (e : Eff s s') : Once s' := by
  cases e with
  | other h1 h2 h3 h4 h5 =>
    exact ⟨by rw [h1, h2]; exact h.lt, by rw [h3]; exact h.nodup, by rw [h1, h2, h3]; exact h.dis, by rw [h1, h2, h3]; exact h.all,
      by rw [h3]; exact h.again, by rw [h3]; exact h.fits⟩
  | refused a g o hg h1 h2 h3 h4 h5 h6 =>
    have hn : s.nextReq ∉ s.log.map Ret.id := fun hm => absurd (h.dis _ hm).2 (Nat.lt_irrefl _)
    have hq : s.reqs s.nextReq = none := by
      cases e : s.reqs s.nextReq with
      | none => rfl
      | some r => exact absurd (h.lt _ _ e).1 (Nat.lt_irrefl _)
    refine ⟨fun j q hq => ?_, ?_, fun j hj => ?_, fun j hj => ?_, fun x hx => ?_, fun x hx => ?_⟩
    · rw [h1] at hq; rw [h2]; have := h.lt j q hq; exact ⟨by omega, this.2⟩
    · rw [h3, List.map_append]
      refine List.nodup_append.2 ⟨h.nodup, by simp, fun a ha b hb e => ?_⟩
      simp only [List.map_cons, List.map_nil, List.mem_singleton] at hb
      subst hb; subst e
      exact hn ha
    · rw [h3, List.map_append] at hj
      rw [h1, h2]
      rcases List.mem_append.1 hj with hj | hj
      · have := h.dis j hj; exact ⟨this.1, by omega⟩
      · simp only [List.map_cons, List.map_nil, List.mem_singleton] at hj
        subst hj
        exact ⟨hq, by omega⟩
    · rw [h3, List.map_append, h1]
      rw [h2] at hj
      by_cases e : j = s.nextReq
      · subst e; exact Or.inl (by simp)
      · rcases h.all j (by omega) with hj | hj
        · exact Or.inl (List.mem_append.2 (Or.inl hj))
        · exact Or.inr hj
    · rw [h3] at hx
      rcases List.mem_append.1 hx with hx | hx
      · exact h.again x hx
      · rw [List.mem_singleton] at hx; subst hx; intro _; simp [ECONNABORTED, EAGAIN]
    · rw [h3] at hx
      rcases List.mem_append.1 hx with hx | hx
      · exact h.fits x hx
      · rw [List.mem_singleton] at hx; subst hx; exact ⟨fun _ h => (by cases h), fun _ h => (by cases h)⟩
  | prepped a g o hg h1 h2 h3 h4 h5 h6 =>
    refine ⟨fun j q hq => ?_, by rw [h3]; exact h.nodup, fun j hj => ?_, fun j hj => ?_, by rw [h3]; exact h.again, by rw [h3]; exact h.fits⟩
    · rw [h1] at hq; rw [h2]
      by_cases e : j = s.nextReq
      · subst e; rw [upd_self] at hq; cases hq; exact ⟨Nat.lt_succ_self _, hg⟩
      · rw [upd_ne _ _ e] at hq; have := h.lt j q hq; exact ⟨by omega, this.2⟩
    · rw [h3] at hj; rw [h1, h2]
      have := h.dis j hj
      rw [upd_ne _ _ (by omega)]
      exact ⟨this.1, by omega⟩
    · rw [h2] at hj; rw [h1, h3]
      by_cases e : j = s.nextReq
      · subst e; exact Or.inr ⟨_, upd_self ..⟩
      · rw [upd_ne _ _ e]; exact h.all j (by omega)
  | moved id r t hr ht h1 h2 h3 h4 h5 h6 =>
    refine ⟨fun j q hq => ?_, by rw [h3]; exact h.nodup, fun j hj => ?_, fun j hj => ?_, by rw [h3]; exact h.again, by rw [h3]; exact h.fits⟩
    · rw [h1] at hq; rw [h2]
      by_cases e : j = id
      · subst e; rw [upd_self] at hq; cases hq; exact h.lt _ r hr
      · rw [upd_ne _ _ e] at hq; exact h.lt j q hq
    · rw [h3] at hj; rw [h1, h2]
      have := h.dis j hj
      rw [upd_ne _ _ (fun e => by subst e; rw [hr] at this; exact absurd this.1 (by simp))]
      exact this
    · rw [h2] at hj; rw [h1, h3]
      by_cases e : j = id
      · subst e; exact Or.inr ⟨_, upd_self ..⟩
      · rw [upd_ne _ _ e]; exact h.all j hj
  | failed id r e hr he h1 h2 h3 h4 h5 h6 =>
    refine once_ret h hr h1 h2 h3 (fun hre e' => ?_) ⟨fun _ h => (by cases h), fun _ h => (by cases h)⟩
    cases e'
    exact he ⟨rfl, hre⟩
  | sent id r f n data hr hst ha hn h1 h2 h3 h4 h5 h6 =>
    exact once_ret h hr h1 h2 h3 (fun _ e => by cases e) ⟨fun m e => by cases e; exact ⟨data, ha, hn⟩, fun _ e => (by cases e)⟩
  | got id r f n c w hr hst ha hn h1 h2 h3 h4 h5 h6 =>
    refine once_ret h hr h1 h2 h3 (fun _ e => by cases e) ⟨fun m e => (by cases e), fun bs e => ?_⟩
    cases e
    exact ⟨c, w, ha, by rw [List.length_take]; omega⟩

theorem once {s : S} (h : Reached s) : Once s :=
  Reachable.invariant Once
    (fun s hs => by
      subst hs
      exact ⟨fun _ _ h => (by cases h), List.nodup_nil, fun _ h => absurd h (by simp [S.init]), fun _ h => absurd h (Nat.not_lt_zero _),
        fun _ h => absurd h (by simp [S.init]), fun _ h => absurd h (by simp [S.init])⟩)
    (fun _ _ _ hi hs => once_step hi (step_eff hs)) h

/-! ### Programs that do not close a socket in use -/

theorem dstep_step {s s' : S} {a : Act} (h : dstep s a = some s') : step s a = some s' := by
  unfold dstep at h
  split at h
  · split at h
    · exact h
    · cases h
  · exact h

theorem disciplined_reached {s : S} (h : Disciplined s) : Reached s := by
  induction h with
  | init h hq => exact .init h hq
  | step _ hst hq ih => exact .step ih (dstep_step hst) hq

/-- Every call in progress is about the file that its socket still has. -/
structure Bound (s : S) : Prop where
  own : Own s
  same : ∀ id r, s.reqs id = some r → (r.file = none ∧ r.fd = -1) ∨ ∃ fd f : Nat, r.file = some f ∧ r.fd = (fd : Int) ∧ Holds s r.sock fd f
  ker : ∀ id r f, s.reqs id = some r → r.st = .kernel f → r.file = some f

theorem holds_step {s s' : S} {a : Act} {o fd f : Nat} (h : Own s) (hq : ∀ o', a = .close o' → o' ≠ o) (hs : step s a = some s')
    (hh : Holds s o fd f) : Holds s' o fd f := by
  obtain ⟨a1, a2, a3, a4, a5⟩ := hh
  have opn : ∀ o' fd' u, s.tab fd' = none → s.word o' = -1 → Holds (s.opened o' fd' u) o fd f := by
    intro o' fd' u ht hw
    have e1 : o ≠ o' := fun e => by subst e; omega
    have e2 : fd ≠ fd' := fun e => by subst e; rw [ht] at a3; cases a3
    exact ⟨by show 0 ≤ upd s.word o' _ o; rwa [upd_ne _ _ e1], by show shifted (upd s.word o' _ o) = _; rwa [upd_ne _ _ e1],
      by show upd s.tab fd' _ fd = _; rwa [upd_ne _ _ e2], by show upd s.mine o' _ o = _; rwa [upd_ne _ _ e1], a5⟩
  have con : ∀ s', s'.tab = s.tab ∧ s'.nextFile = s.nextFile ∧ s'.word = s.word ∧ s'.mine = s.mine → Holds s' o fd f := by
    intro s' ⟨b1, _, b2, b3⟩
    exact ⟨by rw [b2]; exact a1, by rw [b2]; exact a2, by rw [b1]; exact a3, by rw [b3]; exact a4, a5⟩
  cases a with
  | create o' fd' u =>
    simp only [step] at hs
    split at hs
    · rename_i hg
      split at hs
      · cases hs; exact opn o' fd' u hg.1 ‹_›
      · cases hs; exact con _ ⟨rfl, rfl, rfl, rfl⟩
    · cases hs
  | accept l o' fd' =>
    simp only [step] at hs
    split at hs
    · rename_i hg
      cases hs; exact opn o' fd' _ hg.1 hg.2.2.1
    · cases hs
  | connect o' fd' =>
    simp only [step] at hs
    split at hs
    · rename_i hg
      split at hs
      · cases hs; exact opn o' fd' _ hg.1 ‹_›
      · cases hs; exact con _ ⟨rfl, rfl, rfl, rfl⟩
    · cases hs
  | shutdown o' =>
    simp only [step, Option.some.injEq] at hs; subst hs
    unfold S.shutdown
    split
    · exact con _ ⟨rfl, rfl, rfl, rfl⟩
    · by_cases e : o = o'
      · subst e
        exact ⟨by show 0 ≤ upd s.word o _ o; rw [upd_self]; exact set_nonneg a1,
          by show shifted (upd s.word o _ o) = _; rw [upd_self, shifted_set]; exact a2, a3, a4, a5⟩
      · exact ⟨by show 0 ≤ upd s.word o' _ o; rwa [upd_ne _ _ e], by show shifted (upd s.word o' _ o) = _; rwa [upd_ne _ _ e], a3, a4, a5⟩
  | close o' =>
    have e := (hq o' rfl).symm
    simp only [step, Option.some.injEq] at hs; subst hs
    unfold S.close
    split
    · exact ⟨a1, a2, a3, a4, a5⟩
    · rename_i hw
      rcases h.each o' with h' | ⟨fd', f', b1, b2, b3, b4, b5⟩
      · exact absurd (by omega : s.word o' < 0) hw
      · have e2 : fd ≠ fd' := fun e2 => by
          subst e2
          rw [a3] at b3; cases b3
          exact e (h.one o o' f a4 b4)
        have e3 : (shifted (s.word o')).toNat = fd' := by omega
        rw [e3]
        exact ⟨by show 0 ≤ upd s.word o' _ o; rwa [upd_ne _ _ e], by show shifted (upd s.word o' _ o) = _; rwa [upd_ne _ _ e],
          by show upd s.tab fd' _ fd = _; rwa [upd_ne _ _ e2], by show upd s.mine o' _ o = _; rwa [upd_ne _ _ e], a5⟩
  | call a g o' =>
    simp only [step] at hs
    split at hs
    · cases hs; exact con _ (call_desc ..)
    · cases hs
  | submit id => exact con _ (submit_desc hs)
  | complete id k => exact con _ (complete_desc hs)
  | arrive f bs =>
    simp only [step] at hs
    split at hs
    · cases hs
    · cases hs; exact con _ ⟨rfl, rfl, rfl, rfl⟩
  | peerEof f => simp only [step, Option.some.injEq] at hs; subst hs; exact con _ ⟨rfl, rfl, rfl, rfl⟩

theorem dstep_quiet {s s' : S} {o : Nat} (h : dstep s (.close o) = some s') : s.quiet o := by
  unfold dstep at h
  simp only at h
  split at h
  · assumption
  · cases h

theorem bound_step {s s' : S} {a : Act} (h : Bound s) (hd : dstep s a = some s') : Bound s' := by
  have hs := dstep_step hd
  -- a call that was in progress keeps its file
  have keep : ∀ id r, s.reqs id = some r → (r.file = none ∧ r.fd = -1) ∨ ∃ fd f : Nat, r.file = some f ∧ r.fd = (fd : Int) ∧ Holds s' r.sock fd f := by
    intro id r hr
    rcases h.same id r hr with hn | ⟨fd, f, h1, h2, h3⟩
    · exact Or.inl hn
    · refine Or.inr ⟨fd, f, h1, h2, holds_step h.own (fun o' e => ?_) hs h3⟩
      subst e
      exact fun e => dstep_quiet hd id r hr e.symm
  have ho := own_step h.own hs
  -- a call that was removed
  have gone : ∀ id, s'.reqs = upd s.reqs id none → Bound s' := by
    intro id h1
    have back : ∀ j q, s'.reqs j = some q → s.reqs j = some q := by
      intro j q hq
      rw [h1] at hq
      by_cases e : j = id
      · subst e; rw [upd_self] at hq; cases hq
      · rwa [upd_ne _ _ e] at hq
    exact ⟨ho, fun j q hq => keep j q (back j q hq), fun j q f hq => h.ker j q f (back j q hq)⟩
  cases step_eff hs with
  | other h1 h2 h3 h4 h5 =>
    exact ⟨ho, fun j q hq => keep j q (h1 ▸ hq), fun j q f hq => h.ker j q f (h1 ▸ hq)⟩
  | refused a g o hg h1 h2 h3 h4 h5 h6 =>
    exact ⟨ho, fun j q hq => keep j q (h1 ▸ hq), fun j q f hq => h.ker j q f (h1 ▸ hq)⟩
  | prepped a' g o hg h1 h2 h3 h4 h5 h6 =>
    refine ⟨ho, fun j q hq => ?_, fun j q f hq hk => ?_⟩
    · rw [h1] at hq
      by_cases e : j = s.nextReq
      · subst e
        rw [upd_self] at hq; cases hq
        rcases h.own.each o with ⟨b1, b2⟩ | ⟨fd, f, hh⟩
        · refine Or.inl ⟨b2, ?_⟩
          show shifted (s.word o) = -1
          rw [b1]; rfl
        · refine Or.inr ⟨fd, f, hh.2.2.2.1, hh.2.1, holds_step h.own (fun o' e => ?_) hs hh⟩
          subst e
          intro _
          simp only [step, Option.some.injEq] at hs
          subst hs
          have : (s.close o').nextReq = s.nextReq := by unfold S.close; split <;> rfl
          omega
      · rw [upd_ne _ _ e] at hq; exact keep j q hq
    · rw [h1] at hq
      by_cases e : j = s.nextReq
      · subst e; rw [upd_self] at hq; cases hq; cases hk
      · rw [upd_ne _ _ e] at hq; exact h.ker j q f hq hk
  | moved id r t hr ht h1 h2 h3 h4 h5 h6 =>
    refine ⟨ho, fun j q hq => ?_, fun j q f hq hk => ?_⟩
    · rw [h1] at hq
      by_cases e : j = id
      · subst e; rw [upd_self] at hq; cases hq; exact keep j r hr
      · rw [upd_ne _ _ e] at hq; exact keep j q hq
    · rw [h1] at hq
      by_cases e : j = id
      · subst e
        rw [upd_self] at hq; cases hq
        have hk : t = .kernel f := hk
        rcases ht with rfl | ⟨f', rfl, hl⟩
        · cases hk
        · cases hk
          show r.file = some f
          rcases h.same j r hr with ⟨_, hn⟩ | ⟨fd, f'', b1, b2, b3⟩
          · rw [hn] at hl
            simp [S.look] at hl
          · rw [b2, S.look, if_neg (by omega), Int.toNat_natCast, b3.2.2.1] at hl
            rw [b1, hl]
      · rw [upd_ne _ _ e] at hq; exact h.ker j q f hq hk
  | failed id r e hr he h1 h2 h3 h4 h5 h6 => exact gone id h1
  | sent id r f n data hr hst ha hn h1 h2 h3 h4 h5 h6 => exact gone id h1
  | got id r f n c w hr hst ha hn h1 h2 h3 h4 h5 h6 => exact gone id h1

/-- The streams are what the calls have said. -/
structure Streams (s : S) : Prop where
  out : ∀ f, s.wire f = ((s.callsOn f).map Ret.sentBytes).flatten
  inn : ∀ f, s.arrived f = ((s.callsOn f).map Ret.gotBytes).flatten ++ s.rx f

theorem callsOn_append (l : List Ret) (x : Ret) (f : Nat) : (l ++ [x]).filter (fun r => r.file = some f) =
    l.filter (fun r => r.file = some f) ++ (if x.file = some f then [x] else []) := by
  rw [List.filter_append]
  by_cases h : x.file = some f <;> simp [h]

theorem streams_quiet {s s' : S} (h : Streams s) {x : Ret} (hs : x.sentBytes = []) (hg : x.gotBytes = []) (h3 : s'.log = s.log ++ [x])
    (h4 : s'.wire = s.wire) (h5 : s'.rx = s.rx) (h6 : s'.arrived = s.arrived) : Streams s' := by
  refine ⟨fun f => ?_, fun f => ?_⟩
  · rw [h4, h.out f, S.callsOn, S.callsOn, h3, callsOn_append]
    split <;> simp [hs]
  · rw [h5, h6, h.inn f, S.callsOn, S.callsOn, h3, callsOn_append]
    split <;> simp [hg]

theorem streams_step {s s' : S} (h : Streams s) (hb : Bound s) (e : Eff s s') : Streams s' := by
  cases e with
  | other h1 h2 h3 h4 h5 =>
    obtain ⟨d, d1, d2⟩ := h5
    exact ⟨fun f => by rw [h4, S.callsOn, h3]; exact h.out f,
      fun f => by rw [d1, d2, S.callsOn, h3, h.inn f, List.append_assoc]; rfl⟩
  | refused a g o hg h1 h2 h3 h4 h5 h6 => exact streams_quiet h (by simp [Ret.sentBytes]) rfl h3 h4 h5 h6
  | prepped a g o hg h1 h2 h3 h4 h5 h6 =>
    exact ⟨fun f => by rw [h4, S.callsOn, h3]; exact h.out f, fun f => by rw [h5, h6, S.callsOn, h3]; exact h.inn f⟩
  | moved id r t hr ht h1 h2 h3 h4 h5 h6 =>
    exact ⟨fun f => by rw [h4, S.callsOn, h3]; exact h.out f, fun f => by rw [h5, h6, S.callsOn, h3]; exact h.inn f⟩
  | failed id r e hr he h1 h2 h3 h4 h5 h6 => exact streams_quiet h (by simp [Ret.sentBytes]) rfl h3 h4 h5 h6
  | sent id r f n data hr hst ha hn h1 h2 h3 h4 h5 h6 =>
    have hf := hb.ker id r f hr hst
    refine ⟨fun g => ?_, fun g => ?_⟩
    · rw [h4, S.callsOn, h3, callsOn_append]
      by_cases e : g = f
      · subst e
        rw [upd_self, h.out g, if_pos hf]
        simp [S.callsOn, Ret.sentBytes, ha]
      · rw [upd_ne _ _ e, if_neg (fun e' => e (by have e' : r.file = some g := e'; rw [hf] at e'; cases e'; rfl)), List.append_nil]
        exact h.out g
    · rw [h5, h6, S.callsOn, h3, callsOn_append, h.inn g]
      split <;> simp [S.callsOn, Ret.gotBytes]
  | got id r f n c w hr hst ha hn h1 h2 h3 h4 h5 h6 =>
    have hf := hb.ker id r f hr hst
    refine ⟨fun g => ?_, fun g => ?_⟩
    · rw [h4, S.callsOn, h3, callsOn_append, h.out g]
      split <;> simp [S.callsOn, Ret.sentBytes]
    · rw [h5, h6, S.callsOn, h3, callsOn_append]
      by_cases e : g = f
      · subst e
        rw [upd_self, h.inn g, if_pos hf]
        simp [S.callsOn, Ret.gotBytes, List.take_append_drop]
      · rw [upd_ne _ _ e, if_neg (fun e' => e (by have e' : r.file = some g := e'; rw [hf] at e'; cases e'; rfl)), List.append_nil]
        exact h.inn g

theorem streams {s : S} (h : Disciplined s) : Bound s ∧ Streams s :=
  Reachable.invariant (fun s => Bound s ∧ Streams s)
    (fun s hs => by
      subst hs
      exact ⟨⟨own_init, fun _ _ h => (by cases h), fun _ _ _ h => (by cases h)⟩, fun _ => rfl, fun _ => rfl⟩)
    (fun _ _ _ hi hs => ⟨bound_step hi.1 hs, streams_step hi.2 hi.1 (step_eff (dstep_step hs))⟩) h

end Verif.USock
