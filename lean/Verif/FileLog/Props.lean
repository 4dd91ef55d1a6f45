import Verif.FileLog.Lemmas
/-! C102: the log files have every message exactly once. -/
namespace Verif.FileLog
open Verif.Common

/-- The messages of severity `i` or higher that thread `t` has written to file `i`. -/
def passed (s : State) (i t : Nat) : List Msg := match s.th t with
  | none => (s.sent t).filter (fun m => i ≤ clamp m.sev)
  | some (_, j) => if i ≤ j then (s.sent t).dropLast.filter (fun m => i ≤ clamp m.sev) else (s.sent t).filter (fun m => i ≤ clamp m.sev)

/-- The lines of thread `t` in file `i`. -/
def ofThread (s : State) (i t : Nat) : List Msg := ((s.log i).filter (fun p => p.1 = t)).map (·.2)

structure Inv (limit : Nat) (s : State) : Prop where
  good : ∀ i, s.clean i = true → ∀ B, Good limit B (s.files i) (s.disk i) s.clock ((s.log i).map (·.2.line))
  thread : ∀ t m j, s.th t = some (m, j) → j ≤ clamp m.sev ∧ ∃ p, s.sent t = p ++ [m]
  lines : ∀ i, s.clean i = true → ∀ t, ofThread s i t = passed s i t

theorem Inv.init (limit : Nat) : Inv limit FileLog.init where
  good := fun i _ B => Or.inl ⟨rfl, rfl, .nil, by simp [FileLog.init], by simp [flat, FileLog.init], by simp [FileLog.init]⟩
  thread := fun t m j h => by simp [FileLog.init] at h
  lines := fun i _ t => by simp [ofThread, passed, FileLog.init]

theorem env_close {e : Env} (h : e.ok = true) : e.flush = none ∧ e.close = none := by
  simp only [Env.ok, Bool.and_eq_true, Option.isNone_iff_eq_none] at h
  exact ⟨h.1.2, h.2⟩

theorem Inv.step {limit : Nat} {s s' : State} {a : Act} (hl : 0 < limit) (h : Inv limit s) (hs : FileLog.step limit s a = some s') : Inv limit s' := by
  cases a with
  | start t m =>
    simp only [FileLog.step] at hs
    split at hs
    · rename_i hn
      injection hs with hs; subst hs
      refine ⟨h.good, ?_, ?_⟩
      · intro t' m' j h'
        simp only [upd] at h' ⊢
        split at h'
        · rename_i e
          injection h' with h'
          obtain ⟨rfl, rfl⟩ := Prod.mk.inj h'
          subst e
          exact ⟨Nat.le_refl _, by simp⟩
        · rename_i e
          rw [if_neg e]; exact h.thread t' m' j h'
      · intro i hc t'
        have := h.lines i hc t'
        unfold passed ofThread at this ⊢
        simp only [upd]
        by_cases e : t' = t
        · subst e
          rw [hn] at this
          simp only [if_true]
          split
          · rw [List.dropLast_concat]; exact this
          · rename_i hi
            rw [List.filter_append, this]
            have : decide (i ≤ clamp m.sev) = false := by simpa using hi
            simp [this]
        · simp only [if_neg e]; exact this
    · cases hs
  | next t e =>
    simp only [FileLog.step] at hs
    rcases hth : s.th t with _ | ⟨m, i⟩
    · rw [hth] at hs; cases hs
    rw [hth] at hs
    simp only [] at hs
    split at hs
    · cases hs
    rename_i hclk
    have hclk : s.clock ≤ e.now := by omega
    injection hs with hs
    obtain ⟨hj, p, hp⟩ := h.thread t m i hth
    refine ⟨?_, ?_, ?_⟩
    · intro k hk B
      subst hs
      simp only [upd] at hk ⊢
      by_cases ek : k = i
      · subst ek
        simp only [if_true, Bool.and_eq_true] at hk ⊢
        obtain ⟨g1, g2, -⟩ := sendTo_good (m := m) (sev := clamp m.sev) hl (h.good k hk.1 B) hclk hk.2
        rw [g2]
        simpa using g1
      · simp only [if_neg ek] at hk ⊢
        have := (h.good k hk B).mono hclk
        split
        · simpa [upd, ek] using this
        · exact this
    · intro t' m' j h'
      subst hs
      simp only [upd] at h'
      split at h'
      · rename_i et
        subst et
        split at h'
        · cases h'
        · injection h' with h'
          obtain ⟨rfl, rfl⟩ := Prod.mk.inj h'
          exact ⟨by omega, p, hp⟩
      · exact h.thread t' m' j h'
    · intro k hk t'
      have hkc : s.clean k = true ∧ (k = i → e.ok = true) := by
        subst hs
        simp only [upd] at hk
        by_cases ek : k = i
        · rw [if_pos ek, Bool.and_eq_true] at hk; rw [ek]; exact ⟨hk.1, fun _ => hk.2⟩
        · rw [if_neg ek] at hk; exact ⟨hk, fun h => absurd h ek⟩
      have ih := h.lines k hkc.1 t'
      have hlog : s'.log k = if k = i then s.log k ++ [(t, m)] else s.log k := by
        subst hs
        simp only
        by_cases ek : k = i
        · subst ek
          have g2 := (sendTo_good (m := m) (sev := clamp m.sev) hl (h.good k hkc.1 0) hclk (hkc.2 rfl)).2.1
          rw [g2]; simp [upd]
        · split <;> simp [upd, ek]
      have hth' : s'.th t' = if t' = t then (if i = 0 then none else some (m, i - 1)) else s.th t' := by subst hs; rfl
      have hsent : s'.sent = s.sent := by subst hs; rfl
      unfold ofThread passed at ih ⊢
      rw [hlog, hth', hsent]
      by_cases et : t' = t
      · subst et
        rw [hth, hp] at ih
        rw [hp, if_pos rfl]
        simp only [List.dropLast_concat] at ih ⊢
        by_cases ek : k = i
        · subst ek
          rw [if_pos rfl, List.filter_append, List.map_append, ih, if_pos (Nat.le_refl k)]
          have hd : decide (k ≤ clamp m.sev) = true := by simpa using hj
          by_cases k0 : k = 0
          · rw [if_pos k0]; simp [hd]
          · rw [if_neg k0]
            simp only []
            rw [if_neg (by omega)]; simp [hd]
        · rw [if_neg ek, ih]
          by_cases i0 : i = 0
          · rw [if_pos i0, if_neg (by omega)]
          · rw [if_neg i0]
            simp only []
            by_cases hki : k ≤ i
            · rw [if_pos hki, if_pos (by omega)]
            · rw [if_neg hki, if_neg (by omega)]
      · rw [if_neg et, ← ih]
        by_cases ek : k = i
        · rw [if_pos ek, List.filter_append]
          have : ¬ t = t' := fun h => et h.symm
          simp [this]
        · rw [if_neg ek]
  | flush i e =>
    simp only [FileLog.step] at hs
    split at hs
    · cases hs
    rename_i hclk
    injection hs with hs; subst hs
    refine ⟨?_, h.thread, ?_⟩
    · intro k hk B
      simp only [upd] at hk ⊢
      by_cases ek : k = i
      · subst ek
        simp only [if_true, Bool.and_eq_true] at hk ⊢
        exact (flush_good (h.good k hk.1 B) (env_close hk.2).1).1.mono (by omega)
      · simp only [if_neg ek] at hk ⊢
        exact (h.good k hk B).mono (by omega)
    · intro k hk t
      refine h.lines k ?_ t
      simp only [upd] at hk
      split at hk
      · rename_i ek; rw [Bool.and_eq_true] at hk; rw [ek]; exact hk.1
      · exact hk
  | close i e =>
    simp only [FileLog.step] at hs
    split at hs
    · cases hs
    rename_i hclk
    injection hs with hs; subst hs
    refine ⟨?_, h.thread, ?_⟩
    · intro k hk B
      simp only [upd] at hk ⊢
      by_cases ek : k = i
      · subst ek
        simp only [if_true, Bool.and_eq_true] at hk ⊢
        rw [(env_close hk.2).2]
        exact (close_good (h.good k hk.1 B)).1.mono (by omega)
      · simp only [if_neg ek] at hk ⊢
        exact (h.good k hk B).mono (by omega)
    · intro k hk t
      refine h.lines k ?_ t
      simp only [upd] at hk
      split at hk
      · rename_i ek; rw [Bool.and_eq_true] at hk; rw [ek]; exact hk.1
      · exact hk

theorem inv {limit : Nat} {s : State} (hl : 0 < limit) (h : Reached limit s) : Inv limit s :=
  Reachable.invariant (Inv limit) (fun s hs => by rw [hs]; exact Inv.init limit) (fun _ _ _ hi hst => hi.step hl hst) h

/-- A message belongs in the file of its severity and in those of lower severities; FATAL messages belong in the file for ERROR. -/
theorem clamp_file {i sev : Nat} (hi : i ≤ 2) : i ≤ clamp sev ↔ i ≤ sev := by unfold clamp; split <;> omega

/-- **C102** Each file has every message of its severity or a higher one exactly once, and the messages of each thread in the order in which it logged them, whatever the other threads do. (A thread that is in the middle of logging a message is covered by
`C102_while_logging`.) -/
theorem C102_lines {limit : Nat} {s : State} (hl : 0 < limit) (h : Reached limit s) {i : Nat} (hi : i ≤ 2) (hc : s.clean i = true) {t : Nat} (ht : s.th t = none) :
    ((s.log i).filter (fun p => p.1 = t)).map (·.2) = (s.sent t).filter (fun m => i ≤ m.sev) := by
  have := (inv hl h).lines i hc t
  unfold ofThread passed at this
  rw [ht] at this
  simpa only [clamp_file hi] using this

/-- **C102** While a thread is logging a message, the message is in the files that it has come to, and not yet in the others. -/
theorem C102_while_logging {limit : Nat} {s : State} (hl : 0 < limit) (h : Reached limit s) {i : Nat} (hi : i ≤ 2) (hc : s.clean i = true) {t : Nat} {m : Msg} {j : Nat} (ht : s.th t = some (m, j)) :
    ∃ p, s.sent t = p ++ [m] ∧ ((s.log i).filter (fun p => p.1 = t)).map (·.2) = (if i ≤ j then p else p ++ [m]).filter (fun m => i ≤ m.sev) := by
  obtain ⟨_, p, hp⟩ := (inv hl h).thread t m j ht
  have := (inv hl h).lines i hc t
  unfold ofThread passed at this
  rw [ht] at this
  refine ⟨p, hp, ?_⟩
  rw [this, hp]
  simp only [List.dropLast_concat, clamp_file hi]
  split <;> rfl

/-- **C102** The lines are not mixed with each other and nothing is lost: the texts of the rotated files one after the other, and the buffered bytes, are the lines one after the other. -/
theorem C102_text {limit : Nat} {s : State} (hl : 0 < limit) (h : Reached limit s) {i : Nat} (hc : s.clean i = true) :
    (s.disk i).flatMap (·.text) ++ (s.files i).buf = (s.log i).flatMap (·.2.line) := by
  have e : ((s.log i).map (·.2.line)).flatten = (s.log i).flatMap (·.2.line) := by rw [List.flatMap_def]
  rw [← e]
  rcases (inv hl h).good i hc 0 with ⟨h1, h2, h3, h4, h5, h6⟩ | ⟨sec, d0, x, o, h1, h2, h3, h4, h5, h6, h7⟩
  · rw [h2, List.append_nil]; exact h5
  · rw [← h6, h2]; simp [flat]

/-- **C102** The names of the rotated files ascend, so sorting them by name gives the order in which they were written. -/
theorem C102_names {limit : Nat} {s : State} (hl : 0 < limit) (h : Reached limit s) {i : Nat} (hc : s.clean i = true) : (s.disk i).Pairwise (fun a b => a.sec < b.sec) := by
  rcases (inv hl h).good i hc 0 with ⟨h1, h2, h3, h4, h5, h6⟩ | ⟨sec, d0, x, o, h1, h2, h3, h4, h5, h6, h7⟩
  · exact h3
  · rw [h2]; exact asc_snoc h3 h4

/-- **C102** When a message above the buffered level has been written to a file, it and everything before it is in the file, and not in the buffer of the process. -/
theorem C102_urgent {limit : Nat} {s s' : State} (hl : 0 < limit) (h : Reached limit s) {t i : Nat} {m : Msg} {e : Env} (ht : s.th t = some (m, i)) (hs : step limit s (.next t e) = some s') (hc : s'.clean i = true)
    (hm : e.level < (clamp m.sev : Int)) : (s'.disk i).flatMap (·.text) = (s.log i).flatMap (·.2.line) ++ m.line := by
  have hr : Reached limit s' := Reach.step h hs trivial
  have := C102_text hl hr hc
  have hi := inv hl h
  simp only [FileLog.step, ht] at hs
  split at hs
  · cases hs
  rename_i hclk
  injection hs with hs
  have hc2 : s.clean i = true ∧ e.ok = true := by subst hs; simpa [upd] using hc
  obtain ⟨-, g2, g3⟩ := sendTo_good (m := m) (sev := clamp m.sev) hl (hi.good i hc2.1 0) (by omega) hc2.2
  have hb : (s'.files i).buf = [] := by subst hs; simpa [upd] using g3 hm
  have hlog : s'.log i = s.log i ++ [(t, m)] := by subst hs; simp [upd, g2]
  rw [hb, List.append_nil, hlog] at this
  simpa using this

/-- **C102** Less than 1000000 bytes are in the buffer of the process. -/
theorem C102_buffered {limit : Nat} {s : State} (hl : 0 < limit) (h : Reached limit s) {i : Nat} (hc : s.clean i = true) : (s.files i).buf.length < 1000000 := by
  rcases (inv hl h).good i hc 0 with ⟨h1, h2, h3, h4, h5, h6⟩ | ⟨sec, d0, x, o, h1, h2, h3, h4, h5, h6, h7, h8, h9⟩
  · rw [h2]; simp
  · unfold kFlushBytes at h9; omega

/-- **C102** After `Flush` has come to a file, and after the destructor has, everything is in the file. -/
theorem C102_flush {limit : Nat} {s s' : State} (hl : 0 < limit) (h : Reached limit s) {i : Nat} {e : Env} (hs : step limit s (.flush i e) = some s' ∨ step limit s (.close i e) = some s') (hc : s'.clean i = true) :
    (s'.disk i).flatMap (·.text) = (s.log i).flatMap (·.2.line) := by
  have hr : Reached limit s' := by
    rcases hs with hs | hs
    · exact Reach.step h hs trivial
    · exact Reach.step h hs trivial
  have := C102_text hl hr hc
  have hi := inv hl h
  rcases hs with hs | hs
  · simp only [FileLog.step] at hs
    split at hs
    · cases hs
    injection hs with hs
    have hc2 : s.clean i = true ∧ e.ok = true := by subst hs; simpa [upd] using hc
    have hb : (s'.files i).buf = [] := by
      subst hs; simpa [upd] using (flush_good (hi.good i hc2.1 0) (env_close hc2.2).1).2
    have hlog : s'.log i = s.log i := by subst hs; rfl
    rw [hb, List.append_nil, hlog] at this
    exact this
  · simp only [FileLog.step] at hs
    split at hs
    · cases hs
    injection hs with hs
    have hc2 : s.clean i = true ∧ e.ok = true := by subst hs; simpa [upd] using hc
    have hb : (s'.files i).buf = [] := by
      subst hs
      simp only [upd, if_true]
      rw [(env_close hc2.2).2]
      rcases (close_good (hi.good i hc2.1 0)) with ⟨⟨_, h2, _⟩ | ⟨_, _, _, _, h1, _⟩, h0⟩
      · exact h2
      · rw [h0] at h1; cases h1
    have hlog : s'.log i = s.log i := by subst hs; rfl
    rw [hb, List.append_nil, hlog] at this
    exact this

/-- **C102** A file is closed as soon as it has reached the limit: with lines of at most `L` bytes, a file that was opened `n` times has at most `n * (limit - 1 + L)` bytes. -/
theorem C102_size {limit : Nat} {s : State} (hl : 0 < limit) (h : Reached limit s) {i : Nat} (hc : s.clean i = true) {L : Nat} (hL : ∀ p ∈ s.log i, p.2.line.length ≤ L) : ∀ f ∈ s.disk i, f.text.length ≤ f.opens * (limit - 1 + L) := by
  have hL' : ∀ l ∈ (s.log i).map (·.2.line), limit - 1 + l.length ≤ limit - 1 + L := by
    intro l hm
    obtain ⟨p, hp, rfl⟩ := List.mem_map.mp hm
    have := hL p hp
    omega
  rcases (inv hl h).good i hc (limit - 1 + L) with ⟨h1, h2, h3, h4, h5, h6⟩ | ⟨sec, d0, x, o, h1, h2, h3, h4, h5, h6, h7, h8⟩
  · exact h6 hL'
  · obtain ⟨g1, g2, g3⟩ := h7 hL'
    rw [h2]
    intro f hf
    rcases List.mem_append.mp hf with hf | hf
    · exact g1 f hf
    · rw [List.mem_singleton.mp hf]
      simp only
      have : (o + 1) * (limit - 1 + L) = o * (limit - 1 + L) + (limit - 1 + L) := by ring
      omega

/-- **C102** When writing a line fails, the line does not count as written, the file has whole lines and at most a part of this one, and it is marked as dead. -/
theorem C102_failed_write {limit : Nat} {s s' : State} (hl : 0 < limit) (h : Reached limit s) {t i k : Nat} {m : Msg} {e : Env} (ht : s.th t = some (m, i)) (hs : step limit s (.next t e) = some s') (hc : s.clean i = true)
    (h1 : e.write = some k) (h2 : e.openOk = true) (h3 : e.rotClose = none) :
    (s'.files i).fp = .dead ∧ s'.log i = s.log i ∧ (s'.disk i).flatMap (·.text) <+: (s.log i).flatMap (·.2.line) ++ m.line.take k := by
  have hi := inv hl h
  simp only [FileLog.step, ht] at hs
  split at hs
  · cases hs
  injection hs with hs
  obtain ⟨g1, g2, g3⟩ := sendTo_fail (m := m) (sev := clamp m.sev) (hi.good i hc 0) (by omega) h1 h2 h3
  have e : ((s.log i).map (·.2.line)).flatten = (s.log i).flatMap (·.2.line) := by rw [List.flatMap_def]
  rw [e] at g3
  subst hs
  refine ⟨by simpa [upd] using g1, by simp [g2], ?_⟩
  simp only [upd, if_true]
  exact g3

/-- **C102** A file that is marked as dead is never touched again. -/
theorem C102_dead {limit : Nat} {s s' : State} {a : Act} {i : Nat} (h : (s.files i).fp = .dead) (hs : step limit s a = some s') : (s'.files i).fp = .dead ∧ s'.disk i = s.disk i ∧ s'.log i = s.log i := by
  cases a with
  | start t m =>
    simp only [FileLog.step] at hs
    split at hs
    · injection hs with hs; subst hs; exact ⟨h, rfl, rfl⟩
    · cases hs
  | next t e =>
    simp only [FileLog.step] at hs
    rcases hth : s.th t with _ | ⟨m, j⟩
    · rw [hth] at hs; cases hs
    rw [hth] at hs
    simp only [] at hs
    split at hs
    · cases hs
    injection hs with hs; subst hs
    simp only [upd]
    by_cases ej : i = j
    · subst ej; simp [sendTo, h]
    · refine ⟨by simpa [ej] using h, by simp [ej], ?_⟩
      split <;> simp [upd, ej]
  | flush j e =>
    simp only [FileLog.step] at hs
    split at hs
    · cases hs
    injection hs with hs; subst hs
    simp only [upd]
    by_cases ej : i = j
    · subst ej; simp [flush, h]
    · simp [ej, h]
  | close j e =>
    simp only [FileLog.step] at hs
    split at hs
    · cases hs
    injection hs with hs; subst hs
    simp only [upd]
    by_cases ej : i = j
    · subst ej; simp [close, h]
    · simp [ej, h]

/-! ### Concrete runs and disagreements -/

/-- Runs a list of moves and looks at the outcome. -/
def after {α : Type} [DecidableEq α] (limit : Nat) (acts : List Act) (f : State → α) (x : α) : Bool := match exec (step limit) init acts with
  | some s => decide (f s = x)
  | none => false

theorem after_reached {α : Type} [DecidableEq α] {limit : Nat} {acts : List Act} {f : State → α} {x : α} (h : after limit acts f x = true) : ∃ s, Reached limit s ∧ f s = x := by
  unfold after at h
  split at h
  · rename_i s hs
    exact ⟨s, Reachable.exec (Reach.init rfl trivial) acts hs, by simpa using h⟩
  · cases h

/-- Two threads log at the same time: a warning and an INFO message. The files are as they should be. -/
example : ∃ s, Reached 100 s ∧ (s.clean 0 && s.clean 1, s.th 1, s.disk 0, s.disk 1) = (true, none, [⟨5, [97, 98], 1⟩], [⟨5, [98], 1⟩]) :=
  after_reached (acts := [.start 1 ⟨[98], 1⟩, .start 2 ⟨[97], 0⟩, .next 1 { now := 5 }, .next 2 { now := 5 }, .next 1 { now := 6 }]) (by decide +kernel)

/-- Disagreement: `logbufsecs` does not limit how long a message stays in the buffer, because the time is looked at only when something is written to that file: for every `T` there is a run in which an error that was logged in second 1 is still not in its
file in second `T + 1`, with the default of 30 seconds, although messages were logged in between. -/
theorem C102_no_time_limit (T : Nat) : ∃ s, Reached 100 s ∧ s.clock = T + 1 ∧ (s.log 2 = [(1, ⟨[98], 2⟩)]) ∧ (s.disk 2).flatMap (·.text) = [] := by
  obtain ⟨s, hr, hs⟩ : ∃ s, Reached 100 s ∧ (s.clock, s.th 1, s.log 2, (s.disk 2).flatMap (·.text)) = (1, none, [(1, ⟨[98], 2⟩)], []) :=
    after_reached (acts := [.start 1 ⟨[98], 2⟩, .next 1 { now := 1, level := 2 }, .next 1 { now := 1, level := 2 }, .next 1 { now := 1, level := 2 }]) (by decide +kernel)
  simp only [Prod.mk.injEq] at hs
  obtain ⟨h1, h2, h3, h4⟩ := hs
  have r1 : step 100 s (.start 1 ⟨[97], 0⟩) = some { s with th := upd s.th 1 (some (⟨[97], 0⟩, 0)), sent := upd s.sent 1 (s.sent 1 ++ [⟨[97], 0⟩]) } := by
    simp [FileLog.step, h2, clamp]
  obtain ⟨s2, r2⟩ : ∃ s2, step 100 { s with th := upd s.th 1 (some (⟨[97], 0⟩, 0)), sent := upd s.sent 1 (s.sent 1 ++ [⟨[97], 0⟩]) } (.next 1 { now := T + 1, level := 2 }) = some s2 := by
    simp [FileLog.step, upd, h1]
  refine ⟨s2, Reach.step (Reach.step hr r1 trivial) r2 trivial, ?_⟩
  simp only [FileLog.step, upd, if_true, h1] at r2
  rw [if_neg (by omega)] at r2
  injection r2 with r2
  subst r2
  refine ⟨rfl, ?_, ?_⟩
  · simp only; split <;> simpa [upd] using h3
  · simpa [upd] using h4

/-- Disagreement: when the file that has reached its limit is closed, the result of `fclose` is ignored. If that fails (a full disk, say), the buffered lines are lost and nothing tells: the first line is in no file and no buffer, and logging goes on. -/
theorem C102_rotation_loses : ∃ s, Reached 1 s ∧ (s.log 0, (s.files 0).fp, s.disk 0) = ([(1, ⟨[97], 0⟩), (1, ⟨[98], 0⟩)], .open 2, [⟨1, [], 1⟩, ⟨2, [98], 1⟩]) :=
  after_reached (acts := [.start 1 ⟨[97], 0⟩, .next 1 { now := 1 }, .start 1 ⟨[98], 0⟩, .next 1 { now := 2, rotClose := some 0, level := -1 }]) (by decide +kernel)

/-- Disagreement: a file that reaches its limit within the second in which it was opened is opened again under the same name and grows on: here a file with a limit of 2 bytes has 6. -/
theorem C102_same_second : ∃ s, Reached 2 s ∧ (s.clean 0, s.disk 0) = (true, [⟨1, [97, 97, 97, 97, 97, 97], 3⟩]) :=
  after_reached (acts := [.start 1 ⟨[97, 97], 0⟩, .next 1 { now := 1, level := -1 }, .start 1 ⟨[97, 97], 0⟩, .next 1 { now := 1, level := -1 }, .start 1 ⟨[97, 97], 0⟩, .next 1 { now := 1, level := -1 }]) (by decide +kernel)

end Verif.FileLog
