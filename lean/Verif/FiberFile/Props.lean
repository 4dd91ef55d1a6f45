import Verif.FiberFile.Read
/-!
C70: a file read with prefetching returns the bytes of the file; two ways in which it does not.
-/
namespace Verif.FiberFile
open Verif.Common

theorem inv_reach {s : F} (h : Reachable Init stepFine s) : Inv s := by
  refine Reachable.invariant Inv (fun s h => inv_init h) (fun s a s' hi hst => ?_) h
  unfold stepFine at hst
  split at hst
  · rename_i hf
    cases a with
    | task o =>
      simp only [Act.fine, decide_eq_true_eq] at hf
      subst hf
      simp only [step] at hst
      split at hst
      · cases hst
      · cases hst; exact (inv_run hi).1
    | read off n o1 o2 =>
      simp only [Act.fine, decide_eq_true_eq] at hf
      subst hf
      have := read_spec hi off (n + 1) o2 (Nat.succ_pos n)
      simp only [step] at hst
      split at this
      · rw [this] at hst; cases hst
      · obtain ⟨r, t, he, hr⟩ := this
        rw [he] at hst
        cases hst
        cases r with
        | ok bs => exact hr.1.1
        | error _ => exact hr.2.1
  · cases hst

/-- C70, what a read returns: in every history without a failed prefetch a read that returns bytes returns those of the file at
its offset, all of them if the buffer has at least two bytes, and it fails only if its own access to the file does. It does not
fail a check and uses no memory outside the buffer. Missing: it may wait for ever (`C70_seek_hangs`), and after a failed prefetch
it returns other bytes (`C70_prefetch_error`). -/
theorem C70_read_partial {s : F} (h : Reachable Init stepFine s) (off n : Nat) (o2 : Out) :
    (∀ bs s', s.read off (n + 1) .ok o2 = .ret (.ok bs) s' → Right s.file s.buf.length off (n + 1) bs) ∧
    (∀ e s', s.read off (n + 1) .ok o2 = .ret (.error e) s' → o2 ≠ .ok) ∧
    s.read off (n + 1) .ok o2 ≠ .crash ∧ s.read off (n + 1) .ok o2 ≠ .ub := by
  have := read_spec (inv_reach h) off (n + 1) o2 (Nat.succ_pos n)
  split at this
  · rw [this]
    exact ⟨fun _ _ h => (by cases h), fun _ _ h => (by cases h), fun h => (by cases h), fun h => (by cases h)⟩
  · obtain ⟨r, t, he, hr⟩ := this
    rw [he]
    refine ⟨fun bs s' h => ?_, fun e s' h => ?_, fun h => (by cases h), fun h => (by cases h)⟩
    · cases h; exact hr.2
    · cases h; exact hr.1

theorem seq_aux : ∀ (ns : List (Nat × Bool)) (s : F) (off : Nat), Inv s → 2 ≤ s.buf.length →
    (s.plen ≠ 0 ∨ s.ptr.isSome → s.fpo = some off) →
    ∃ bss, seqRead s off ns = some bss ∧ bss.flatten = (s.file.drop off).take (total ns)
  | [], s, off, _, _, _ => ⟨[], rfl, by simp [total]⟩
  | (n, b) :: ns, s, off, hi, hb, hf => by
    have : ∃ t : F, (if b then s.run .ok else s) = t ∧ Inv t ∧ Same s t ∧ (t.plen ≠ 0 ∨ t.ptr.isSome → t.fpo = some off) := by
      cases b with
      | false => exact ⟨s, rfl, hi, ⟨rfl, rfl⟩, hf⟩
      | true =>
        obtain ⟨h1, h2, h3, h4, h5, _⟩ := inv_run hi
        exact ⟨s.run .ok, rfl, h1, h2, by rw [h3, h4, h5]; exact hf⟩
    obtain ⟨t, ht, hti, hst, htf⟩ := this
    have hr := read_spec hti off (n + 1) .ok (Nat.succ_pos n)
    rw [if_neg (fun h => h.2.2 (htf (.inl h.2.1)))] at hr
    obtain ⟨r, s', he, hr⟩ := hr
    cases r with
    | error _ => exact absurd rfl hr.1
    | ok bs =>
      obtain ⟨⟨h1, h2, h3⟩, h4⟩ := hr
      have hb' : 2 ≤ s'.buf.length := by rw [h2.2, hst.2]; exact hb
      have hbs := h4.full (by rw [hst.2]; exact hb)
      obtain ⟨bss, h5, h6⟩ := seq_aux ns s' (off + bs.length) h1 hb' h3
      refine ⟨bs :: bss, ?_, ?_⟩
      · unfold seqRead
        rw [ht, he]
        simp only [h5, Option.map_some]
      · rw [List.flatten_cons, h6, hbs, h2.1, hst.1, show total ((n, b) :: ns) = (n + 1) + total ns from by simp [total],
          List.take_add (i := n + 1), List.drop_drop]
        congr 1
        rw [List.length_take, List.length_drop]
        by_cases hle : n + 1 ≤ s.file.length - off
        · rw [Nat.min_eq_left hle]
        · rw [List.drop_eq_nil_of_le (by omega), List.drop_eq_nil_of_le (by omega)]

/-- C70, sequential reading: reads of any sizes, one after another from any offset, all return, whenever the prefetches are done,
and together they return the bytes of the file. -/
theorem C70_sequential (file buf : List Byte) (hb : 2 ≤ buf.length) (hsz : file.length + buf.length < 2 ^ 63) (off : Nat)
    (ns : List (Nat × Bool)) :
    ∃ bss, seqRead (F.new file buf) off ns = some bss ∧ bss.flatten = (file.drop off).take (total ns) :=
  seq_aux ns (F.new file buf) off (inv_init ⟨file, buf, by omega, hsz, rfl⟩) hb
    (fun h => (by rcases h with h | h <;> simp [F.new] at h))

/-- C70, a read elsewhere never returns: after one read that left something to prefetch, a read at any offset other than the next
one waits for ever, for a prefetch that was never started. -/
theorem C70_seek_hangs (file buf : List Byte) (hb : 0 < buf.length) (hsz : file.length + buf.length < 2 ^ 63) (off n : Nat)
    (hl : off + (n + 1) < file.length) :
    ∃ s1, (F.new file buf).read off (n + 1) .ok .ok = .ret (.ok ((file.drop off).take (n + 1))) s1 ∧ s1.job = none ∧
      ∀ off' m o2, off' ≠ off + (n + 1) → s1.read off' (m + 1) .ok o2 = .hang := by
  have hi : Inv (F.new file buf) := inv_init ⟨file, buf, hb, hsz, rfl⟩
  obtain ⟨r, s', he', h1, h2, h3, h4⟩ :=
    fill_sync (s := F.new file buf) ⟨hb, hsz, rfl, rfl, rfl⟩ rfl [] off (n + 1) .ok (Nat.succ_pos n)
  cases r with
  | error _ => exact absurd rfl h4
  | ok out =>
    obtain ⟨h5, h6, h7⟩ := h4
    simp only [List.nil_append, List.length_nil, Nat.sub_zero] at h5 h6 h7
    have hne := h7 hl
    subst h5
    refine ⟨s', he', (h1.noact h3).1, fun off' m o2 hoff => ?_⟩
    have := read_spec h1 off' (m + 1) o2 (Nat.succ_pos m)
    have hx : s'.fpo ≠ some off' := by
      intro h
      refine hoff ?_
      rw [(h6 hne).1] at h
      exact (Option.some.inj h).symm
    rw [if_pos ⟨h3, hne, hx⟩] at this
    exact this

/-- C70, when exactly a read waits for ever: there are bytes in the buffer, they are of another place, and no prefetch is active. -/
theorem C70_hang_iff {s : F} (h : Reachable Init stepFine s) (off n : Nat) (o2 : Out) :
    s.read off (n + 1) .ok o2 = .hang ↔ s.ptr = none ∧ s.plen ≠ 0 ∧ s.fpo ≠ some off := by
  have := read_spec (inv_reach h) off (n + 1) o2 (Nat.succ_pos n)
  split at this
  · rename_i hh; exact ⟨fun _ => hh, fun _ => this⟩
  · rename_i hh
    obtain ⟨r, t, he, _⟩ := this
    rw [he]
    exact ⟨fun h => (by cases h), fun h => absurd h hh⟩

/-- C70, a read of bytes that are in the buffer does not wait: its result does not depend on what the disk does. -/
theorem C70_hit {s : F} (h : Reachable Init stepFine s) (off n : Nat) (hf : s.fpo = some off) (hn : n + 1 ≤ s.plen) :
    ∃ s', ∀ o1 o2, s.read off (n + 1) o1 o2 = .ret (.ok ((s.file.drop off).take (n + 1))) s' := by
  have hi := inv_reach h
  have key : ∀ o1 o2 : Out, s.read off (n + 1) o1 o2 = s.read off (n + 1) .ok .ok := by
    intro o1 o2
    have hne : s.ptr.isSome ∨ s.plen ≠ 0 := .inr (by omega)
    unfold F.read
    rw [if_pos hne, if_pos hne]
    have hc : ¬((n + 1 > s.plen ∧ s.ptr.isSome) ∨ s.fpo ≠ some off) := by
      rintro (⟨h, _⟩ | h)
      · omega
      · exact h hf
    unfold F.fromCache
    rw [if_neg hc, if_neg hc]
    obtain ⟨hbs, hbl, hk0, hkl, hA, hB⟩ := hit_spec hi off (n + 1) .ok (Nat.succ_pos n) hf (fun _ => hn) hne
    simp only [F.takeCache, hf, ne_eq, not_true_eq_false, if_false, Nat.not_lt.2 hkl]
    by_cases hd : s.ptr.isSome = true ∨ s.buf.length / 2 ≤ s.plen - min s.plen (n + 1)
    · rw [if_pos hd]
      rfl
    · rw [if_neg hd]
      obtain ⟨hle, _⟩ := hB hd
      rw [if_neg (Nat.not_lt.2 hle)]
      simp only [goOn, if_true]
      have : ¬ (List.take (min s.plen (n + 1)) (List.drop s.pstart s.buf)).length < n + 1 := by omega
      simp only [F.fill, this, if_false]
  obtain ⟨hbs, hbl, hk0, hkl, hA, hB⟩ := hit_spec hi off (n + 1) .ok (Nat.succ_pos n) hf (fun _ => hn) (.inr (by omega))
  have hmin : min s.plen (n + 1) = n + 1 := by omega
  have hs := read_spec hi off (n + 1) .ok (Nat.succ_pos n)
  rw [if_neg (fun h => h.2.2 hf)] at hs
  obtain ⟨r, s', he, hr⟩ := hs
  cases r with
  | error _ => exact absurd rfl hr.1
  | ok bs =>
    refine ⟨s', fun o1 o2 => ?_⟩
    rw [key, he]
    congr 2
    have hpre := hr.2.pre
    by_cases hB2 : 2 ≤ s.buf.length
    · exact hr.2.full hB2
    · have hb := hi.blen
      have hfit := hi.fits
      have hn0 : n = 0 := by omega
      subst hn0
      have hne : bs ≠ [] := fun hbe => by
        have := hr.2.eof hbe
        rw [hmin] at hbs hbl
        rw [hbs, fileAt_length] at hbl
        omega
      refine hpre.eq_of_length_le ?_
      have := List.length_pos_iff.2 hne
      rw [List.length_take]
      omega

/-- C70, the task of a prefetch and the calls use other bytes: the task writes from the end of the prefetched bytes to the end of
the buffer, and the prefetched bytes are those of the file. -/
theorem C70_disjoint {s : F} (h : Reachable Init stepFine s) :
    s.pstart + s.plen ≤ s.buf.length ∧
    (∀ j, s.job = some j → j.ptr = s.pstart + s.plen ∧ j.ptr + j.len = s.buf.length ∧ s.fpo.map (· + s.plen) = some j.offs) ∧
    (s.plen ≠ 0 → ∃ o, s.fpo = some o ∧ (s.buf.drop s.pstart).take s.plen = (s.file.drop o).take s.plen) := by
  have hi := inv_reach h
  refine ⟨hi.fits, fun j hj => ?_, hi.cached⟩
  cases hp : s.ptr with
  | none => rw [(hi.noact hp).1] at hj; cases hj
  | some p =>
    obtain ⟨o, ho, hpe, ⟨h1, _⟩ | ⟨h1, _⟩⟩ := hi.act p hp
    · rw [hj] at h1
      cases h1
      refine ⟨hpe, ?_, by rw [ho]; rfl⟩
      show p + (s.buf.length - p) = _
      have := hi.fits
      omega
    · rw [hj] at h1; cases h1

/-- C70, `Close` returns, and no task that uses the buffer is left, even if the prefetch fails. -/
theorem C70_close {s : F} (h : Reachable Init stepFine s) (o : Out) : ∃ s', s.close o = .ret () s' ∧ s'.job = none := by
  have hi := inv_reach h
  unfold F.close
  cases hp : s.ptr with
  | none => exact ⟨s, by simp, (hi.noact hp).1⟩
  | some p =>
    simp only [Option.isSome_some, if_true]
    obtain ⟨of, hof, hpe, ⟨h1, h2⟩ | ⟨h1, h2, _⟩⟩ := hi.act p hp
    · cases o <;> simp [F.run, h1]
    · simp [F.run, h1, h2]

theorem toSize_neg : toSize (-1) = 2 ^ 64 - 1 := by decide

/-- C70, a failed prefetch: the size `-1` is taken for a very large one. If the buffer was used up in the meantime then the next
read returns whatever the failed prefetch left there, or leaves the buffer. -/
theorem C70_prefetch_error {s : F} (h : Reachable Init stepFine s) (off n : Nat) (g : List Byte) (o2 : Out) (j : Job)
    (hj : s.job = some j) (hf : s.fpo = some off) (hz : s.plen = 0) (hn : n + 1 < 2 ^ 63) :
    (n + 1 ≤ j.len → n + 1 ≤ g.length → ∃ s', s.read off (n + 1) (.err g) o2 = .ret (.ok (g.take (n + 1))) s') ∧
    (j.len < n + 1 → s.read off (n + 1) (.err g) o2 = .ub) := by
  have hi := inv_reach h
  obtain ⟨_, hd, _⟩ := C70_disjoint h
  obtain ⟨hd1, hd2, _⟩ := hd j hj
  rw [hz, Nat.add_zero] at hd1
  have hp : s.ptr = some j.ptr := by
    cases hp : s.ptr with
    | none => rw [(hi.noact hp).1] at hj; cases hj
    | some p =>
      obtain ⟨o, ho, hpe, ⟨h1, _⟩ | ⟨h1, _⟩⟩ := hi.act p hp
      · rw [hj] at h1; cases h1; rfl
      · rw [hj] at h1; cases h1
  have hsz := hi.sz
  have hg : (g.take j.len).length ≤ j.len := by rw [List.length_take]; omega
  have hpl : (poke s.buf j.ptr (g.take j.len)).length = s.buf.length := poke_length (by omega)
  have hh : s.handleActive (.err g) = .ret () { s with
      buf := poke s.buf j.ptr (g.take j.len), res := -1, ready := false, job := none, pstart := j.ptr, plen := 2 ^ 64 - 1,
      ptr := none } := by
    simp only [F.handleActive, F.run, hj, Bool.true_eq_false, if_false, toSize_neg, hz, hp]
    rfl
  have hrd : s.read off (n + 1) (.err g) o2 = goOn (F.takeCache { s with
      buf := poke s.buf j.ptr (g.take j.len), res := -1, ready := false, job := none, pstart := j.ptr, plen := 2 ^ 64 - 1,
      ptr := none } off (n + 1)) off (n + 1) o2 := by
    unfold F.read
    rw [if_pos (.inl (by rw [hp]; rfl))]
    unfold F.fromCache
    rw [if_pos (.inl ⟨by omega, by rw [hp]; rfl⟩), hh]
  have hmin : min (2 ^ 64 - 1) (n + 1) = n + 1 := by omega
  constructor
  · intro h1 h2
    rw [hrd]
    simp only [F.takeCache, hf, ne_eq, not_true_eq_false, if_false, hmin, hpl]
    rw [if_neg (by omega), if_pos (.inr (by omega))]
    have := congrArg (List.take (n + 1)) (poke_at (buf := s.buf) (p := j.ptr) (bs := g.take j.len) (by omega))
    rw [List.take_take, List.take_take, Nat.min_eq_left (by rw [List.length_take]; omega), Nat.min_eq_left h1] at this
    simp only [goOn, Bool.false_eq_true, if_false, this]
    exact ⟨_, rfl⟩
  · intro h1
    rw [hrd]
    simp only [F.takeCache, hf, ne_eq, not_true_eq_false, if_false, hmin, hpl]
    rw [if_pos (by omega)]
    rfl

/-! Concrete cases. -/

theorem reach_of {file buf : List Byte} {acts : List Act} {P : F → Bool}
    (h : (exec stepFine (F.new file buf) acts).map P = some true) (hb : 0 < buf.length) (hs : file.length + buf.length < 2 ^ 63) :
    ∃ s, Reachable Init stepFine s ∧ P s = true := by
  cases he : exec stepFine (F.new file buf) acts with
  | none => rw [he] at h; cases h
  | some s =>
    rw [he] at h
    exact ⟨s, Reachable.exec (.init ⟨file, buf, hb, hs, rfl⟩ trivial) acts he, by simpa using h⟩

/-- A file of ten bytes and a buffer of four: after three reads the buffer is empty and a prefetch is active. -/
def acts1 : List Act := [.read 0 0 .ok .ok, .read 1 2 .ok .ok, .read 4 0 .ok .ok]

example : ∃ s, Reachable Init stepFine s ∧
    decide (s.plen = 0 ∧ s.fpo = some 5 ∧ s.job = some ⟨1, 3, 5⟩ ∧ s.file = [1, 2, 3, 4, 5, 6, 7, 8, 9, 10]) = true :=
  reach_of (file := [1, 2, 3, 4, 5, 6, 7, 8, 9, 10]) (buf := [0, 0, 0, 0]) (acts := acts1) (by decide) (by decide) (by decide)

/-- C70, a read after a failed prefetch returns bytes that the file does not have: here the eighth to tenth byte are read as 77. -/
theorem C70_wrong_bytes : ∃ s, Reachable Init stepFine s ∧ s.file = [1, 2, 3, 4, 5, 6, 7, 8, 9, 10] ∧
    ∃ s', s.read 5 3 (.err [77, 77, 77]) .ok = .ret (.ok [77, 77, 77]) s' := by
  obtain ⟨s, hr, h⟩ := reach_of (file := [1, 2, 3, 4, 5, 6, 7, 8, 9, 10]) (buf := [0, 0, 0, 0]) (acts := acts1)
    (P := fun s => decide (s.plen = 0 ∧ s.fpo = some 5 ∧ s.job = some ⟨1, 3, 5⟩ ∧ s.file = [1, 2, 3, 4, 5, 6, 7, 8, 9, 10]))
    (by decide) (by decide) (by decide)
  simp only [decide_eq_true_eq] at h
  obtain ⟨h1, h2, h3, h4⟩ := h
  exact ⟨s, hr, h4, (C70_prefetch_error hr 5 2 [77, 77, 77] .ok _ h3 h2 h1 (by omega)).1 (by decide) (by decide)⟩

/-- A state in which bytes are in the buffer and a prefetch is done. -/
example : ∃ s, Reachable Init stepFine s ∧ decide (s.plen = 1 ∧ s.fpo = some 4 ∧ s.ready = true ∧ s.res = 3) = true :=
  reach_of (file := [1, 2, 3, 4, 5, 6, 7, 8, 9, 10]) (buf := [0, 0, 0, 0])
    (acts := [.read 0 0 .ok .ok, .read 1 2 .ok .ok, .task .ok]) (by decide) (by decide) (by decide)

example : seqRead (F.new [1, 2, 3, 4, 5, 6, 7, 8, 9, 10] [0, 0, 0, 0]) 0 [(0, false), (2, false), (0, true), (3, false), (4, true)] =
    some [[1], [2, 3, 4], [5], [6, 7, 8, 9], [10]] := by decide

end Verif.FiberFile
