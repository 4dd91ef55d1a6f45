import Verif.FiberFile.Spec
/-! What the buffer holds between two calls. -/
namespace Verif.FiberFile
open Verif.Common

theorem poke_length {buf : List Byte} {p : Nat} {bs : List Byte} (h : p + bs.length ≤ buf.length) :
    (poke buf p bs).length = buf.length := by
  simp only [poke, List.length_append, List.length_take, List.length_drop]
  omega

theorem poke_at {buf : List Byte} {p : Nat} {bs : List Byte} (h : p ≤ buf.length) :
    ((poke buf p bs).drop p).take bs.length = bs := by
  have hl : (buf.take p).length = p := by rw [List.length_take]; omega
  simp only [poke, List.append_assoc]
  rw [List.drop_append_of_le_length (by omega), List.drop_eq_nil_of_le (by omega), List.nil_append, List.take_left']
  rfl

theorem poke_before {buf : List Byte} {p : Nat} {bs : List Byte} {q k : Nat} (h : p ≤ buf.length) (hq : q + k ≤ p) :
    ((poke buf p bs).drop q).take k = (buf.drop q).take k := by
  have hl : (buf.take p).length = p := by rw [List.length_take]; omega
  simp only [poke, List.append_assoc]
  rw [List.drop_append_of_le_length (by omega), List.take_append_of_le_length (by rw [List.length_drop]; omega),
    List.drop_take, List.take_take, Nat.min_eq_left (by omega)]

theorem fileAt_length (file : List Byte) (off n : Nat) : (fileAt file off n).length = min n (file.length - off) := by
  simp [fileAt]

theorem fileAt_add (file : List Byte) (off a b : Nat) :
    fileAt file off (a + b) = fileAt file off a ++ fileAt file (off + a) b := by
  simp only [fileAt, List.take_add, List.drop_drop]

theorem fileAt_take (file : List Byte) (off a b : Nat) (h : b ≤ a) : (fileAt file off a).take b = fileAt file off b := by
  simp only [fileAt, List.take_take, Nat.min_eq_left h]

theorem fileAt_drop (file : List Byte) (off a b : Nat) : (fileAt file off (b + a)).drop b = fileAt file (off + b) a := by
  simp only [fileAt, List.drop_take, List.drop_drop, Nat.add_sub_cancel_left]

theorem fileAt_cut (file : List Byte) (off n : Nat) : fileAt file off (fileAt file off n).length = fileAt file off n := by
  rw [fileAt_length, fileAt, fileAt, List.take_eq_take_iff, List.length_drop]
  omega

theorem toSize_nat {n : Nat} (h : n < 2 ^ 63) : toSize (n : Int) = n := by
  simp only [toSize]
  have : ((n : Int) % 2 ^ 64) = n := Int.emod_eq_of_lt (by omega) (by omega)
  rw [this]; rfl

/-- What holds between two calls when no prefetch failed. -/
structure Inv (s : F) : Prop where
  blen : 0 < s.buf.length
  sz : s.file.length + s.buf.length < 2 ^ 63
  fits : s.pstart + s.plen ≤ s.buf.length
  cached : s.plen ≠ 0 → ∃ o, s.fpo = some o ∧ (s.buf.drop s.pstart).take s.plen = fileAt s.file o s.plen
  act : ∀ p, s.ptr = some p → ∃ o, s.fpo = some o ∧ p = s.pstart + s.plen ∧
    ((s.job = some ⟨p, s.buf.length - p, o + s.plen⟩ ∧ s.ready = false) ∨
     (s.job = none ∧ s.ready = true ∧ s.res = (fileAt s.file (o + s.plen) (s.buf.length - p)).length ∧
      (s.buf.drop p).take (fileAt s.file (o + s.plen) (s.buf.length - p)).length =
        fileAt s.file (o + s.plen) (s.buf.length - p)))
  noact : s.ptr = none → s.job = none ∧ s.ready = false

/-- No prefetch is active. -/
structure Quiet (s : F) : Prop where
  blen : 0 < s.buf.length
  sz : s.file.length + s.buf.length < 2 ^ 63
  ptr : s.ptr = none
  job : s.job = none
  ready : s.ready = false

/-- The same file and a buffer of the same size. -/
def Same (s s' : F) : Prop := s'.file = s.file ∧ s'.buf.length = s.buf.length

theorem Quiet.empty {s : F} (h : Quiet s) (hp : s.plen = 0) (hst : s.pstart ≤ s.buf.length) : Inv s :=
  ⟨h.blen, h.sz, by omega, fun hn => absurd hp hn, fun p hpp => (by rw [h.ptr] at hpp; cases hpp), fun _ => ⟨h.job, h.ready⟩⟩

theorem inv_init {s : F} (h : Init s) : Inv s := by
  obtain ⟨file, buf, hb, hsz, rfl⟩ := h
  exact Quiet.empty ⟨hb, hsz, rfl, rfl, rfl⟩ rfl (Nat.zero_le _)

theorem inv_run {s : F} (hi : Inv s) : Inv (s.run .ok) ∧ Same s (s.run .ok) ∧ (s.run .ok).ptr = s.ptr ∧ (s.run .ok).fpo = s.fpo
    ∧ (s.run .ok).plen = s.plen ∧ (s.run .ok).pstart = s.pstart ∧ (s.ptr.isSome → (s.run .ok).ready = true) := by
  unfold F.run
  cases hj : s.job with
  | none =>
    refine ⟨hi, ⟨rfl, rfl⟩, rfl, rfl, rfl, rfl, fun hp => ?_⟩
    obtain ⟨p, hp⟩ := Option.isSome_iff_exists.1 hp
    obtain ⟨o, ho, rfl, ⟨h1, h2⟩ | ⟨h1, h2, _⟩⟩ := hi.act p hp
    · rw [hj] at h1; cases h1
    · exact h2
  | some j =>
    have hptr : ∃ p, s.ptr = some p := by
      cases hp : s.ptr with
      | none => rw [(hi.noact hp).1] at hj; cases hj
      | some p => exact ⟨p, rfl⟩
    obtain ⟨p, hp⟩ := hptr
    obtain ⟨o, ho, rfl, ⟨h1, h2⟩ | ⟨h1, h2, _⟩⟩ := hi.act p hp
    · rw [hj] at h1
      cases h1
      have hl : (fileAt s.file (o + s.plen) (s.buf.length - (s.pstart + s.plen))).length
          ≤ s.buf.length - (s.pstart + s.plen) := by rw [fileAt_length]; omega
      have hf := hi.fits
      have hpl : (poke s.buf (s.pstart + s.plen) (fileAt s.file (o + s.plen) (s.buf.length - (s.pstart + s.plen)))).length
          = s.buf.length := poke_length (by omega)
      refine ⟨⟨?_, ?_, ?_, ?_, ?_, ?_⟩, ⟨rfl, hpl⟩, rfl, rfl, rfl, rfl, fun _ => rfl⟩
      · show 0 < (poke _ _ _).length
        rw [hpl]; exact hi.blen
      · show _ + (poke _ _ _).length < _
        rw [hpl]; exact hi.sz
      · show _ ≤ (poke _ _ _).length
        rw [hpl]; exact hi.fits
      · intro hn
        obtain ⟨o', ho', hc⟩ := hi.cached hn
        refine ⟨o', ho', ?_⟩
        show ((poke _ _ _).drop _).take _ = _
        rw [poke_before hf (Nat.le_refl _)]
        exact hc
      · intro p' hp'
        rw [show ({ s with buf := _, res := _, ready := _, job := none } : F).ptr = s.ptr from rfl, hp] at hp'
        cases hp'
        refine ⟨o, ho, rfl, .inr ⟨rfl, rfl, ?_, ?_⟩⟩
        · show _ = ((fileAt _ _ ((poke _ _ _).length - _)).length : Int)
          rw [hpl]
        · show ((poke _ _ _).drop _).take _ = fileAt _ _ ((poke _ _ _).length - _)
          rw [hpl]
          exact poke_at hf
      · intro hn
        rw [show ({ s with buf := _, res := _, ready := _, job := none } : F).ptr = s.ptr from rfl, hp] at hn
        cases hn
    · rw [hj] at h1; cases h1

theorem handleActive_spec {s : F} (hi : Inv s) (hp : s.ptr.isSome) : ∃ s1, s.handleActive .ok = .ret () s1 ∧ Same s s1 ∧ Quiet s1
    ∧ (s1.fpo = none ∨ (Inv s1 ∧ s1.fpo = s.fpo ∧ s1.plen ≠ 0)) := by
  obtain ⟨hi1, ⟨hsf, hsb⟩, hptr, hfpo, hplen, hpst, hrd⟩ := inv_run hi
  have hready := hrd hp
  obtain ⟨p, hp⟩ := Option.isSome_iff_exists.1 hp
  generalize hg : s.run .ok = r at *
  rw [hp] at hptr
  obtain ⟨o, ho, hpp, ⟨h1, h2⟩ | ⟨h1, h2, h3, h4⟩⟩ := hi1.act p hptr
  · rw [h2] at hready; cases hready
  · have hsz := hi1.sz
    have hfit := hi1.fits
    have hlen : (fileAt r.file (o + r.plen) (r.buf.length - p)).length ≤ r.buf.length - p := by rw [fileAt_length]; omega
    have hts : toSize r.res = (fileAt r.file (o + r.plen) (r.buf.length - p)).length := by
      rw [h3]; exact toSize_nat (by omega)
    unfold F.handleActive
    simp only [hg, h2, Bool.true_eq_false, if_false, hts]
    generalize hL : (fileAt r.file (o + r.plen) (r.buf.length - p)).length = L at *
    by_cases h0 : 0 < L
    · rw [if_pos h0]
      have hcut : fileAt r.file (o + r.plen) (r.buf.length - p) = fileAt r.file (o + r.plen) L := by
        rw [← hL, fileAt_cut]
      by_cases hz : r.plen = 0
      · rw [if_pos hz, hptr]
        have hq : Quiet { r with ready := false, pstart := p, plen := L, ptr := none } := ⟨hi1.blen, hsz, rfl, h1, rfl⟩
        refine ⟨_, rfl, ⟨hsf, hsb⟩, hq, .inr ⟨⟨hi1.blen, hsz, ?_, ?_, fun _ h => (by cases h), fun _ => ⟨h1, rfl⟩⟩, hfpo, ?_⟩⟩
        · show p + L ≤ r.buf.length
          omega
        · intro _
          refine ⟨o, ho, ?_⟩
          show (r.buf.drop p).take L = fileAt r.file o L
          rw [h4, hcut, hz, Nat.add_zero]
        · show L ≠ 0
          omega
      · rw [if_neg hz, if_pos (by rw [hptr, hpp])]
        have hmod : (L + r.plen) % 2 ^ 64 = L + r.plen := Nat.mod_eq_of_lt (by omega)
        rw [hmod]
        refine ⟨_, rfl, ⟨hsf, hsb⟩, ⟨hi1.blen, hsz, rfl, h1, rfl⟩,
          .inr ⟨⟨hi1.blen, hsz, ?_, ?_, fun _ h => (by cases h), fun _ => ⟨h1, rfl⟩⟩, hfpo, ?_⟩⟩
        · show r.pstart + (L + r.plen) ≤ r.buf.length
          omega
        · intro _
          obtain ⟨o', ho', hc⟩ := hi1.cached hz
          rw [ho] at ho'; cases ho'
          refine ⟨o, ho, ?_⟩
          show (r.buf.drop r.pstart).take (L + r.plen) = fileAt r.file o (L + r.plen)
          rw [Nat.add_comm L, List.take_add, hc, List.drop_drop, fileAt_add, ← hpp, h4, hcut]
        · show L + r.plen ≠ 0
          omega
    · rw [if_neg h0]
      exact ⟨_, rfl, ⟨hsf, hsb⟩, ⟨hi1.blen, hsz, rfl, h1, rfl⟩, .inl rfl⟩

end Verif.FiberFile
