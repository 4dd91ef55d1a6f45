import Verif.FiberFile.Inv
/-! What one call does. -/
namespace Verif.FiberFile
open Verif.Common

theorem fill_sync {s : F} (hq : Quiet s) (hp : s.plen = 0) (bs : List Byte) (off n : Nat) (o : Out) (hn : bs.length < n) :
    ∃ r s', s.fill bs off n o = .ret r s' ∧ Inv s' ∧ Same s s' ∧ s'.ptr = none ∧
      match r with
      | .ok out => out = bs ++ fileAt s.file off (n - bs.length) ∧
          (s'.plen ≠ 0 → s'.fpo = some (off + (n - bs.length)) ∧ out.length = n)
          ∧ (off + (n - bs.length) < s.file.length → s'.plen ≠ 0)
      | .error _ => o ≠ .ok := by
  have hsz := hq.sz
  unfold F.fill
  simp only [hn, if_true, hp, Nat.sub_zero]
  cases o with
  | err g =>
    have hl : (poke s.buf 0 (g.take s.buf.length)).length = s.buf.length :=
      poke_length (by rw [List.length_take]; omega)
    refine ⟨_, _, rfl, Quiet.empty ⟨?_, ?_, hq.ptr, hq.job, hq.ready⟩ rfl (Nat.zero_le _), ⟨rfl, hl⟩, hq.ptr, by simp⟩
    · show 0 < (poke _ _ _).length
      rw [hl]; exact hq.blen
    · show _ + (poke _ _ _).length < _
      rw [hl]; exact hsz
  | ok =>
    simp only
    split
    · rename_i hle
      refine ⟨_, _, rfl, Quiet.empty ⟨hq.blen, hsz, hq.ptr, hq.job, hq.ready⟩ rfl (Nat.zero_le _), ⟨rfl, rfl⟩, hq.ptr, ?_,
        fun h => absurd rfl h, fun hlt => ?_⟩
      · rw [fileAt_length] at hle
        congr 1
        rw [fileAt, fileAt, List.take_eq_take_iff, List.length_drop]
        have := hq.blen
        omega
      · rw [fileAt_length] at hle
        have := hq.blen
        omega
    · rename_i hgt
      have hb := hq.blen
      rw [fileAt_length] at hgt
      rw [fileAt_drop, fileAt_take _ _ _ _ (by omega)]
      have hlen : (fileAt s.file (off + (n - bs.length)) s.buf.length).length ≤ s.buf.length := by rw [fileAt_length]; omega
      have hcut : (fileAt s.file off (n - bs.length + s.buf.length)).length - (n - bs.length)
          = (fileAt s.file (off + (n - bs.length)) s.buf.length).length := by
        rw [fileAt_length, fileAt_length]; omega
      rw [hcut]
      have hl : (poke s.buf 0 (fileAt s.file (off + (n - bs.length)) s.buf.length)).length = s.buf.length :=
        poke_length (by omega)
      refine ⟨_, _, rfl, ⟨?_, ?_, ?_, fun _ => ⟨_, rfl, ?_⟩, fun p hpp => ?_, fun _ => ⟨hq.job, hq.ready⟩⟩, ⟨rfl, hl⟩, hq.ptr, rfl,
        fun _ => ⟨rfl, ?_⟩, fun _ => ?_⟩
      · show 0 < (poke _ _ _).length
        rw [hl]; exact hq.blen
      · show _ + (poke _ _ _).length < _
        rw [hl]; exact hsz
      · show 0 + (fileAt s.file (off + (n - bs.length)) s.buf.length).length ≤ (poke _ _ _).length
        rw [hl]; omega
      · show ((poke _ _ _).drop 0).take _ = _
        rw [poke_at (Nat.zero_le _), fileAt_cut]
      · rw [show ({ s with pstart := 0, buf := _, fpo := _, plen := _ } : F).ptr = s.ptr from rfl, hq.ptr] at hpp
        cases hpp
      · show (bs ++ fileAt _ _ _).length = n
        rw [List.length_append, fileAt_length]; omega
      · show (fileAt _ _ _).length ≠ 0
        rw [fileAt_length]; omega

theorem fill_async {s : F} (hq : Quiet s) (bs : List Byte) (off n : Nat) (o : Out) (hn : bs.length = n) (hf : s.fpo = some off)
    (hp : s.plen ≤ s.buf.length) (hc : (s.buf.drop 0).take s.plen = fileAt s.file off s.plen) :
    ∃ s', s.fill bs off n o = .ret (.ok bs) s' ∧ Inv s' ∧ Same s s' ∧ s'.fpo = some off ∧ s'.plen = s.plen := by
  unfold F.fill
  simp only [hn, Nat.lt_irrefl, if_false]
  refine ⟨_, rfl, ⟨hq.blen, hq.sz, ?_, fun _ => ⟨off, hf, hc⟩, fun p hpp => ?_, fun h => (by cases h)⟩, ⟨rfl, rfl⟩, hf, rfl⟩
  · show 0 + s.plen ≤ s.buf.length
    omega
  · cases hpp
    refine ⟨off, hf, (Nat.zero_add _).symm, .inl ⟨?_, hq.ready⟩⟩
    show some _ = some _
    rw [hf]; rfl

theorem right_full {file : List Byte} {B off n : Nat} (h : 0 < n) : Right file B off n (fileAt file off n) := by
  refine ⟨List.prefix_refl _, fun he => ?_, fun _ => rfl⟩
  have := fileAt_length file off n
  rw [he] at this
  simp only [List.length_nil] at this
  omega

/-- The state after a read that returned `bs`. -/
def After (s s' : F) (off : Nat) (bs : List Byte) : Prop :=
  Inv s' ∧ Same s s' ∧ (s'.plen ≠ 0 ∨ s'.ptr.isSome → s'.fpo = some (off + bs.length))

/-- The part of `ReadFromCache` after the wait, and what follows. -/
theorem hit_spec {s : F} (hi : Inv s) (off n : Nat) (o2 : Out) (hn : 0 < n) (hf : s.fpo = some off)
    (hq : s.ptr.isSome → n ≤ s.plen) (hne : s.ptr.isSome ∨ s.plen ≠ 0) :
    let k := min s.plen n
    let bs := (s.buf.drop s.pstart).take k
    let s1 := { s with fpo := some (off + k), pstart := s.pstart + k, plen := s.plen - k }
    bs = fileAt s.file off k ∧ bs.length = k ∧ 0 < k ∧ s.pstart + k ≤ s.buf.length ∧
    ((s1.ptr.isSome ∨ s1.buf.length / 2 ≤ s1.plen) → After s s1 off bs ∧ Right s.file s.buf.length off n bs) ∧
    (¬(s1.ptr.isSome ∨ s1.buf.length / 2 ≤ s1.plen) → s1.pstart + s1.plen ≤ s1.buf.length ∧
      ∃ r s', F.fill { s1 with buf := poke s1.buf 0 ((s1.buf.drop s1.pstart).take s1.plen) } bs (off + k) n o2 = .ret r s' ∧
        match r with
        | .ok out => After s s' off out ∧ Right s.file s.buf.length off n out
        | .error _ => o2 ≠ .ok ∧ n > s.plen ∧ Inv s' ∧ Same s s') := by
  have hfit := hi.fits
  have hpl : s.plen ≠ 0 := by
    rcases hne with h | h
    · have := hq h; omega
    · exact h
  obtain ⟨o, ho, hc⟩ := hi.cached hpl
  rw [hf] at ho; cases ho
  generalize hk : min s.plen n = k
  have hk1 : k ≤ s.plen := by omega
  have hbs : (s.buf.drop s.pstart).take k = fileAt s.file off k := by
    have := congrArg (List.take k) hc
    rw [List.take_take, Nat.min_eq_left hk1, fileAt_take _ _ _ _ hk1] at this
    exact this
  have hbl : (fileAt s.file off k).length = k := by
    rw [← hbs, List.length_take, List.length_drop]; omega
  have hrest : (s.buf.drop (s.pstart + k)).take (s.plen - k) = fileAt s.file (off + k) (s.plen - k) := by
    have := congrArg (List.drop k) hc
    rw [List.drop_take, List.drop_drop, fileAt, List.drop_take, List.drop_drop] at this
    exact this
  refine ⟨hbs, by rw [hbs, hbl], by omega, by omega, fun hh => ?_, fun hh => ?_⟩
  · refine ⟨⟨⟨hi.blen, hi.sz, ?_, fun _ => ⟨_, rfl, hrest⟩, fun p hp => ?_, hi.noact⟩, ⟨rfl, rfl⟩, fun _ => ?_⟩, ?_⟩
    · show s.pstart + k + (s.plen - k) ≤ s.buf.length
      omega
    · obtain ⟨o', ho', hpe, hh⟩ := hi.act p hp
      rw [hf] at ho'; cases ho'
      refine ⟨off + k, rfl, ?_, ?_⟩
      · show p = s.pstart + k + (s.plen - k)
        omega
      · show (s.job = some ⟨p, s.buf.length - p, off + k + (s.plen - k)⟩ ∧ _) ∨ (_ ∧ _ ∧
          s.res = (fileAt s.file (off + k + (s.plen - k)) _).length ∧
          (s.buf.drop p).take (fileAt s.file (off + k + (s.plen - k)) _).length = fileAt s.file (off + k + (s.plen - k)) _)
        rw [show off + k + (s.plen - k) = off + s.plen from by omega]
        exact hh
    · show some (off + k) = some (off + _)
      rw [hbs, hbl]
    · rw [hbs]
      refine ⟨?_, fun he => ?_, fun h2 => ?_⟩
      · show fileAt s.file off k <+: fileAt s.file off n
        rw [← fileAt_take s.file off n k (by omega)]
        exact List.take_prefix _ _
      · rw [he] at hbl
        simp only [List.length_nil] at hbl
        omega
      · show fileAt s.file off k = fileAt s.file off n
        have hkn : k = n := ?_
        · rw [hkn]
        rcases hh with h | h
        · have := hq h; omega
        · change s.buf.length / 2 ≤ s.plen - k at h
          omega
  · have hnp : s.ptr = none := by
      cases hp : s.ptr with
      | none => rfl
      | some p => exact absurd (.inl (by rw [hp]; rfl)) hh
    have hle : s.pstart + k + (s.plen - k) ≤ s.buf.length := by omega
    refine ⟨hle, ?_⟩
    have hrl : ((s.buf.drop (s.pstart + k)).take (s.plen - k)).length = s.plen - k := by
      rw [List.length_take, List.length_drop]; omega
    have hpk : (poke s.buf 0 ((s.buf.drop (s.pstart + k)).take (s.plen - k))).length = s.buf.length :=
      poke_length (by rw [hrl]; omega)
    have hQ : Quiet { s with
        fpo := some (off + k), pstart := s.pstart + k, plen := s.plen - k, buf := poke s.buf 0 ((s.buf.drop (s.pstart + k)).take (s.plen - k)) } := by
      refine ⟨?_, ?_, hnp, (hi.noact hnp).1, (hi.noact hnp).2⟩
      · show 0 < (poke _ _ _).length
        rw [hpk]; exact hi.blen
      · show _ + (poke _ _ _).length < _
        rw [hpk]; exact hi.sz
    rw [hbs]
    by_cases hkn : k = n
    · obtain ⟨s', he, h1, h2, h3, h4⟩ := fill_async hQ (fileAt s.file off k) (off + k) n o2 (by rw [hbl, hkn]) rfl
        (by show s.plen - k ≤ (poke _ _ _).length; rw [hpk]; omega)
        (by
          show ((poke _ _ _).drop 0).take (s.plen - k) = fileAt _ _ (s.plen - k)
          have := poke_at (buf := s.buf) (p := 0) (bs := (s.buf.drop (s.pstart + k)).take (s.plen - k)) (Nat.zero_le _)
          rw [hrl, hrest] at this
          rw [hrest]; exact this)
      refine ⟨_, s', he, ⟨h1, ⟨h2.1, h2.2.trans hpk⟩, fun _ => ?_⟩, ?_⟩
      · rw [hbl]; exact h3
      · rw [hkn]; exact right_full hn
    · have hz : s.plen - k = 0 := by omega
      obtain ⟨r, s', he, h1, h2, h3, h4⟩ := fill_sync hQ hz (fileAt s.file off k) (off + k) n o2 (by rw [hbl]; omega)
      refine ⟨r, s', he, ?_⟩
      cases r with
      | error _ => exact ⟨h4, by omega, h1, ⟨h2.1, h2.2.trans hpk⟩⟩
      | ok out =>
        obtain ⟨h5, h6, _⟩ := h4
        have h5' : out = fileAt s.file off k ++ fileAt s.file (off + k) (n - k) := by
          rw [h5, hbl]
        rw [← fileAt_add, show k + (n - k) = n from by omega] at h5'
        refine ⟨⟨h1, ⟨h2.1, h2.2.trans hpk⟩, fun h => ?_⟩, ?_⟩
        · rcases h with h | h
          · obtain ⟨h7, h8⟩ := h6 h
            rw [h7, h8, hbl]
            congr 1; omega
          · rw [h3] at h; cases h
        · rw [h5']; exact right_full hn

/-- A read: it waits for ever only if it is elsewhere than the bytes in the buffer and no prefetch is active. -/
theorem read_spec {s : F} (hi : Inv s) (off n : Nat) (o2 : Out) (hn : 0 < n) :
    if s.ptr = none ∧ s.plen ≠ 0 ∧ s.fpo ≠ some off then s.read off n .ok o2 = .hang
    else ∃ r s', s.read off n .ok o2 = .ret r s' ∧
      match r with
      | .ok bs => After s s' off bs ∧ Right s.file s.buf.length off n bs
      | .error _ => o2 ≠ .ok ∧ Inv s' ∧ Same s s' := by
  split
  · rename_i h
    obtain ⟨h1, h2, h3⟩ := h
    obtain ⟨hj, hr⟩ := hi.noact h1
    have hrun : s.run .ok = s := by simp [F.run, hj]
    have hh : s.handleActive .ok = .hang := by simp [F.handleActive, hrun, hr]
    simp [F.read, h2, F.fromCache, h3, hh, goOn]
  · rename_i hnh
    unfold F.read
    split
    · rename_i hne
      have hitc : ∀ t : F, Inv t → Same s t → t.fpo = some off → (t.ptr.isSome → n ≤ t.plen) → (t.ptr.isSome ∨ t.plen ≠ 0) →
          ∃ r s', goOn (t.takeCache off n) off n o2 = .ret r s' ∧
            match r with
            | .ok bs => After s s' off bs ∧ Right s.file s.buf.length off n bs
            | .error _ => o2 ≠ .ok ∧ Inv s' ∧ Same s s' := by
        intro t ht hst hfo hpn hor
        obtain ⟨hbs, hbl, hk0, hkl, hA, hB⟩ := hit_spec ht off n o2 hn hfo hpn hor
        simp only [F.takeCache, hfo, ne_eq, not_true_eq_false, if_false, Nat.not_lt.2 hkl]
        have lift : ∀ s' bs, After t s' off bs ∧ Right t.file t.buf.length off n bs →
            After s s' off bs ∧ Right s.file s.buf.length off n bs := by
          intro s' bs ⟨⟨a, b, c⟩, d⟩
          rw [hst.1, hst.2] at d
          exact ⟨⟨a, ⟨b.1.trans hst.1, b.2.trans hst.2⟩, c⟩, d⟩
        by_cases hd : t.ptr.isSome = true ∨ t.buf.length / 2 ≤ t.plen - min t.plen n
        · rw [if_pos hd]
          exact ⟨_, _, rfl, lift _ _ (hA hd)⟩
        · rw [if_neg hd]
          obtain ⟨hle, r, s', hfl, hr⟩ := hB hd
          rw [if_neg (Nat.not_lt.2 hle)]
          simp only [goOn, if_true]
          rw [hbl]
          refine ⟨r, s', hfl, ?_⟩
          cases r with
          | ok out => exact lift _ _ hr
          | error _ =>
            obtain ⟨a, _, b, c⟩ := hr
            exact ⟨a, b, ⟨c.1.trans hst.1, c.2.trans hst.2⟩⟩
      by_cases hc : (n > s.plen ∧ s.ptr.isSome) ∨ s.fpo ≠ some off
      · have hps : s.ptr.isSome := by
          rcases hc with ⟨_, h⟩ | h
          · exact h
          · rcases hne with h' | h'
            · exact h'
            · cases hp : s.ptr with
              | none => exact absurd ⟨hp, h', h⟩ hnh
              | some p => rfl
        obtain ⟨s1, he, hs1, hq1, hor⟩ := handleActive_spec hi hps
        have hun : s.fromCache off n .ok = s1.takeCache off n := by
          unfold F.fromCache
          rw [if_pos hc, he]
        rw [hun]
        by_cases hfo : s1.fpo = some off
        · rcases hor with h | ⟨h1, h2, h3⟩
          · rw [h] at hfo; cases hfo
          · exact hitc s1 h1 hs1 hfo (fun h => (by rw [hq1.ptr] at h; cases h)) (.inr h3)
        · simp only [goOn, F.takeCache, ne_eq, hfo, not_false_eq_true, if_true, List.length_nil, Nat.add_zero]
          have hQ : Quiet { s1 with pstart := 0, plen := 0 } := ⟨hq1.blen, hq1.sz, hq1.ptr, hq1.job, hq1.ready⟩
          obtain ⟨r, s', he', h1, h2, h3, h4⟩ := fill_sync hQ rfl [] off n o2 hn
          refine ⟨r, s', he', ?_⟩
          have hsm : Same s s' := ⟨h2.1.trans hs1.1, h2.2.trans hs1.2⟩
          cases r with
          | error _ => exact ⟨h4, h1, hsm⟩
          | ok out =>
            obtain ⟨h5, h6, _⟩ := h4
            simp only [List.nil_append, List.length_nil, Nat.sub_zero] at h5 h6
            refine ⟨⟨h1, hsm, fun h => ?_⟩, ?_⟩
            · rcases h with h | h
              · rw [(h6 h).1, (h6 h).2]
              · rw [h3] at h; cases h
            · rw [h5, hs1.1]; exact right_full hn
      · have hfo : s.fpo = some off := Classical.byContradiction fun h => hc (.inr h)
        have hpn : s.ptr.isSome → n ≤ s.plen := fun h => by
          apply Classical.byContradiction; intro hh; exact hc (.inl ⟨by omega, h⟩)
        unfold F.fromCache
        rw [if_neg hc]
        exact hitc s hi ⟨rfl, rfl⟩ hfo hpn hne
    · rename_i hne
      have hpz : s.plen = 0 := Classical.byContradiction fun h => hne (.inr h)
      have hpt : s.ptr = none := by
        cases hp : s.ptr with
        | none => rfl
        | some p => exact absurd (.inl (by rw [hp]; rfl)) hne
      obtain ⟨r, s', he', h1, h2, h3, h4⟩ :=
        fill_sync ⟨hi.blen, hi.sz, hpt, (hi.noact hpt).1, (hi.noact hpt).2⟩ hpz [] off n o2 hn
      refine ⟨r, s', he', ?_⟩
      cases r with
      | error _ => exact ⟨h4, h1, h2⟩
      | ok out =>
        obtain ⟨h5, h6, _⟩ := h4
        simp only [List.nil_append, List.length_nil, Nat.sub_zero] at h5 h6
        refine ⟨⟨h1, h2, fun h => ?_⟩, ?_⟩
        · rcases h with h | h
          · rw [(h6 h).1, (h6 h).2]
          · rw [h3] at h; cases h
        · rw [h5]; exact right_full hn

end Verif.FiberFile
