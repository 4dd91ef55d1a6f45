import Verif.Posix.Model
/-! C40 (positional reads), C44 (whole files). -/
namespace Verif.Posix
open Verif.Io

/-- `pread` returns 0 only at the end of the file (or when nothing was asked for). -/
def ZeroAtEof {κ : Type} (pr : PRead κ) (file : List Byte) : Prop :=
  ∀ vs off m k m' k', pr vs off m k = some (.ok 0, m', k') → total vs = 0 ∨ file.length ≤ off

/-- `pread` into one buffer is not short before the end of the file. -/
def FullReads {κ : Type} (pr : PRead κ) (file : List Byte) : Prop :=
  ∀ v off m k n m' k', pr [v] off m k = some (.ok n, m', k') → n = min v.len (file.length - off)

/-- At the end of the file `pread` gives nothing, whatever the buffer. -/
def AtEof {κ : Type} (pr : PRead κ) (file : List Byte) : Prop :=
  ∀ vs off m k, file.length ≤ off → ∃ r k', pr vs off m k = some (r, m, k') ∧ (r = .ok 0 ∨ ∃ e, r = .err e)

/-- The state after `k` bytes of the vector have been filled from position `off`. -/
def Filled (file : List Byte) (off : Nat) (m0 : Mem) (whole : List Iov) (k : Nat) (m : Mem) : Prop :=
  k ≤ total whole ∧ k ≤ file.length - off ∧ m = pokes m0 (addrs whole) ((file.drop off).take k)

theorem pread_step {κ : Type} {pr : PRead κ} {file : List Byte} (hL : LawfulPRead pr file) {m0 : Mem} {whole : List Iov}
    (hm : ∀ a ∈ addrs whole, a < m0.length) {off j : Nat} {m : Mem} (hF : Filled file off m0 whole j m) {vs : List Iov}
    (hp : addrs vs <+: (addrs whole).drop j) (hne : vs ≠ []) (k : κ) :
    ∃ r m' k', pr vs (off + j) m k = some (r, m', k') ∧
      match r with
      | .ok n => n ≤ total vs ∧ Filled file off m0 whole (j + n) m'
      | .err _ => Filled file off m0 whole j m' := by
  have hT := fileRead_transfers hL hm off j vs (off + j, m, k) ⟨rfl, hF.2.1, hF.2.2⟩ hF.1 hp hne
  unfold preadCb at hT
  cases h : pr vs (off + j) m k with
  | none => simp [h] at hT
  | some p =>
    obtain ⟨r, m', k'⟩ := p
    refine ⟨r, m', k', rfl, ?_⟩
    simp only [h] at hT
    cases r with
    | ok n =>
      simp only at hT
      refine ⟨hT.1, ?_, hT.2.2.1, hT.2.2.2⟩
      have := hp.length_le
      rw [List.length_drop, addrs_length, addrs_length] at this
      have := hF.1
      have := hT.1
      omega
    | err e =>
      simp only at hT
      exact ⟨hF.1, hT.1.2.1, hT.1.2.2⟩

/-- What a read loop returns. -/
def ReadPost {κ : Type} (file : List Byte) (off : Nat) (m0 : Mem) (whole : List Iov) (retry : Bool) : Run Res (Mem × κ) → Prop
  | .ub => False
  | .more => True
  | .ret (.ok n) s => n = min (total whole) (file.length - off) ∧ Filled file off m0 whole n s.1
  | .ret (.err e) s => (retry = true → e ≠ .interrupted) ∧ ∃ n, Filled file off m0 whole n s.1

theorem readTail_spec {κ : Type} {pr : PRead κ} {file : List Byte} (hL : LawfulPRead pr file) (hR : FullReads pr file) (hE : AtEof pr file)
    {m0 : Mem} {whole : List Iov} (hm : ∀ a ∈ addrs whole, a < m0.length) {off : Nat} (retry : Bool) :
    ∀ (f next len j : Nat) (m : Mem) (k : κ), Filled file off m0 whole j m → addrs [⟨next, len⟩] <+: (addrs whole).drop j → 0 < len →
      match readTail retry pr f next len (off + j) 0 m k with
      | .ub => False
      | .more => True
      | .ret (.ok g) s => g = min len (file.length - (off + j)) ∧ Filled file off m0 whole (j + g) s.1
      | .ret (.err e) s => (retry = true → e ≠ .interrupted) ∧ ∃ n, Filled file off m0 whole n s.1 := by
  intro f
  induction f with
  | zero => intros; trivial
  | succ f ih =>
    intro next len j m k hF hp hlen
    unfold readTail
    obtain ⟨r, m', k', hpr, hr⟩ := pread_step hL hm hF hp (by simp) k
    rw [hpr]
    cases r with
    | err e =>
      simp only at hr ⊢
      by_cases hc : (retry && e == .interrupted) = true
      · rw [if_pos hc]; exact ih next len j m' k' hr hp hlen
      · rw [if_neg hc]
        refine ⟨?_, j, hr⟩
        intro h1 h2
        simp [h1, h2] at hc
    | ok n =>
      have hn := hR _ _ _ _ _ _ _ hpr
      cases n with
      | zero => simp only at hr ⊢; simp only at hn; exact ⟨hn, hr.2⟩
      | succ n =>
        simp only at hr hn ⊢
        by_cases hc : 0 + (n + 1) = len
        · rw [if_pos hc]
          refine ⟨by omega, ?_⟩
          rw [show len = n + 1 by omega]; exact hr.2
        · rw [if_neg hc]
          -- the end of the file: every further read gives nothing
          have hg : n + 1 = min len (file.length - (off + j)) := by omega
          have key : ∀ (f nx gt : Nat) (m : Mem) (k : κ), gt = n + 1 → Filled file off m0 whole (j + gt) m →
              match readTail retry pr f nx len (off + j + (n + 1)) gt m k with
              | .ub => False
              | .more => True
              | .ret (.ok g) s => g = n + 1 ∧ Filled file off m0 whole (j + g) s.1
              | .ret (.err e) s => (retry = true → e ≠ .interrupted) ∧ ∃ n, Filled file off m0 whole n s.1 := by
            intro f
            induction f with
            | zero => intros; trivial
            | succ f ih2 =>
              intro nx gt m k hgt hF'
              unfold readTail
              obtain ⟨r, k2, hpr2, hr2⟩ := hE [⟨nx, len⟩] (off + j + (n + 1)) m k (by omega)
              rw [hpr2]
              rcases hr2 with rfl | ⟨e, rfl⟩
              · exact ⟨hgt, hF'⟩
              · simp only
                by_cases hc : (retry && e == .interrupted) = true
                · rw [if_pos hc]; exact ih2 nx gt _ k2 hgt hF'
                · rw [if_neg hc]
                  refine ⟨?_, _, hF'⟩
                  intro h1 h2
                  simp [h1, h2] at hc
          have := key f (next + (n + 1)) (0 + (n + 1)) m' k' (by omega) (by rw [Nat.zero_add]; exact hr.2)
          revert this
          cases readTail retry pr f (next + (n + 1)) len (off + j + (n + 1)) (0 + (n + 1)) m' k' with
          | ub => exact id
          | more => exact id
          | ret r s =>
            cases r with
            | err e => exact id
            | ok g => rintro ⟨h1, h2⟩; exact ⟨by omega, h2⟩

theorem skip_total : ∀ (vs : List Iov) (d : Nat), d ≤ total vs → 0 < d → (skipDone vs d).2 = 0 → (skipDone vs d).1.length < vs.length := by
  intro vs
  induction vs with
  | nil => intro d h h0; simp [total] at h; omega
  | cons v vs ih =>
    intro d h h0 hz
    simp only [skipDone] at hz ⊢
    split at hz
    · rename_i hv
      rw [if_pos hv]
      by_cases hd : d - v.len = 0
      · have := (skipDone_spec vs (d - v.len) (by omega))
        obtain ⟨_, _, _, _, _, h5⟩ := this
        simp; omega
      · have := ih (d - v.len) (by simp [total] at h ⊢; omega) (by omega) hz
        simp; omega
    · simp at hz; omega

theorem readAll_spec {κ : Type} {pr : PRead κ} {file : List Byte} (hL : LawfulPRead pr file) (hR : FullReads pr file)
    (hE : AtEof pr file) (hZ : ZeroAtEof pr file) {m0 : Mem} {whole : List Iov} (hm : ∀ a ∈ addrs whole, a < m0.length) {off : Nat}
    (retry : Bool) : ∀ (f : Nat) (vs : List Iov) (j : Nat) (m : Mem) (k : κ), Filled file off m0 whole j m →
      addrs vs = (addrs whole).drop j → vs ≠ [] → ReadPost file off m0 whole retry (readAll retry pr f vs off j m k) := by
  intro f
  induction f with
  | zero => intros; trivial
  | succ f ih =>
    intro vs j m k hF hp hne
    have htot : total vs = total whole - j := by rw [← addrs_length, hp, List.length_drop, addrs_length]
    unfold readAll
    obtain ⟨r, m', k', hpr, hr⟩ := pread_step hL hm hF (by rw [hp]; exact List.prefix_refl _) hne k
    rw [hpr]
    cases r with
    | err e =>
      simp only at hr ⊢
      by_cases hc : (retry && e == .interrupted) = true
      · rw [if_pos hc]; exact ih vs j m' k' hr hp hne
      · rw [if_neg hc]
        refine ⟨?_, j, hr⟩
        intro h1 h2
        simp [h1, h2] at hc
    | ok n =>
      simp only at hr
      cases n with
      | zero =>
        refine ⟨?_, hr.2⟩
        have h1 := hF.1
        have h2 := hF.2.1
        rcases hZ _ _ _ _ _ _ hpr with h | h <;> omega
      | succ n =>
        simp only
        obtain ⟨q, h1, h2, h3, h4, h5⟩ := skipDone_spec vs (n + 1) hr.1
        have hFn := hr.2
        generalize hsk : skipDone vs (n + 1) = p at *
        obtain ⟨ws, d⟩ := p
        simp only at h1 h2 h3 h4 h5 ⊢
        rw [hp, List.drop_drop] at h2
        cases d with
        | zero =>
          have hq : q = n + 1 := by omega
          subst hq
          cases ws with
          | nil =>
            refine ⟨?_, hFn⟩
            have : total whole - (j + (n + 1)) = 0 := by rw [← addrs_length, ← List.length_drop, ← h2]; rfl
            have a := hFn.1
            have b := hFn.2.1
            omega
          | cons w ws => exact ih (w :: ws) (j + (n + 1)) m' k' hFn h2 (by simp)
        | succ d =>
          cases ws with
          | nil => have := h4 rfl; omega
          | cons w ws =>
            have hd := h3 w ws rfl
            simp only
            have hskip : addrs (⟨w.base + (d + 1), w.len - (d + 1)⟩ :: ws) = (addrs whole).drop (j + (n + 1)) := by
              rw [addrs_skip (by omega), h2, List.drop_drop]; congr 1; omega
            have hpre : addrs [⟨w.base + (d + 1), w.len - (d + 1)⟩] <+: (addrs whole).drop (j + (n + 1)) := by
              rw [← hskip, addrs_cons, addrs_cons, addrs_nil, List.append_nil]; exact List.prefix_append _ _
            have ht := readTail_spec hL hR hE hm (off := off) retry (f + 1) _ _ _ m' k' hFn hpre (by omega)
            revert ht
            cases hrt : readTail retry pr (f + 1) (w.base + (d + 1)) (w.len - (d + 1)) (off + (j + (n + 1))) 0 m' k' with
            | ub => exact id
            | more => exact id
            | ret r s =>
              cases r with
              | err e => exact id
              | ok g =>
                rintro ⟨hg, hFg⟩
                simp only
                have htot2 : total ws + (w.len - (d + 1)) = total whole - (j + (n + 1)) := by
                  have := congrArg List.length hskip
                  rw [addrs_length, List.length_drop, addrs_length] at this
                  simp [total] at this ⊢; omega
                have a := hFg.1
                have b := hFg.2.1
                have c := hFn.1
                by_cases hlt : g < w.len - (d + 1)
                · rw [if_pos hlt]
                  exact ⟨by omega, hFg⟩
                · rw [if_neg hlt]
                  by_cases hws : ws = []
                  · rw [if_pos hws]
                    subst hws
                    simp [total] at htot2
                    exact ⟨by simp only [total] at *; omega, hFg⟩
                  · rw [if_neg hws]
                    refine ih ws (j + (n + 1) + g) s.1 s.2 hFg ?_ hws
                    have := congrArg (List.drop g) hskip
                    rw [List.drop_drop] at this
                    rw [← this, addrs_cons, List.drop_append_of_le_length (by simp; omega), List.drop_of_length_le (by simp; omega)]
                    rfl

/-! ## C40 -/

/-- What the caller sees: the vector holds the next `n` bytes of the file, everything else is as before. -/
def Holds (file : List Byte) (off n : Nat) (vs : List Iov) (m m' : Mem) : Prop :=
  m'.length = m.length ∧ (∀ i a, i < n → (addrs vs)[i]? = some a → m'[a]? = file[off + i]?) ∧ (∀ a, a ∉ (addrs vs).take n → m'[a]? = m[a]?)

theorem holds_of_filled {file : List Byte} {off n : Nat} {vs : List Iov} {m m' : Mem} (hb : ∀ a ∈ addrs vs, a < m.length)
    (hd : (addrs vs).Nodup) (h : Filled file off m vs n m') : Holds file off n vs m m' := by
  obtain ⟨h1, h2, rfl⟩ := h
  have hl : ((file.drop off).take n).length = n := by simp; omega
  refine ⟨pokes_length _ _ _, ?_, ?_⟩
  · intro i a hi ha
    have hlt : i < (addrs vs).length := by rw [addrs_length]; omega
    have := pokes_read (addrs vs) m ((file.drop off).take n) i hd hb (by omega) hlt
    rw [List.getElem?_eq_getElem hlt, Option.some.injEq] at ha
    subst ha
    rw [List.getElem?_take, if_pos hi, List.getElem?_drop, List.getElem?_eq_getElem hlt, Option.bind_some] at this
    exact this
  · intro a ha
    rw [← pokes_short, hl]
    exact pokes_get _ _ _ _ ha

/-- C40: with a `pread` that is not short before the end of the file when asked for one buffer (`preadv` may be), a read returns
exactly the bytes that are there, for every vector, offset, error and interruption pattern. -/
theorem C40_read_partial {κ : Type} {pr : PRead κ} {file : List Byte} (hL : LawfulPRead pr file) (hR : FullReads pr file)
    (hE : AtEof pr file) (hZ : ZeroAtEof pr file) (m : Mem) (vs : List Iov) (hin : InMem m vs) (hd : (addrs vs).Nodup) (off : Nat)
    (k : κ) (f : Nat) :
    match posixRead pr f file.length off vs m k with
    | .ub => False
    | .more => True
    | .ret (.ok n) s => n = min (total vs) (file.length - off) ∧ Holds file off n vs m s.1
    | .ret (.err e) s => e ≠ .interrupted ∧ ∃ n, Holds file off n vs m s.1 := by
  have hb : ∀ a ∈ addrs vs, a < m.length := gather_iff.1 (gather_some hin)
  have h0 : Filled file off m vs 0 m := ⟨by omega, by omega, by simp [pokes_nil_right]⟩
  unfold posixRead
  by_cases hv : vs = []
  · rw [if_pos hv]; subst hv; exact ⟨by simp [total], holds_of_filled hb hd h0⟩
  · rw [if_neg hv]
    by_cases ho : off > file.length
    · rw [if_pos ho]; exact ⟨by decide, 0, holds_of_filled hb hd h0⟩
    · rw [if_neg ho]
      have h := readAll_spec hL hR hE hZ hb true f vs 0 m k h0 (by simp) hv
      revert h
      cases readAll true pr f vs off 0 m k with
      | ub => exact id
      | more => exact id
      | ret r s =>
        cases r with
        | ok n => rintro ⟨h1, h2⟩; exact ⟨h1, holds_of_filled hb hd h2⟩
        | err e => rintro ⟨h1, n, h2⟩; exact ⟨h1 rfl, n, holds_of_filled hb hd h2⟩

/-- The same for the io_uring file. -/
theorem C40_uring_read_partial {κ : Type} {pr : PRead κ} {file : List Byte} (hL : LawfulPRead pr file) (hR : FullReads pr file)
    (hE : AtEof pr file) (hZ : ZeroAtEof pr file) (m : Mem) (vs : List Iov) (hne : vs ≠ []) (hin : InMem m vs) (hd : (addrs vs).Nodup)
    (off : Nat) (k : κ) (f : Nat) :
    match readAll false pr f vs off 0 m k with
    | .ub => False
    | .more => True
    | .ret (.ok n) s => n = min (total vs) (file.length - off) ∧ Holds file off n vs m s.1
    | .ret (.err _) s => ∃ n, Holds file off n vs m s.1 := by
  have hb : ∀ a ∈ addrs vs, a < m.length := gather_iff.1 (gather_some hin)
  have h := readAll_spec hL hR hE hZ hb (off := off) false f vs 0 m k ⟨by omega, by omega, by simp [pokes_nil_right]⟩ (by simp) hne
  revert h
  cases readAll false pr f vs off 0 m k with
  | ub => exact id
  | more => exact id
  | ret r s =>
    cases r with
    | ok n => rintro ⟨h1, h2⟩; exact ⟨h1, holds_of_filled hb hd h2⟩
    | err e => rintro ⟨h1, n, h2⟩; exact ⟨n, holds_of_filled hb hd h2⟩

/-- `pread` is never interrupted. -/
def NoEintr {κ : Type} (pr : PRead κ) : Prop := ∀ vs off m k m' k', pr vs off m k ≠ some (.err .interrupted, m', k')

theorem readTail_ends {κ : Type} {pr : PRead κ} {file : List Byte} (hR : FullReads pr file) (hE : AtEof pr file) (hI : NoEintr pr)
    (retry : Bool) (f next len off : Nat) (m : Mem) (k : κ) : readTail retry pr (f + 2) next len off 0 m k ≠ .more := by
  unfold readTail
  split
  · simp
  · rename_i e m' k' h
    rw [if_neg]
    · simp
    · intro hc
      simp at hc
      exact hI _ _ _ _ _ _ (hc.2 ▸ h)
  · simp
  · rename_i n m' k' h
    have hn := hR _ _ _ _ _ _ _ h
    simp only at hn
    split
    · simp
    · unfold readTail
      obtain ⟨r, k2, h2, h3⟩ := hE [⟨next + (n + 1), len⟩] (off + (n + 1)) m' k' (by omega)
      rw [h2]
      rcases h3 with rfl | ⟨e, rfl⟩
      · simp
      · simp only
        rw [if_neg]
        · simp
        · intro hc
          simp at hc
          exact hI _ _ _ _ _ _ (hc.2 ▸ h2)

/-- C40: the loops end: one iteration per vector entry is enough, and two of the inner loop. -/
theorem C40_read_ends {κ : Type} {pr : PRead κ} {file : List Byte} (hL : LawfulPRead pr file) (hR : FullReads pr file)
    (hE : AtEof pr file) (hI : NoEintr pr) (retry : Bool) (m : Mem) (vs : List Iov) (hin : InMem m vs) (hne : vs ≠ []) (off tot : Nat)
    (k : κ) (f : Nat) (hf : vs.length + 1 ≤ f) : readAll retry pr f vs off tot m k ≠ .more := by
  have hb : ∀ a ∈ addrs vs, a < m.length := gather_iff.1 (gather_some hin)
  clear hin
  induction f generalizing vs m tot k with
  | zero => omega
  | succ f ih =>
    unfold readAll
    obtain ⟨r, m', k', hpr, hr⟩ := hL vs (off + tot) m k hb hne
    rw [hpr]
    cases r with
    | err e =>
      simp only
      rw [if_neg]
      · simp
      · intro hc
        simp at hc
        exact hI _ _ _ _ _ _ (hc.2 ▸ hpr)
    | ok n =>
      simp only at hr
      cases n with
      | zero => simp
      | succ n =>
        simp only
        have hlen : m'.length = m.length := by rw [hr.2.2, pokes_length]
        obtain ⟨q, h1, h2, h3, h4, h5⟩ := skipDone_spec vs (n + 1) hr.1
        have hs := skip_total vs (n + 1) hr.1 (by omega)
        generalize hsk : skipDone vs (n + 1) = p at *
        obtain ⟨ws, d⟩ := p
        simp only at h1 h2 h3 h4 h5 hs ⊢
        cases d with
        | zero =>
          have := hs rfl
          cases ws with
          | nil => simp
          | cons w ws =>
            refine ih m' (w :: ws) (by simp) _ _ (by omega) ?_
            intro a ha
            rw [h2] at ha
            rw [hlen]; exact hb a (List.mem_of_mem_drop ha)
        | succ d =>
          cases ws with
          | nil => simp
          | cons w ws =>
            simp only
            obtain ⟨f, rfl⟩ : ∃ g, f = g + 1 := ⟨f - 1, by have := List.length_pos_iff.2 hne; omega⟩
            have ht := readTail_ends hR hE hI retry f (w.base + (d + 1)) (w.len - (d + 1)) (off + (tot + (n + 1))) m' k'
            cases hrt : readTail retry pr (f + 1 + 1) (w.base + (d + 1)) (w.len - (d + 1)) (off + (tot + (n + 1))) 0 m' k' with
            | ub => simp
            | more => exact absurd hrt ht
            | ret r s =>
              cases r with
              | err e => simp
              | ok g =>
                simp only
                split
                · simp
                · split
                  · simp
                  · rename_i hws
                    refine ih s.1 ws hws _ _ (by simp at h5; omega) ?_
                    have hF : Filled file (off + tot) m vs (0 + (n + 1)) m' := ⟨by omega, by omega, by simpa using hr.2.2⟩
                    have hskip : addrs (⟨w.base + (d + 1), w.len - (d + 1)⟩ :: ws) = (addrs vs).drop (0 + (n + 1)) := by
                      have := h3 w ws rfl
                      rw [addrs_skip (by omega), h2, List.drop_drop]; congr 1; omega
                    have hpre : addrs [⟨w.base + (d + 1), w.len - (d + 1)⟩] <+: (addrs vs).drop (0 + (n + 1)) := by
                      rw [← hskip, addrs_cons, addrs_cons, addrs_nil, List.append_nil]; exact List.prefix_append _ _
                    have hsp := readTail_spec hL hR hE hb (off := off + tot) retry (f + 1 + 1) _ _ _ m' k' hF hpre (by have := h3 w ws rfl; omega)
                    rw [show off + tot + (0 + (n + 1)) = off + (tot + (n + 1)) by omega, hrt] at hsp
                    simp only at hsp
                    rw [hsp.2.2.2, pokes_length]
                    intro a ha
                    apply hb
                    have hmem : a ∈ addrs (w :: ws) := by rw [addrs_cons]; exact List.mem_append_right _ ha
                    rw [h2] at hmem
                    exact List.mem_of_mem_drop hmem

/-! ### A kernel to test with: it follows a list of answers -/

/-- Each call gives at most the planned number of bytes (or everything, when the plan is over). -/
def planned (file : List Byte) : PRead (List Nat) := fun vs off m k =>
  let n := min (min (total vs) (file.length - off)) (k.headD (total vs))
  some (.ok n, pokes m (addrs vs) ((file.drop off).take n), k.tail)

theorem planned_lawful (file : List Byte) : LawfulPRead (planned file) file := by
  intro vs off m k _ _
  refine ⟨_, _, _, rfl, ?_, ?_, rfl⟩ <;> omega

/-- The hypotheses of `C40_read_partial` are met by a kernel whose `preadv` fills only the first entry and half of the next. -/
def vectorShort (file : List Byte) : PRead Unit := fun vs off m k =>
  let want := match vs with
    | v :: w :: _ => v.len + w.len / 2 + 1
    | _ => total vs
  let n := min (min (total vs) (file.length - off)) want
  some (.ok n, pokes m (addrs vs) ((file.drop off).take n), k)

theorem vectorShort_ok (file : List Byte) : LawfulPRead (vectorShort file) file ∧ FullReads (vectorShort file) file ∧
    AtEof (vectorShort file) file ∧ ZeroAtEof (vectorShort file) file ∧ NoEintr (vectorShort file) := by
  refine ⟨?_, ?_, ?_, ?_, ?_⟩
  · intro vs off m k _ _
    refine ⟨_, _, _, rfl, ?_, ?_, rfl⟩ <;> omega
  · intro v off m k n m' k' h
    simp [vectorShort, total] at h
    omega
  · intro vs off m k h
    refine ⟨.ok 0, k, ?_, Or.inl rfl⟩
    have e : file.length - off = 0 := by omega
    simp [vectorShort, e, pokes_nil_right]
  · intro vs off m k m' k' h
    simp only [vectorShort, Option.some.injEq, Prod.mk.injEq, Res.ok.injEq] at h
    have h := h.1
    match vs, h with
    | [], _ => left; rfl
    | [v], h => simp only at h; omega
    | v :: w :: r, h => simp only at h; omega
  · intro vs off m k m' k' h
    simp [vectorShort] at h

example : posixRead (vectorShort [1, 2, 3, 4, 5, 6]) 5 6 1 [⟨0, 2⟩, ⟨3, 2⟩, ⟨6, 1⟩] [0, 0, 0, 0, 0, 0, 0] () =
    .ret (.ok 5) ([2, 3, 0, 4, 5, 0, 6], ()) := by rfl

/-- C40 is false as stated: if the read that finishes an entry is itself short, the next one asks for the full rest of the entry
again. The kernel then writes past the vector (address 4 and up) and more bytes than wanted are reported. -/
theorem C40_short_tail_overflows : ∃ (file : List Byte) (plan : List Nat), LawfulPRead (planned file) file ∧
    posixRead (planned file) 9 file.length 0 [⟨0, 4⟩] [0, 0, 0, 0, 99, 99, 99, 99] plan =
      .ret (.ok 6) ([1, 2, 3, 4, 5, 6, 99, 99], []) :=
  ⟨[1, 2, 3, 4, 5, 6], [1, 1, 3, 1], planned_lawful _, by rfl⟩

/-! ## C44 -/

/-- Full positional reads of an unchanging file. -/
def ReadsFully {κ : Type} (rd : FileRead κ) (file : List Byte) : Prop :=
  ∀ off len k, off ≤ file.length → ∃ k', rd off len k = (.ok ((file.drop off).take len), k')

/-- C44: the whole file is returned, whatever its size. -/
theorem C44_whole_file {κ : Type} {rd : FileRead κ} {file : List Byte} (h : ReadsFully rd file) (k : κ) (f : Nat)
    (hf : file.length < f) : ∃ k', readFileToString rd f k = .ret (.ok file) k' := by
  have key : ∀ (f : Nat) (value : List Byte) (cap : Nat) (k : κ), value = file.take value.length → value.length < cap →
      file.length < f + value.length → ∃ k', readToString rd f value cap k = .ret (.ok file) k' := by
    intro f
    induction f with
    | zero =>
      intro value cap k h1 h2 h3
      have := congrArg List.length h1
      simp at this; omega
    | succ f ih =>
      intro value cap k h1 h2 h3
      have hl : value.length ≤ file.length := by
        have := congrArg List.length h1
        rw [List.length_take] at this; omega
      obtain ⟨k', hk⟩ := h value.length (cap - value.length) k hl
      unfold readToString
      rw [hk]
      simp only
      split
      · rename_i hc
        refine ⟨k', ?_⟩
        congr 2
        rw [List.length_take, List.length_drop] at hc
        rw [List.take_of_length_le (by simp; omega)]
        conv => lhs; lhs; rw [h1]
        exact List.take_append_drop _ _
      · rename_i hc
        rw [List.length_take, List.length_drop] at hc
        rw [List.take_take, Nat.min_self]
        have e : value ++ (file.drop value.length).take (cap - value.length) = file.take cap := by
          conv => lhs; lhs; rw [h1]
          rw [← List.take_add]; congr 1; omega
        rw [e]
        have hlen : (file.take cap).length = cap := by simp; omega
        exact ih _ _ _ (by rw [hlen]) (by omega) (by omega)
  exact key f [] 4096 k (by simp) (by simp) (by simpa using hf)

/-- A read error is passed on. -/
theorem C44_error {κ : Type} {rd : FileRead κ} (k k' : κ) (e : Err) (f : Nat) (h : rd 0 4096 k = (.error e, k')) :
    readFileToString rd (f + 1) k = .ret (.error e) k' := by
  simp [readFileToString, readToString, h]

/-- `ReadonlyFile::Read(offset, mb)` over `PosixReadFile::Read` into a fresh buffer. -/
def viaPosix {κ : Type} (pr : PRead κ) (size : Nat) : FileRead κ := fun off len k =>
  match posixRead pr 2 size off [⟨0, len⟩] (List.replicate len 0) k with
  | .ret (.ok n) s => (.ok (s.1.take n), s.2)
  | .ret (.err e) s => (.error e, s.2)
  | _ => (.error .ioError, k)

/-- `pread` reports no error. -/
def NoError {κ : Type} (pr : PRead κ) : Prop := ∀ vs off m k e m' k', pr vs off m k ≠ some (.err e, m', k')


theorem readTail_noerr {κ : Type} {pr : PRead κ} (hN : NoError pr) (retry : Bool) : ∀ (f next len off got : Nat) (m : Mem) (k : κ) (e : Err)
    (s : Mem × κ), readTail retry pr f next len off got m k ≠ .ret (.err e) s := by
  intro f
  induction f with
  | zero => intros; simp [readTail]
  | succ f ih =>
    intro next len off got m k e s
    unfold readTail
    split
    · simp
    · rename_i h; exact absurd h (hN _ _ _ _ _ _ _)
    · simp
    · split
      · simp
      · exact ih _ _ _ _ _ _ _ _

theorem readAll_noerr {κ : Type} {pr : PRead κ} (hN : NoError pr) (retry : Bool) : ∀ (f : Nat) (vs : List Iov) (off tot : Nat) (m : Mem) (k : κ)
    (e : Err) (s : Mem × κ), readAll retry pr f vs off tot m k ≠ .ret (.err e) s := by
  intro f
  induction f with
  | zero => intros; simp [readAll]
  | succ f ih =>
    intro vs off tot m k e s
    unfold readAll
    split
    · simp
    · rename_i h; exact absurd h (hN _ _ _ _ _ _ _)
    · simp
    · split
      · simp
      · exact ih _ _ _ _ _ _ _
      · simp
      · split
        · simp
        · simp
        · rename_i h; exact absurd h (readTail_noerr hN _ _ _ _ _ _ _ _ _ _)
        · split
          · simp
          · split
            · simp
            · exact ih _ _ _ _ _ _ _

/-- C44 on top of C40: reading a file through `PosixReadFile` with a kernel that reports no errors and fills single buffers up to
the end of the file. -/
theorem C44_posix_file {κ : Type} {pr : PRead κ} {file : List Byte} (hL : LawfulPRead pr file) (hR : FullReads pr file)
    (hE : AtEof pr file) (hZ : ZeroAtEof pr file) (hN : NoError pr) (k : κ) (f : Nat) (hf : file.length < f) :
    ∃ k', readFileToString (viaPosix pr file.length) f k = .ret (.ok file) k' := by
  refine C44_whole_file ?_ k f hf
  intro off len k ho
  have hin : InMem (List.replicate len (0 : Byte)) [⟨0, len⟩] := by intro v hv; simp at hv; subst hv; simp
  have hd : (addrs [⟨0, len⟩]).Nodup := by simp [addrs, List.nodup_range']
  have h := C40_read_partial hL hR hE hZ (List.replicate len 0) [⟨0, len⟩] hin hd off k 2
  have hends := C40_read_ends hL hR hE (fun vs off m k m' k' => hN vs off m k _ m' k') true (List.replicate len 0) [⟨0, len⟩] hin (by simp) off 0 k 2 (by simp)
  have hnoerr := readAll_noerr hN true 2 [⟨0, len⟩] off 0 (List.replicate len 0) k
  unfold viaPosix
  unfold posixRead at h ⊢
  rw [if_neg (by simp), if_neg (by omega)] at h ⊢
  revert h
  cases hr : readAll true pr 2 [⟨0, len⟩] off 0 (List.replicate len 0) k with
  | ub => exact fun h => h.elim
  | more => exact absurd hr hends
  | ret r s =>
    cases r with
    | err e => exact absurd hr (hnoerr e s)
    | ok n =>
      rintro ⟨h1, h2, h3, h4⟩
      refine ⟨s.2, ?_⟩
      simp only
      congr 2
      simp [total] at h1
      rw [List.length_replicate] at h2
      apply List.ext_getElem?
      intro i
      rw [List.getElem?_take, List.getElem?_take, List.getElem?_drop]
      by_cases hi : i < n
      · rw [if_pos hi, if_pos (by omega)]
        refine h3 i i hi ?_
        rw [addrs_cons, addrs_nil, List.append_nil, List.getElem?_range' (by simp; omega)]
        simp
      · rw [if_neg hi]
        by_cases hl : i < len
        · rw [if_pos hl, List.getElem?_eq_none (by omega)]
        · rw [if_neg hl]

/-- The hypotheses of the two theorems above are met. -/
example (file : List Byte) : ∃ k', readFileToString (viaPosix (vectorShort file) file.length) (file.length + 1) () = .ret (.ok file) k' := by
  have h := vectorShort_ok file
  exact C44_posix_file h.1 h.2.1 h.2.2.1 h.2.2.2.1 (by intro vs off m k e m' k'; simp [vectorShort]) () _ (by omega)

end Verif.Posix
