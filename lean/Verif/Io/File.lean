import Verif.Io.Sink
/-!
`LinuxFile::Write` and `LinuxFile::Read` (util/fibers/uring_file.cc 373-395) over `pwritev2`/`preadv2`.
-/
namespace Verif.Io

/-- A file as the kernel presents it: content by position. -/
abbrev Content := Nat → Byte

/-- `content` with `bs` written at position `off`. -/
def overlay (c : Content) (off : Nat) (bs : List Byte) : Content := fun i => if off ≤ i then bs.getD (i - off) (c i) else c i

/-- `LinuxFile::WriteSome` (uring_file.cc 327-330): `pwritev2`; the kernel `κ` decides how much it takes. -/
abbrev PWrite (κ : Type) := Mem → List Iov → Nat → κ → Option (Res × κ)

/-- The contract of `pwritev2`: as many bytes as reported are at the given position. -/
def LawfulPWrite {κ : Type} (pw : PWrite κ) (content : κ → Content) : Prop :=
  ∀ m vs off k bs, gather m vs = some bs → vs ≠ [] → ∃ r k', pw m vs off k = some (r, k') ∧
    match r with
    | .ok n => n ≤ bs.length ∧ content k' = overlay (content k) off (bs.take n)
    | .err _ => content k' = content k

/-- The callback of `LinuxFile::Write` (374-380): the offset it captured advances with every success. -/
def pwriteCb {κ : Type} (pw : PWrite κ) (m : Mem) (vs : List Iov) (s : Nat × κ) : Run Res (Nat × κ) :=
  match pw m vs s.1 s.2 with
  | none => .ub
  | some (.ok n, k) => .ret (.ok n) (s.1 + n, k)
  | some (.err e, k) => .ret (.err e) (s.1, k)

/-- `LinuxFile::Write` (373-383). -/
def fileWrite {κ : Type} (pw : PWrite κ) (m : Mem) (iters : Nat) (vs : List Iov) (off : Nat) (k : κ) : Run (Option Err) (Nat × κ) :=
  applyExactly (pwriteCb pw m) iters vs (off, k)

/-- `LinuxFile::ReadSome` (333-336): `preadv2` on an unchanging file; the kernel decides how much it gives. -/
abbrev PRead (κ : Type) := List Iov → Nat → Mem → κ → Option (Res × Mem × κ)

/-- Writing bytes one by one to the given addresses. -/
def pokes (m : Mem) (as : List Nat) (bs : List Byte) : Mem := (as.zip bs).foldl (fun m p => m.set p.1 p.2) m

/-- The contract of `preadv2` on a file with the given bytes: the bytes at the position, into the vector in order. -/
def LawfulPRead {κ : Type} (pr : PRead κ) (file : List Byte) : Prop :=
  ∀ vs off m k, (∀ a ∈ addrs vs, a < m.length) → vs ≠ [] → ∃ r m' k', pr vs off m k = some (r, m', k') ∧
    match r with
    | .ok n => n ≤ total vs ∧ n ≤ file.length - off ∧ m' = pokes m (addrs vs) ((file.drop off).take n)
    | .err _ => m' = m

/-- The callback of `LinuxFile::Read` (386-392). -/
def preadCb {κ : Type} (pr : PRead κ) (vs : List Iov) (s : Nat × Mem × κ) : Run Res (Nat × Mem × κ) :=
  match pr vs s.1 s.2.1 s.2.2 with
  | none => .ub
  | some (.ok n, m, k) => .ret (.ok n) (s.1 + n, m, k)
  | some (.err e, m, k) => .ret (.err e) (s.1, m, k)

/-- `LinuxFile::Read` (385-395). -/
def fileRead {κ : Type} (pr : PRead κ) (iters : Nat) (vs : List Iov) (off : Nat) (m : Mem) (k : κ) : Run (Option Err) (Nat × Mem × κ) :=
  applyExactly (preadCb pr) iters vs (off, m, k)

theorem overlay_nil (c : Content) (off : Nat) : overlay c off [] = c := by
  funext i; simp [overlay]

theorem overlay_append (c : Content) (off : Nat) (as bs : List Byte) :
    overlay (overlay c off as) (off + as.length) bs = overlay c off (as ++ bs) := by
  funext i
  simp only [overlay, List.getD_eq_getElem?_getD]
  by_cases h : off ≤ i
  · by_cases h2 : off + as.length ≤ i
    · rw [if_pos h2, if_pos h, if_pos h, List.getElem?_append_right (by omega), List.getElem?_eq_none (l := as) (by omega)]
      simp [Nat.sub_sub]
    · rw [if_neg h2, if_pos h, if_pos h, List.getElem?_append_left (by omega)]
  · rw [if_neg (by omega), if_neg h, if_neg h]

theorem fileWrite_transfers {κ : Type} {pw : PWrite κ} {content : κ → Content} (hL : LawfulPWrite pw content) {m : Mem}
    {whole : List Iov} {bs : List Byte} (hg : gather m whole = some bs) (off : Nat) (c0 : Content) :
    Transfers (pwriteCb pw m) whole (fun k s => s.1 = off + k ∧ content s.2 = overlay c0 off (bs.take k)) (fun _ => True) := by
  rintro k vs ⟨o, q⟩ ⟨rfl, hI⟩ hk hp hne
  have hin := gather_iff.1 ⟨bs, hg⟩
  obtain ⟨cs, hcs⟩ := gather_iff.2 (fun a ha => hin a (List.mem_of_mem_drop (hp.subset ha)))
  have hcp := gather_prefix hg hcs hp
  obtain ⟨r, q', h1, h2⟩ := hL m vs (off + k) q cs hcs hne
  simp only [pwriteCb, h1]
  have hlen := gather_length hg
  cases r with
  | err e => exact ⟨⟨rfl, by rw [h2]; exact hI⟩, trivial⟩
  | ok n =>
    obtain ⟨h3, h4⟩ := h2
    refine ⟨by rw [← gather_length hcs]; exact h3, by simp [Nat.add_assoc], ?_⟩
    have e : bs.take k ++ cs.take n = bs.take (k + n) := by
      rw [List.take_add]
      congr 1
      obtain ⟨t, ht⟩ := hcp
      rw [← ht, List.take_append_of_le_length h3]
    simp only at hI
    rw [h4, hI, ← e, ← overlay_append]
    simp only [List.length_take]
    rw [Nat.min_eq_left (by omega)]

theorem pokes_nil_right (m : Mem) (as : List Nat) : pokes m as [] = m := by simp [pokes]

theorem pokes_append (m : Mem) (a1 a2 : List Nat) (b1 b2 : List Byte) (h : a1.length = b1.length) :
    pokes (pokes m a1 b1) a2 b2 = pokes m (a1 ++ a2) (b1 ++ b2) := by
  simp [pokes, List.zip_append h, List.foldl_append]

theorem pokes_length (m : Mem) (as : List Nat) (bs : List Byte) : (pokes m as bs).length = m.length := by
  induction as generalizing m bs with
  | nil => simp [pokes]
  | cons a as ih =>
    cases bs with
    | nil => simp [pokes]
    | cons b bs => have := ih (m.set a b) bs; simp [pokes] at this ⊢; exact this

theorem pokes_get (m : Mem) (as : List Nat) (bs : List Byte) (i : Nat) (h : i ∉ as) : (pokes m as bs)[i]? = m[i]? := by
  induction as generalizing m bs with
  | nil => simp [pokes]
  | cons a as ih =>
    cases bs with
    | nil => simp [pokes]
    | cons b bs =>
      simp only [List.mem_cons, not_or] at h
      have := ih (m.set a b) bs h.2
      simp only [pokes, List.zip_cons_cons, List.foldl_cons] at this ⊢
      rw [this, List.getElem?_set]
      simp [Ne.symm h.1]

theorem pokes_range (bs : List Byte) : ∀ (m : Mem) (b : Nat), b + bs.length ≤ m.length →
    pokes m (List.range' b bs.length) bs = m.take b ++ bs ++ m.drop (b + bs.length) := by
  induction bs with
  | nil => intro m b h; simp [pokes]
  | cons x xs ih =>
    intro m b h
    simp only [List.length_cons] at h
    have := ih (m.set b x) (b + 1) (by simp; omega)
    simp only [pokes] at this
    simp only [pokes, List.length_cons, List.range'_succ, List.zip_cons_cons, List.foldl_cons]
    rw [this, List.take_set, List.drop_set]
    have e1 : (m.take (b + 1)).set b x = m.take b ++ [x] := by
      rw [List.set_eq_take_append_cons_drop]
      rw [if_pos (by simp; omega)]
      simp [List.take_take]
    rw [e1, if_pos (by omega)]
    simp [show b + 1 + xs.length = b + (xs.length + 1) by omega]

theorem pokes_short (m : Mem) (as : List Nat) (bs : List Byte) : pokes m (as.take bs.length) bs = pokes m as bs := by
  induction as generalizing m bs with
  | nil => simp
  | cons a as ih =>
    cases bs with
    | nil => simp [pokes]
    | cons b bs => have := ih (m.set a b) bs; simp [pokes] at this ⊢; exact this

theorem scatter_pokes {m m' : Mem} {vs : List Iov} {bs : List Byte} (h : scatter m vs bs = some m') : m' = pokes m (addrs vs) bs := by
  induction vs generalizing m bs with
  | nil =>
    cases bs with
    | nil => simp [scatter] at h; simp [pokes, h]
    | cons b bs => simp [scatter] at h
  | cons v vs ih =>
    simp only [scatter] at h
    cases hm : memcpy m v.base (bs.take v.len) with
    | none => simp [hm] at h
    | some m1 =>
      simp only [hm] at h
      have h1 := ih h
      have hb := memcpy_bound hm
      have h2 : m1 = pokes m (List.range' v.base (bs.take v.len).length) (bs.take v.len) := by
        rw [pokes_range _ _ _ hb]
        unfold memcpy at hm
        rw [if_pos hb] at hm
        simpa using hm.symm
      rw [h1, h2, addrs_cons]
      by_cases hle : v.len ≤ bs.length
      · have : (bs.take v.len).length = v.len := by simp; omega
        rw [this, pokes_append _ _ _ _ _ (by simp; omega), List.take_append_drop]
      · have e1 : bs.take v.len = bs := List.take_of_length_le (by omega)
        have e2 : bs.drop v.len = [] := List.drop_eq_nil_of_le (by omega)
        rw [e1, e2, pokes_nil_right, ← pokes_short m (_ ++ _) bs, List.take_append_of_le_length (by simp; omega)]
        congr 1
        apply List.ext_getElem?
        intro i
        rw [List.getElem?_take]
        split
        · rw [List.getElem?_range' (by omega), List.getElem?_range' (by omega)]
        · rw [List.getElem?_eq_none (by simp; omega)]

theorem fileRead_transfers {κ : Type} {pr : PRead κ} {file : List Byte} (hL : LawfulPRead pr file) {m0 : Mem}
    {whole : List Iov} (hm : ∀ a ∈ addrs whole, a < m0.length) (off : Nat) :
    Transfers (preadCb pr) whole (fun k s => s.1 = off + k ∧ k ≤ file.length - off ∧
      s.2.1 = pokes m0 (addrs whole) ((file.drop off).take k)) (fun _ => True) := by
  rintro k vs ⟨o, m, q⟩ ⟨rfl, hkf, hI⟩ hk hp hne
  simp only at hI
  obtain ⟨r, m', q', h1, h2⟩ := hL vs (off + k) m q (by
    intro a ha
    rw [hI, pokes_length]
    exact hm a (List.mem_of_mem_drop (hp.subset ha))) hne
  simp only [preadCb, h1]
  cases r with
  | err e => exact ⟨⟨rfl, hkf, by rw [h2]; exact hI⟩, trivial⟩
  | ok n =>
    obtain ⟨h3, h4, h5⟩ := h2
    refine ⟨h3, by simp [Nat.add_assoc], by omega, ?_⟩
    simp only
    obtain ⟨t, ht⟩ := hp
    have hl1 : ((file.drop off).take k).length = k := by simp; omega
    have hl2 : ((file.drop (off + k)).take n).length = n := by simp; omega
    rw [h5, hI, ← pokes_short m0 _ ((file.drop off).take k), hl1, ← pokes_short _ (addrs vs), hl2,
      pokes_append _ _ _ _ _ (by simp [addrs_length]; omega), List.take_add, List.drop_drop]
    rw [← pokes_short m0 (addrs whole), List.length_append, hl1, hl2, List.take_add, ← ht,
      List.take_append_of_le_length (by rw [addrs_length]; exact h3)]

end Verif.Io
