import Verif.Io.Mem
import Verif.IoBuf.Lemmas
/-!
`io::Source` and its implementations (io/io.h 42-100, 196-240, io/io.cc 124-185).
-/
namespace Verif.Io

/-- `Source::ReadSome(iovec*, len)` (io.h 70) as a function of the source's state, the vector and the memory. `none` is
undefined behaviour or a failed CHECK. -/
abbrev Src (σ : Type) := σ → List Iov → Mem → Option (Res × Mem × σ)

/-- The loop of `Source::ReadAtLeast` (io.cc 147-157): `toRead` so far, `cur` the rest of the destination. -/
def readLoop {σ : Type} (src : Src σ) (min toRead : Nat) (cur : Iov) (m : Mem) (s : σ) : Option (Res × Mem × σ) :=
  if _h : toRead < min then
    match src s [cur] m with
    | none => none
    | some (.err e, m, s) => some (.err e, m, s)
    | some (.ok n, m, s) =>
      if _h0 : n = 0 then some (.ok toRead, m, s)
      else if n ≤ cur.len then readLoop src min (toRead + n) ⟨cur.base + n, cur.len - n⟩ m s
      else none   -- remove_prefix beyond the end
  else some (.ok toRead, m, s)
termination_by min - toRead

/-- `Source::ReadAtLeast` (io.cc 142-160). -/
def readAtLeast {σ : Type} (src : Src σ) (dest : Iov) (min : Nat) (m : Mem) (s : σ) : Option (Res × Mem × σ) :=
  readLoop src min 0 dest m s

/-- `Source::Read` (io.h 97-99). -/
def read {σ : Type} (src : Src σ) (dest : Iov) (m : Mem) (s : σ) : Option (Res × Mem × σ) :=
  readAtLeast src dest dest.len m s

/-- `ReadSomeBytes` (io.cc 125-138): returns the total, the memory and the new offset. -/
def readSomeBytes (source : List Byte) : List Iov → Nat → Nat → Mem → Option (Nat × Mem × Nat)
  | [], offs, tot, m => some (tot, m, offs)
  | v :: vs, offs, tot, m =>
    if offs < source.length then
      let sz := min (source.length - offs) v.len
      match memcpy m v.base ((source.drop offs).take sz) with
      | none => none
      | some m => readSomeBytes source vs (offs + sz) (tot + sz) m
    else some (tot, m, offs)

/-- `BytesSource` (io.h 215-228; io.cc 162-164): the buffer and the offset. -/
def bytesSource : Src (List Byte × Nat) := fun s vs m =>
  match readSomeBytes s.1 vs s.2 0 m with
  | none => none
  | some (n, m, offs) => some (.ok n, m, (s.1, offs))

/-- `BufSource` (io.h 231-240; io.cc 166-171) on the `IoBuf` of `Verif.IoBuf`. Reading an uninitialised byte is undefined. -/
def bufSource : Src IoBuf.Buf := fun b vs m =>
  match b.input.bind (fun cs => cs.mapM id) with
  | none => none
  | some bs =>
    match readSomeBytes bs vs 0 0 m with
    | none => none
    | some (n, m, offs) =>
      match b.consumeInput offs with
      | none => none
      | some b => some (.ok n, m, b)

/-- `PrefixSource` (io.h 197-212; io.cc 173-184): prefix, offset, state of the upstream source. -/
def prefixSource {σ : Type} (up : Src σ) : Src (List Byte × Nat × σ) := fun (p, offs, u) vs m =>
  match vs with
  | [] => none      -- CHECK
  | v :: _ =>
    if offs < p.length then
      let sz := min (p.length - offs) v.len
      match memcpy m v.base ((p.drop offs).take sz) with
      | none => none
      | some m => some (.ok sz, m, (p, offs + sz, u))
    else
      match up u vs m with
      | none => none
      | some (r, m, u) => some (r, m, (p, offs, u))

/-! ### The contract of `ReadSome` (io.h 46-68) -/

/-- What a call of `ReadSome` with result `r` has to do, `R s rest` meaning that the source in state `s` has still the bytes
`rest` to deliver: deliver the next bytes into the vector in order, not more than fit, 0 only at the end; on error change
nothing. -/
def ReadPost {σ : Type} (R : σ → List Byte → Prop) (vs : List Iov) (m : Mem) (rest : List Byte) (r : Res) (m' : Mem) (s' : σ) : Prop :=
  match r with
  | .ok n => ∃ bs rest', rest = bs ++ rest' ∧ bs.length = n ∧ n ≤ total vs ∧ scatter m vs bs = some m' ∧ R s' rest' ∧
      (n = 0 → rest = [])
  | .err _ => m' = m ∧ R s' rest

/-- A lawful source: for every vector of nonempty entries, `ReadSome` is defined and keeps the contract. -/
def Lawful {σ : Type} (src : Src σ) (R : σ → List Byte → Prop) : Prop :=
  ∀ s rest vs m, R s rest → InMem m vs → vs ≠ [] → (∀ v ∈ vs, 0 < v.len) →
    ∃ r m' s', src s vs m = some (r, m', s') ∧ ReadPost R vs m rest r m' s'

/-! ### Lemmas -/

theorem scatter_one {m m' : Mem} {v : Iov} {bs : List Byte} (h : scatter m [v] bs = some m') (hl : bs.length ≤ v.len) :
    memcpy m v.base bs = some m' := by
  simp only [scatter] at h
  rw [List.take_of_length_le hl, List.drop_eq_nil_of_le hl] at h
  cases hm : memcpy m v.base bs with
  | none => simp [hm] at h
  | some m1 => simpa [hm, scatter] using h

theorem scatter_nil {m : Mem} {vs : List Iov} (h : InMem m vs) : scatter m vs [] = some m := by
  induction vs with
  | nil => rfl
  | cons v vs ih =>
    have := h v (by simp)
    simp only [scatter, List.take_nil, List.drop_nil, memcpy_nil (show v.base ≤ m.length by omega)]
    exact ih (fun w hw => h w (List.mem_cons_of_mem _ hw))

theorem readSomeBytes_spec (source : List Byte) : ∀ (vs : List Iov) (offs tot : Nat) (m : Mem), offs ≤ source.length → InMem m vs →
    ∃ m', readSomeBytes source vs offs tot m =
      some (tot + min (source.length - offs) (total vs), m', offs + min (source.length - offs) (total vs)) ∧
      scatter m vs ((source.drop offs).take (total vs)) = some m' := by
  intro vs
  induction vs with
  | nil => intro offs tot m ho hm; exact ⟨m, by simp [readSomeBytes, total], by simp [scatter, total]⟩
  | cons v vs ih =>
    intro offs tot m ho hm
    have hv := hm v (by simp)
    simp only [readSomeBytes]
    by_cases hlt : offs < source.length
    · simp only [hlt, if_true]
      have hlen : ((source.drop offs).take (min (source.length - offs) v.len)).length = min (source.length - offs) v.len := by
        simp
      obtain ⟨m1, h1⟩ := memcpy_some (m := m) (b := v.base) (bs := (source.drop offs).take (min (source.length - offs) v.len))
        (by rw [hlen]; omega)
      have hl1 := memcpy_length h1
      obtain ⟨m2, h2, h3⟩ := ih (offs + min (source.length - offs) v.len) (tot + min (source.length - offs) v.len) m1 (by omega)
        (by intro w hw; rw [hl1]; exact hm w (List.mem_cons_of_mem _ hw))
      refine ⟨m2, ?_, ?_⟩
      · simp only [h1, h2, total, List.map_cons, List.sum_cons, Option.some.injEq, Prod.mk.injEq, true_and]
        omega
      · have e1 : ((source.drop offs).take (total (v :: vs))).take v.len = (source.drop offs).take (min (source.length - offs) v.len) := by
          rw [List.take_take]
          have : min v.len (total (v :: vs)) = v.len := by simp [total]
          rw [this]
          by_cases h : v.len ≤ source.length - offs
          · rw [Nat.min_eq_right h]
          · rw [Nat.min_eq_left (by omega), List.take_of_length_le (by simp; omega), List.take_of_length_le (by simp)]
        have e2 : ((source.drop offs).take (total (v :: vs))).drop v.len =
            (source.drop (offs + min (source.length - offs) v.len)).take (total vs) := by
          rw [List.drop_take, List.drop_drop]
          have : total (v :: vs) - v.len = total vs := by simp [total]
          rw [this]
          by_cases h : v.len ≤ source.length - offs
          · rw [Nat.min_eq_right h]
          · rw [Nat.min_eq_left (by omega), List.drop_eq_nil_of_le (by omega), List.drop_eq_nil_of_le (by omega)]
        simp only [scatter, e1, h1, e2, h3]
    · simp only [hlt, if_false]
      have : source.length - offs = 0 := by omega
      refine ⟨m, by simp [this], ?_⟩
      rw [List.drop_eq_nil_of_le (by omega), List.take_nil]
      exact scatter_nil hm

theorem total_pos {vs : List Iov} (h : vs ≠ []) (hp : ∀ v ∈ vs, 0 < v.len) : 0 < total vs := by
  cases vs with
  | nil => contradiction
  | cons v vs => have := hp v (by simp); simp [total]; omega

theorem readLoop_spec {σ : Type} {src : Src σ} {R : σ → List Byte → Prop} (hL : Lawful src R) (min : Nat) :
    ∀ (k toRead : Nat) (cur : Iov) (m : Mem) (s : σ) (rest : List Byte), min - toRead = k → R s rest →
      cur.base + cur.len ≤ m.length → min - toRead ≤ cur.len →
      ∃ r m' s', readLoop src min toRead cur m s = some (r, m', s') ∧ ∃ bs rest', rest = bs ++ rest' ∧ R s' rest' ∧
        bs.length ≤ cur.len ∧ memcpy m cur.base bs = some m' ∧
        match r with
        | .ok n => n = toRead + bs.length ∧ (min ≤ n ∨ rest' = [])
        | .err _ => bs.length < min - toRead := by
  intro k
  induction k using Nat.strongRecOn with
  | ind k ih =>
    intro toRead cur m s rest hk hR hm hle
    rw [readLoop]
    split
    · rename_i hlt
      obtain ⟨r, m1, s1, h1, h2⟩ := hL s rest [cur] m hR (by simpa [InMem] using hm) (by simp) (by simp; omega)
      rw [h1]
      cases r with
      | err e =>
        obtain ⟨rfl, h3⟩ := h2
        exact ⟨_, _, _, rfl, [], rest, rfl, h3, by simp, memcpy_nil (by omega), by simp; omega⟩
      | ok n =>
        obtain ⟨bs, rest1, rfl, hbl, hn, hs, hR1, h0⟩ := h2
        have hn' : n ≤ cur.len := by simpa [total] using hn
        have hmc := scatter_one hs (by omega)
        simp only [if_pos hn']
        split
        · rename_i hz
          subst hz
          have hb0 : bs = [] := List.length_eq_zero_iff.1 hbl
          have := h0 rfl
          subst hb0
          simp only [List.nil_append] at this
          exact ⟨_, _, _, rfl, [], rest1, rfl, hR1, by simp, hmc, by simp, .inr this⟩
        · obtain ⟨r, m2, s2, h4, bs2, rest2, rfl, hR2, hl2, hc2, h5⟩ := ih (min - (toRead + n)) (by omega) (toRead + n)
            ⟨cur.base + n, cur.len - n⟩ m1 s1 rest1 rfl hR1 (by rw [memcpy_length hmc]; simp; omega) (by simp; omega)
          refine ⟨r, m2, s2, h4, bs ++ bs2, rest2, by simp, hR2, by simp at hl2 ⊢; omega, ?_, ?_⟩
          · exact memcpy_memcpy hmc (by rw [hbl]; exact hc2)
          · cases r with
            | ok n2 => simp at h5 ⊢; refine ⟨by omega, h5.2⟩
            | err e => simp at h5 ⊢; omega
    · exact ⟨_, _, _, rfl, [], rest, rfl, hR, by simp, memcpy_nil (by omega), by simp, .inl (by omega)⟩

end Verif.Io
