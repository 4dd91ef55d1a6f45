/-!
Memory and I/O vectors: a flat byte memory and `iovec`s as (offset, length) pairs into it. Accesses outside the memory are
undefined behaviour (`none`).
-/
namespace Verif.Io

abbrev Byte := UInt8
abbrev Mem := List Byte

/-- `struct iovec` -/
structure Iov where
  base : Nat
  len : Nat
  deriving DecidableEq, Repr

/-- The bytes an iovec designates. The base of an empty one does not matter. -/
def Iov.bytes (m : Mem) (v : Iov) : Option (List Byte) :=
  if v.len = 0 ∨ v.base + v.len ≤ m.length then some ((m.drop v.base).take v.len) else none

/-- The bytes an iovec array designates, one after the other. -/
def gather (m : Mem) : List Iov → Option (List Byte)
  | [] => some []
  | v :: vs => match v.bytes m, gather m vs with
    | some a, some b => some (a ++ b)
    | _, _ => none

/-- Total length. -/
def total (vs : List Iov) : Nat := (vs.map Iov.len).sum

/-- `memcpy(base, bs)` -/
def memcpy (m : Mem) (base : Nat) (bs : List Byte) : Option Mem :=
  if base + bs.length ≤ m.length then some (m.take base ++ bs ++ m.drop (base + bs.length)) else none

/-- Writing a byte sequence into an iovec array, filling one entry after the other. -/
def scatter (m : Mem) : List Iov → List Byte → Option Mem
  | [], [] => some m
  | [], _ :: _ => none
  | v :: vs, bs => match memcpy m v.base (bs.take v.len) with
    | some m => scatter m vs (bs.drop v.len)
    | none => none

/-- Every entry lies inside the memory. -/
def InMem (m : Mem) (vs : List Iov) : Prop := ∀ v ∈ vs, v.base + v.len ≤ m.length

/-- Errors: EINTR and EIO are special. -/
inductive Err
  | interrupted
  | ioError
  | other (n : Nat)
  deriving DecidableEq, Repr

/-- `io::Result<size_t>` -/
inductive Res
  | ok (n : Nat)
  | err (e : Err)
  deriving DecidableEq, Repr

theorem memcpy_nil {m : Mem} {b : Nat} (h : b ≤ m.length) : memcpy m b [] = some m := by
  simp [memcpy, h]

theorem memcpy_length {m m' : Mem} {b : Nat} {bs : List Byte} (h : memcpy m b bs = some m') : m'.length = m.length := by
  unfold memcpy at h
  split at h
  · simp only [Option.some.injEq] at h; subst h; simp; omega
  · simp at h

theorem memcpy_get {m m' : Mem} {b : Nat} {bs : List Byte} (h : memcpy m b bs = some m') (i : Nat) :
    m'[i]? = if b ≤ i ∧ i < b + bs.length then bs[i - b]? else m[i]? := by
  unfold memcpy at h
  split at h
  · simp only [Option.some.injEq] at h; subst h
    rw [List.append_assoc, List.getElem?_append]
    simp only [List.length_take]
    by_cases h1 : i < b
    · have : ¬ (b ≤ i ∧ i < b + bs.length) := by omega
      rw [if_pos (by omega), if_neg this, List.getElem?_take]; simp [h1]
    · rw [if_neg (by omega), List.getElem?_append]
      have e : i - min b m.length = i - b := by omega
      rw [e]
      by_cases h2 : i < b + bs.length
      · rw [if_pos (by omega), if_pos (by omega)]
      · rw [if_neg (by omega), if_neg (by omega), List.getElem?_drop]
        congr 1; omega
  · simp at h

theorem memcpy_some {m : Mem} {b : Nat} {bs : List Byte} (h : b + bs.length ≤ m.length) : ∃ m', memcpy m b bs = some m' := by
  simp [memcpy, h]

theorem memcpy_bound {m m' : Mem} {b : Nat} {bs : List Byte} (h : memcpy m b bs = some m') : b + bs.length ≤ m.length := by
  unfold memcpy at h
  split at h
  · assumption
  · simp at h

/-- Two copies, one right after the other. -/
theorem memcpy_memcpy {m m1 m2 : Mem} {b : Nat} {xs ys : List Byte} (h1 : memcpy m b xs = some m1)
    (h2 : memcpy m1 (b + xs.length) ys = some m2) : memcpy m b (xs ++ ys) = some m2 := by
  have hb := memcpy_bound h2
  rw [memcpy_length h1] at hb
  obtain ⟨m3, h3⟩ := memcpy_some (m := m) (b := b) (bs := xs ++ ys) (by simp; omega)
  rw [h3]
  congr 1
  apply List.ext_getElem?
  intro i
  rw [memcpy_get h3, memcpy_get h2, memcpy_get h1, List.length_append]
  by_cases ha : b ≤ i
  · by_cases hb : i < b + xs.length
    · rw [if_pos (by omega), if_neg (by omega), if_pos (by omega), List.getElem?_append_left (by omega)]
    · by_cases hc : i < b + (xs.length + ys.length)
      · rw [if_pos (by omega), if_pos (by omega), List.getElem?_append_right (by omega)]; congr 1; omega
      · rw [if_neg (by omega), if_neg (by omega), if_neg (by omega)]
  · rw [if_neg (by omega), if_neg (by omega), if_neg (by omega)]

/-- Reading back what was written. -/
theorem bytes_memcpy {m m' : Mem} {b : Nat} {bs : List Byte} (h : memcpy m b bs = some m') :
    (⟨b, bs.length⟩ : Iov).bytes m' = some bs := by
  have hb := memcpy_bound h
  have hl := memcpy_length h
  simp only [Iov.bytes, hl, hb, or_true, if_true, Option.some.injEq]
  apply List.ext_getElem?
  intro i
  rw [List.getElem?_take, List.getElem?_drop, memcpy_get h]
  by_cases hi : i < bs.length
  · rw [if_pos hi, if_pos (by omega)]; congr 1; omega
  · rw [if_neg hi]; rw [List.getElem?_eq_none (by omega)]

theorem bytes_length {m : Mem} {v : Iov} {bs : List Byte} (h : v.bytes m = some bs) : bs.length = v.len := by
  unfold Iov.bytes at h
  split at h
  · simp only [Option.some.injEq] at h; subst h; simp; omega
  · simp at h

/-- Skipping the first `n` bytes of an entry. -/
theorem bytes_skip {m : Mem} {v : Iov} {bs : List Byte} (h : v.bytes m = some bs) {n : Nat} (hn : n ≤ v.len) :
    (⟨v.base + n, v.len - n⟩ : Iov).bytes m = some (bs.drop n) := by
  unfold Iov.bytes at h ⊢
  split at h
  · simp only [Option.some.injEq] at h; subst h
    rw [if_pos (by simp; omega)]
    simp only [Option.some.injEq]
    rw [List.drop_take, List.drop_drop]
  · simp at h

theorem gather_cons {m : Mem} {v : Iov} {vs : List Iov} {bs : List Byte} :
    gather m (v :: vs) = some bs ↔ ∃ a b, v.bytes m = some a ∧ gather m vs = some b ∧ bs = a ++ b := by
  simp only [gather]
  cases v.bytes m <;> cases gather m vs <;> simp [eq_comm]

theorem gather_length {m : Mem} {vs : List Iov} {bs : List Byte} (h : gather m vs = some bs) : bs.length = total vs := by
  induction vs generalizing bs with
  | nil => simp [gather] at h; subst h; rfl
  | cons v vs ih =>
    obtain ⟨a, b, h1, h2, rfl⟩ := gather_cons.1 h
    simp [total, bytes_length h1] at ih ⊢
    exact ih h2

theorem gather_some {m : Mem} {vs : List Iov} (h : InMem m vs) : ∃ bs, gather m vs = some bs := by
  induction vs with
  | nil => exact ⟨[], rfl⟩
  | cons v vs ih =>
    obtain ⟨b, hb⟩ := ih (fun w hw => h w (List.mem_cons_of_mem _ hw))
    have := h v (by simp)
    exact ⟨_, gather_cons.2 ⟨_, b, by simp [Iov.bytes, this]; rfl, hb, rfl⟩⟩

end Verif.Io
