import Verif.Io.Exact
import Verif.IoBuf.Lemmas
/-!
`io::Sink::Write` and the sinks of io.h (io.cc 19-33, 186-216), `LinuxFile::Write`/`Read` (util/fibers/uring_file.cc 373-395).
-/
namespace Verif.Io

/-- `Sink::WriteSome(iovec*, len)` (io.h 134): reads the memory `m` the vector points into, `none` is undefined behaviour. -/
abbrev Snk (σ : Type) := Mem → List Iov → σ → Option (Res × σ)

/-- `WriteSomeBytes` (io.cc 19-33): retries while interrupted, turns 0 into `io_error`. The first argument bounds the retries.
The DCHECKs (nonempty entries) are not there in release builds and are not modelled. -/
def writeSomeBytes {σ : Type} (snk : Snk σ) (m : Mem) : Nat → List Iov → σ → Run Res σ
  | 0, _, _ => .more
  | k + 1, vs, s =>
    match snk m vs s with
    | none => .ub
    | some (.ok 0, s) => .ret (.err .ioError) s
    | some (.ok (n + 1), s) => .ret (.ok (n + 1)) s
    | some (.err .interrupted, s) => writeSomeBytes snk m k vs s
    | some (.err e, s) => .ret (.err e) s

/-- `Sink::Write` (io.cc 186-189); `retries` and `iters` bound the loops. -/
def sinkWrite {σ : Type} (snk : Snk σ) (m : Mem) (retries iters : Nat) (vs : List Iov) (s : σ) : Run (Option Err) σ :=
  applyExactly (fun vs s => writeSomeBytes snk m retries vs s) iters vs s

/-- `NullSink::WriteSome` (io.cc 191-197). -/
def nullSink : Snk Unit := fun _ vs s => some (.ok (total vs), s)

/-- `StringSink::WriteSome` (io.cc 208-215): the state is the string. -/
def stringSink : Snk (List Byte) := fun m vs s =>
  let rec go : List Iov → Nat → List Byte → Option (Res × List Byte)
    | [], res, s => some (.ok res, s)
    | v :: vs, res, s =>
      match v.bytes m with
      | none => none
      | some bs => go vs (res + v.len) (s ++ bs)
  go vs 0 s

/-- `BufSink::WriteSome` (io.cc 199-206) on the `IoBuf` of `Verif.IoBuf`. -/
def bufSink : Snk IoBuf.Buf := fun m vs b =>
  let rec go : List Iov → Nat → IoBuf.Buf → Option (Res × IoBuf.Buf)
    | [], res, b => some (.ok res, b)
    | v :: vs, res, b =>
      match v.bytes m with
      | none => none
      | some bs =>
        match b.writeAndCommit bs with
        | none => none
        | some b => go vs (res + v.len) b
  go vs 0 b

/-- The contract of `WriteSome` (io.h 112-134), `W s o` meaning that the sink in state `s` has been given the bytes `o`: the
bytes of a prefix of the vector, as many as reported, are appended; on error nothing is. -/
def LawfulSink {σ : Type} (snk : Snk σ) (W : σ → List Byte → Prop) : Prop :=
  ∀ m vs s o bs, W s o → gather m vs = some bs → ∃ r s', snk m vs s = some (r, s') ∧
    match r with
    | .ok n => n ≤ bs.length ∧ W s' (o ++ bs.take n)
    | .err _ => W s' o

theorem gather_get {m : Mem} {vs : List Iov} {bs : List Byte} (h : gather m vs = some bs) (i : Nat) :
    bs[i]? = (addrs vs)[i]?.bind (fun a => m[a]?) := by
  induction vs generalizing bs i with
  | nil => simp [gather] at h; subst h; simp
  | cons v vs ih =>
    obtain ⟨a, b, h1, h2, rfl⟩ := gather_cons.1 h
    have hl := bytes_length h1
    rw [addrs_cons, List.getElem?_append, List.getElem?_append]
    simp only [List.length_range', hl]
    split
    · rename_i hi
      rw [List.getElem?_range' hi]
      unfold Iov.bytes at h1
      split at h1
      · simp only [Option.some.injEq] at h1; subst h1
        rw [List.getElem?_take, if_pos hi, List.getElem?_drop]; simp
      · simp at h1
    · exact ih h2 _

theorem gather_iff {m : Mem} {vs : List Iov} : (∃ bs, gather m vs = some bs) ↔ ∀ a ∈ addrs vs, a < m.length := by
  induction vs with
  | nil => simp [gather]
  | cons v vs ih =>
    constructor
    · rintro ⟨bs, h⟩
      obtain ⟨a, b, h1, h2, rfl⟩ := gather_cons.1 h
      intro x hx
      rw [addrs_cons, List.mem_append, List.mem_range'_1] at hx
      rcases hx with hx | hx
      · unfold Iov.bytes at h1
        split at h1
        · omega
        · simp at h1
      · exact ih.1 ⟨b, h2⟩ x hx
    · intro h
      obtain ⟨b, hb⟩ := ih.2 (fun a ha => h a (by simp [ha]))
      have : v.len = 0 ∨ v.base + v.len ≤ m.length := by
        by_cases hz : v.len = 0
        · exact .inl hz
        · right
          have := h (v.base + (v.len - 1)) (by rw [addrs_cons, List.mem_append, List.mem_range'_1]; omega)
          omega
      exact ⟨_, gather_cons.2 ⟨_, b, by simp only [Iov.bytes, if_pos this]; rfl, hb, rfl⟩⟩

theorem gather_prefix {m : Mem} {whole vs : List Iov} {bs cs : List Byte} {k : Nat} (hw : gather m whole = some bs)
    (hv : gather m vs = some cs) (hp : addrs vs <+: (addrs whole).drop k) : cs <+: bs.drop k := by
  obtain ⟨t, ht⟩ := hp
  rw [List.prefix_iff_eq_take]
  apply List.ext_getElem?
  intro i
  rw [List.getElem?_take, List.getElem?_drop, gather_get hv, gather_get hw, gather_length hv]
  split
  · rename_i hi
    have : (addrs whole)[k + i]? = (addrs vs)[i]? := by
      rw [← List.getElem?_drop, ← ht, List.getElem?_append_left (by rw [addrs_length]; exact hi)]
    rw [this]
  · rename_i hi
    rw [List.getElem?_eq_none (by rw [addrs_length]; omega)]; rfl

theorem writeSomeBytes_spec {σ : Type} {snk : Snk σ} {W : σ → List Byte → Prop} (hL : LawfulSink snk W) {m : Mem} {vs : List Iov}
    {bs : List Byte} (hg : gather m vs = some bs) : ∀ (f : Nat) (s : σ) (o : List Byte), W s o →
    match writeSomeBytes snk m f vs s with
    | .ub => False
    | .more => True
    | .ret (.ok n) s' => n ≤ bs.length ∧ 0 < n ∧ W s' (o ++ bs.take n)
    | .ret (.err e) s' => W s' o ∧ e ≠ .interrupted := by
  intro f
  induction f with
  | zero => intros; trivial
  | succ f ih =>
    intro s o hW
    obtain ⟨r, s', h1, h2⟩ := hL m vs s o bs hW hg
    simp only [writeSomeBytes, h1]
    rcases r with n | e
    · rcases n with _ | n
      · simp only [List.take_zero, List.append_nil] at h2
        exact ⟨h2.2, by simp⟩
      · exact ⟨h2.1, by omega, h2.2⟩
    · cases e with
      | interrupted => exact ih s' o h2
      | ioError => exact ⟨h2, by simp⟩
      | other n => exact ⟨h2, by simp⟩

theorem sinkWrite_transfers {σ : Type} {snk : Snk σ} {W : σ → List Byte → Prop} (hL : LawfulSink snk W) {m : Mem} {whole : List Iov}
    {bs : List Byte} (hg : gather m whole = some bs) (f : Nat) (o : List Byte) :
    Transfers (fun vs s => writeSomeBytes snk m f vs s) whole (fun k s => W s (o ++ bs.take k)) (· ≠ .interrupted) := by
  intro k vs s hI hk hp hne
  have hin := gather_iff.1 ⟨bs, hg⟩
  obtain ⟨cs, hcs⟩ := gather_iff.2 (fun a ha => hin a (List.mem_of_mem_drop (hp.subset ha)))
  have hcp := gather_prefix hg hcs hp
  have h := writeSomeBytes_spec hL hcs f s _ hI
  simp only
  cases hw : writeSomeBytes snk m f vs s with
  | ub => simp [hw] at h
  | more => trivial
  | ret r s' =>
    rw [hw] at h
    cases r with
    | err e => exact h
    | ok n =>
      obtain ⟨h1, h2, h3⟩ := h
      refine ⟨by rw [← gather_length hcs]; exact h1, ?_⟩
      have e : bs.take k ++ cs.take n = bs.take (k + n) := by
        rw [List.take_add]
        congr 1
        obtain ⟨t, ht⟩ := hcp
        rw [← ht, List.take_append_of_le_length h1]
      rw [← e, ← List.append_assoc]
      exact h3

end Verif.Io
