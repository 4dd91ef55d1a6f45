import Verif.Io.Source
import Verif.Io.File
import Verif.Io.Async
/-!
C14 (read loops), C15 (exact writes), C16 (composed sources and sinks), C17 (asynchronous exact transfers), C38 (iovec helpers),
C49 (positioned file reads and writes).
-/
namespace Verif.Io

/-! ### Reading back what was scattered -/

theorem pokes_read (as : List Nat) : ∀ (m : Mem) (bs : List Byte) (i : Nat), as.Nodup → (∀ a ∈ as, a < m.length) → i < bs.length →
    i < as.length → as[i]?.bind (fun a => (pokes m as bs)[a]?) = bs[i]? := by
  induction as with
  | nil => intro m bs i _ _ _ h; simp at h
  | cons a as ih =>
    intro m bs i hn hm hi hl
    cases bs with
    | nil => simp at hi
    | cons b bs =>
      obtain ⟨hna, hn'⟩ := List.nodup_cons.1 hn
      have e : pokes m (a :: as) (b :: bs) = pokes (m.set a b) as bs := by simp [pokes]
      rw [e]
      cases i with
      | zero =>
        simp only [List.getElem?_cons_zero, Option.bind_some]
        rw [pokes_get _ _ _ _ hna, List.getElem?_set]
        simp [hm a (by simp)]
      | succ i =>
        simp only [List.getElem?_cons_succ]
        exact ih _ _ _ hn' (by intro x hx; rw [List.length_set]; exact hm x (by simp [hx])) (by simpa using hi) (by simpa using hl)

/-- After scattering `bs` into a vector of disjoint entries, its first bytes are `bs`. -/
theorem gather_scatter {m m' : Mem} {vs : List Iov} {bs : List Byte} (hs : scatter m vs bs = some m') (hm : InMem m vs)
    (hd : (addrs vs).Nodup) (hl : bs.length ≤ total vs) : ∃ cs, gather m' vs = some cs ∧ cs.take bs.length = bs := by
  have hp := scatter_pokes hs
  have hin : ∀ a ∈ addrs vs, a < m.length := gather_iff.1 (gather_some hm)
  obtain ⟨cs, hcs⟩ := gather_iff.2 (show ∀ a ∈ addrs vs, a < m'.length by intro a ha; rw [hp, pokes_length]; exact hin a ha)
  refine ⟨cs, hcs, ?_⟩
  apply List.ext_getElem?
  intro i
  rw [List.getElem?_take]
  split
  · rename_i hi
    rw [gather_get hcs, hp]
    exact pokes_read _ _ _ _ hd hin hi (by rw [addrs_length]; omega)
  · rw [List.getElem?_eq_none (by omega)]

/-! ### C14 -/

/-- `ReadAtLeast` over any lawful source (any chunking, any errors): never undefined. On success `n` bytes of the destination
hold exactly the next `n` bytes of the stream, the rest of the memory is unchanged, `n` is at least the minimum unless the
stream is exhausted and at most the size of the destination, and the source goes on right behind them. On error, the bytes
read before it (fewer than the minimum) are in the destination and consumed. -/
theorem C14_read_at_least {σ : Type} {src : Src σ} {R : σ → List Byte → Prop} (hL : Lawful src R) (s : σ) (stream : List Byte)
    (hR : R s stream) (m : Mem) (dest : Iov) (hd : dest.base + dest.len ≤ m.length) (min : Nat) (hmin : min ≤ dest.len) :
    ∃ r m' s' bs rest, readAtLeast src dest min m s = some (r, m', s') ∧ stream = bs ++ rest ∧ R s' rest ∧
      (⟨dest.base, bs.length⟩ : Iov).bytes m' = some bs ∧
      (∀ i, (i < dest.base ∨ dest.base + bs.length ≤ i) → m'[i]? = m[i]?) ∧ bs.length ≤ dest.len ∧
      match r with
      | .ok n => n = bs.length ∧ (min ≤ n ∨ rest = [])
      | .err _ => bs.length < min := by
  obtain ⟨r, m', s', h, bs, rest, rfl, hR', hl, hc, hp⟩ := readLoop_spec hL min min 0 dest m s stream (by simp) hR hd (by omega)
  refine ⟨r, m', s', bs, rest, h, rfl, hR', bytes_memcpy hc, ?_, hl, ?_⟩
  · intro i hi
    rw [memcpy_get hc, if_neg (by omega)]
  · cases r with
    | ok n => simpa using hp
    | err e => simpa using hp

/-- `Read` fills the destination unless the stream ends. -/
theorem C14_read {σ : Type} {src : Src σ} {R : σ → List Byte → Prop} (hL : Lawful src R) (s : σ) (stream : List Byte)
    (hR : R s stream) (m : Mem) (dest : Iov) (hd : dest.base + dest.len ≤ m.length) :
    ∃ r m' s' bs rest, read src dest m s = some (r, m', s') ∧ stream = bs ++ rest ∧ R s' rest ∧
      (⟨dest.base, bs.length⟩ : Iov).bytes m' = some bs ∧
      (∀ n, r = .ok n → n = bs.length ∧ n = min dest.len stream.length) := by
  obtain ⟨r, m', s', bs, rest, h1, h2, h3, h4, h5, h6, h7⟩ := C14_read_at_least hL s stream hR m dest hd dest.len (Nat.le_refl _)
  refine ⟨r, m', s', bs, rest, h1, h2, h3, h4, ?_⟩
  rintro n rfl
  simp only at h7
  refine ⟨h7.1, ?_⟩
  subst h2
  rcases h7.2 with h | h
  · simp; omega
  · subst h; simp; omega

/-- An error loses bytes: they are consumed from the source, and the caller does not learn how many there were. -/
theorem C14_error_drops_count : ∃ (src : Src (List Byte × Bool)) (R : List Byte × Bool → List Byte → Prop) (s : List Byte × Bool) (m : Mem), Lawful src R ∧
    R s [7, 8] ∧ ∃ m' s', readAtLeast src ⟨0, 2⟩ 2 m s = some (.err .ioError, m', s') ∧ R s' [8] := by
  refine ⟨fun s vs m =>
      match vs with
      | [] => none
      | v :: _ =>
        match s with
        | (b :: bs, false) => (memcpy m v.base [b]).map (fun m' => (.ok 1, m', (bs, true)))
        | (bs, _) => some (if bs = [] then .ok 0 else .err .ioError, m, (bs, true)), fun s r => s.1 = r, ([7, 8], false), [0, 0], ?_, rfl,
      [7, 0], ([8], true), by decide +kernel, rfl⟩
  rintro ⟨bs, f⟩ rest vs m rfl hin hne hpos
  obtain _ | ⟨v, vs⟩ := vs
  · exact absurd rfl hne
  have hv := hin v (by simp); have hp := hpos v (by simp)
  have hin' : InMem m (v :: vs) := hin
  cases bs with
  | nil =>
    refine ⟨.ok 0, m, ([], true), by cases f <;> rfl, [], [], rfl, rfl, by simp, scatter_nil hin', rfl, fun _ => rfl⟩
  | cons b bs =>
    cases f with
    | true => exact ⟨.err .ioError, m, (b :: bs, true), by simp, rfl, rfl⟩
    | false =>
      obtain ⟨m', hm'⟩ := memcpy_some (m := m) (b := v.base) (bs := [b]) (by simp; omega)
      refine ⟨.ok 1, m', (bs, true), by simp [hm'], [b], bs, rfl, rfl, ?_, ?_, rfl, by simp⟩
      · simp [total]; omega
      · have e1 : [b].take v.len = [b] := List.take_of_length_le (by simp; omega)
        have e2 : [b].drop v.len = [] := List.drop_eq_nil_of_le (by simp; omega)
        simp only [scatter, e1, hm', e2]
        exact scatter_nil (by intro w hw; rw [memcpy_length hm']; exact hin w (List.mem_cons_of_mem _ hw))

/-! ### C16: sources -/

/-- `BytesSource` delivers its bytes from the current offset on. -/
theorem C16_bytes_source_lawful : Lawful bytesSource (fun s rest => s.2 ≤ s.1.length ∧ rest = s.1.drop s.2) := by
  rintro ⟨src, offs⟩ rest vs m ⟨ho, rfl⟩ hin hne hpos
  obtain ⟨m', h1, h2⟩ := readSomeBytes_spec src vs offs 0 m ho hin
  have hp := total_pos hne hpos
  refine ⟨.ok _, m', (src, _), by simp only [bytesSource, h1]; rfl, (src.drop offs).take (total vs), (src.drop offs).drop (total vs), ?_, ?_, ?_, h2, ⟨?_, ?_⟩, ?_⟩
  · exact (List.take_append_drop _ _).symm
  · simp; omega
  · simp; omega
  · simp only; simp only at ho; omega
  · simp only [List.drop_drop]
    by_cases h : total vs ≤ src.length - offs
    · rw [Nat.min_eq_right h]
    · rw [Nat.min_eq_left (by omega), List.drop_eq_nil_of_le (by omega), List.drop_eq_nil_of_le (by omega)]
  · intro h
    apply List.drop_eq_nil_of_le
    simp only at ho ⊢; omega

/-- `BufSource` delivers the bytes queued in the `IoBuf`, consuming them. -/
theorem C16_buf_source_lawful : Lawful bufSource IoBuf.Rep := by
  rintro b q vs m hR hin hne hpos
  obtain ⟨m', h1, h2⟩ := readSomeBytes_spec q vs 0 0 m (by omega) hin
  have hp := total_pos hne hpos
  have hi : b.input.bind (fun cs => cs.mapM id) = some q := by
    rw [IoBuf.input_of_rep hR]
    simp only [Option.bind_some]
    clear hR h1 h2
    induction q with
    | nil => rfl
    | cons x xs ih => simp [List.mapM_cons, ih]
  simp only [Nat.zero_add, Nat.sub_zero] at h1
  obtain ⟨b', hb', hR', _⟩ := IoBuf.consume_rep hR (min q.length (total vs))
  refine ⟨.ok _, m', b', by simp only [bufSource, hi, h1, hb']; rfl, q.take (total vs), q.drop (min q.length (total vs)), ?_, ?_, ?_, by simpa using h2, hR', ?_⟩
  · by_cases h : total vs ≤ q.length
    · rw [Nat.min_eq_right h]; simp
    · rw [Nat.min_eq_left (by omega), List.drop_eq_nil_of_le (by omega), List.take_of_length_le (by omega)]; simp
  · simp; omega
  · omega
  · intro h
    exact List.length_eq_zero_iff.1 (by omega)

/-- `PrefixSource` over a lawful upstream delivers what is left of the prefix, then the upstream's stream. -/
theorem C16_prefix_source_lawful {σ : Type} {up : Src σ} {R : σ → List Byte → Prop} (hL : Lawful up R) :
    Lawful (prefixSource up) (fun s rest => ∃ r, R s.2.2 r ∧ rest = s.1.drop s.2.1 ++ r) := by
  rintro ⟨p, offs, u⟩ rest vs m ⟨r, hR, rfl⟩ hin hne hpos
  obtain _ | ⟨v, vs⟩ := vs
  · exact absurd rfl hne
  simp only at hR ⊢
  simp only [prefixSource]
  have hv := hin v (by simp); have hp := hpos v (by simp)
  by_cases ho : offs < p.length
  · simp only [if_pos ho]
    have hlen : ((p.drop offs).take (min (p.length - offs) v.len)).length = min (p.length - offs) v.len := by simp
    obtain ⟨m', hm'⟩ := memcpy_some (m := m) (b := v.base) (bs := (p.drop offs).take (min (p.length - offs) v.len)) (by rw [hlen]; omega)
    refine ⟨.ok _, m', (p, _, u), by simp only [hm'], (p.drop offs).take (min (p.length - offs) v.len), p.drop (offs + min (p.length - offs) v.len) ++ r,
      ?_, hlen, ?_, ?_, ⟨r, hR, rfl⟩, ?_⟩
    · rw [← List.append_assoc, ← List.drop_drop, List.take_append_drop]
    · simp [total]; omega
    · have e1 : ((p.drop offs).take (min (p.length - offs) v.len)).take v.len = (p.drop offs).take (min (p.length - offs) v.len) :=
        List.take_of_length_le (by rw [hlen]; omega)
      have e2 : ((p.drop offs).take (min (p.length - offs) v.len)).drop v.len = [] := List.drop_eq_nil_of_le (by rw [hlen]; omega)
      simp only [scatter, e1, hm', e2]
      exact scatter_nil (by intro w hw; rw [memcpy_length hm']; exact hin w (List.mem_cons_of_mem _ hw))
    · intro h; omega
  · simp only [if_neg ho]
    have hz : p.drop offs = [] := List.drop_eq_nil_of_le (by omega)
    obtain ⟨x, m', u', h1, h2⟩ := hL u r (v :: vs) m hR hin hne hpos
    refine ⟨x, m', (p, offs, u'), by rw [h1], ?_⟩
    cases x with
    | ok n =>
      obtain ⟨bs, rest', h3, h4, h5, h6, h7, h8⟩ := h2
      exact ⟨bs, rest', by rw [hz, List.nil_append]; exact h3, h4, h5, h6, ⟨rest', h7, by simp [hz]⟩, fun h => by rw [hz, h8 h]; rfl⟩
    | err e => exact ⟨h2.1, r, h2.2, rfl⟩

/-- A caller that reads with a sequence of vectors until it has used them up; it collects what it finds in them. -/
def collect {σ : Type} (src : Src σ) : List (List Iov) → Mem → σ → Option (List Byte × Bool × Mem × σ)
  | [], m, s => some ([], false, m, s)
  | vs :: more, m, s =>
    match src s vs m with
    | none => none
    | some (.err _, m, s) => collect src more m s
    | some (.ok n, m, s) =>
      match gather m vs with
      | none => none
      | some cs =>
        match collect src more m s with
        | none => none
        | some (bs, eof, m, s) => some (cs.take n ++ bs, n == 0 || eof, m, s)

/-- Whatever sequence of (nonempty, disjoint) vectors is used, what the caller finds in its buffers is the stream from the
front, with nothing lost or repeated, and a 0 result means that all of it has been delivered. -/
theorem C16_collect {σ : Type} {src : Src σ} {R : σ → List Byte → Prop} (hL : Lawful src R) : ∀ (reqs : List (List Iov)) (m : Mem) (s : σ)
    (stream : List Byte), R s stream → (∀ vs ∈ reqs, InMem m vs ∧ vs ≠ [] ∧ (∀ v ∈ vs, 0 < v.len) ∧ (addrs vs).Nodup) →
    ∃ got eof m' s' rest, collect src reqs m s = some (got, eof, m', s') ∧ stream = got ++ rest ∧ R s' rest ∧ (eof = true → rest = []) := by
  intro reqs
  induction reqs with
  | nil => intro m s stream hR _; exact ⟨[], false, m, s, stream, rfl, rfl, hR, by simp⟩
  | cons vs reqs ih =>
    intro m s stream hR hreq
    obtain ⟨hin, hne, hpos, hnd⟩ := hreq vs (by simp)
    obtain ⟨r, m1, s1, h1, h2⟩ := hL s stream vs m hR hin hne hpos
    have hlen : m1.length = m.length := by
      cases r with
      | err e => rw [h2.1]
      | ok n => obtain ⟨_, _, _, _, _, h, _⟩ := h2; rw [scatter_pokes h, pokes_length]
    have hreq' : ∀ vs ∈ reqs, InMem m1 vs ∧ vs ≠ [] ∧ (∀ v ∈ vs, 0 < v.len) ∧ (addrs vs).Nodup := by
      intro w hw
      obtain ⟨a, b, c, d⟩ := hreq w (List.mem_cons_of_mem _ hw)
      exact ⟨by intro v hv; rw [hlen]; exact a v hv, b, c, d⟩
    cases r with
    | err e =>
      obtain ⟨got, eof, m', s', rest, h⟩ := ih m1 s1 stream h2.2 hreq'
      exact ⟨got, eof, m', s', rest, by simp only [collect, h1]; exact h.1, h.2⟩
    | ok n =>
      obtain ⟨bs, rest1, rfl, hbl, hn, hs, hR1, h0⟩ := h2
      obtain ⟨got, eof, m', s', rest, h3, rfl, h5, h6⟩ := ih m1 s1 rest1 hR1 hreq'
      obtain ⟨cs, hcs, hct⟩ := gather_scatter hs hin hnd (by omega)
      refine ⟨bs ++ got, n == 0 || eof, m', s', rest, ?_, by simp, h5, ?_⟩
      · simp only [collect, h1, hcs, h3]
        rw [← hct, hbl]
      · intro he
        simp only [Bool.or_eq_true, beq_iff_eq] at he
        rcases he with he | he
        · have := h0 he
          simp at this
          exact this.2.2
        · exact h6 he

/-- With an empty first entry `PrefixSource` reports 0, which reads as the end of the stream, while data is left. -/
theorem C16_prefix_empty_entry_looks_like_eof {σ : Type} (up : Src σ) (p : List Byte) (offs : Nat) (u : σ) (b : Nat) (vs : List Iov) (m : Mem)
    (ho : offs < p.length) (hb : b ≤ m.length) : prefixSource up (p, offs, u) (⟨b, 0⟩ :: vs) m = some (.ok 0, m, (p, offs, u)) := by
  simp [prefixSource, ho, memcpy_nil hb]

/-! ### C16: sinks -/

theorem stringSink_go (m : Mem) : ∀ (vs : List Iov) (res : Nat) (s bs : List Byte), gather m vs = some bs →
    stringSink.go m vs res s = some (.ok (res + total vs), s ++ bs) := by
  intro vs
  induction vs with
  | nil => intro res s bs h; simp [gather] at h; subst h; simp [stringSink.go, total]
  | cons v vs ih =>
    intro res s bs h
    obtain ⟨a, b, h1, h2, rfl⟩ := gather_cons.1 h
    simp only [stringSink.go, h1]
    rw [ih _ _ _ h2]
    simp [total, Nat.add_assoc]

/-- `StringSink` appends everything. -/
theorem C16_string_sink (m : Mem) (vs : List Iov) (s bs : List Byte) (h : gather m vs = some bs) :
    stringSink m vs s = some (.ok bs.length, s ++ bs) := by
  unfold stringSink
  rw [stringSink_go m vs 0 s bs h, gather_length h]; simp

/-- It is a lawful sink. -/
theorem C16_string_sink_lawful : LawfulSink stringSink (fun s o => s = o) := by
  rintro m vs s o bs rfl hg
  exact ⟨_, _, C16_string_sink m vs s bs hg, Nat.le_refl _, by simp⟩

theorem ensure_size {b : IoBuf.Buf} {q : List UInt8} (h : IoBuf.Rep b q) {n : Nat} (hn : b.size + n ≤ 2 ^ 63) {b' : IoBuf.Buf}
    (hb : b.ensureCapacity n = some b') : b'.size ≤ b.size := by
  unfold IoBuf.Buf.ensureCapacity at hb
  split at hb
  · obtain ⟨b2, h1, _, _, _, h2, h3⟩ := IoBuf.reserve_rep h (n := b.size + n) hn
    rw [h1, Option.some.injEq] at hb
    subst hb
    by_cases hc : b.size + n < b.cap
    · rw [h2 hc]; exact Nat.le_refl _
    · have := (h3 (by omega)).2.2.1
      have := h.hl
      omega
  · simp only [Option.some.injEq] at hb; subst hb; exact Nat.le_refl _

theorem fill_size {b b' : IoBuf.Buf} {bs : List UInt8} (hb : b.fillAndCommit bs = some b') : b'.size ≤ b.size + bs.length := by
  unfold IoBuf.Buf.fillAndCommit at hb
  split at hb
  · split at hb
    · simp only [Option.some.injEq] at hb; subst hb; omega
    · simp at hb
  · split at hb
    · simp at hb
    · simp only [Option.some.injEq] at hb; subst hb; exact Nat.le_refl _

theorem bufSink_go (m : Mem) : ∀ (vs : List Iov) (res : Nat) (b : IoBuf.Buf) (q bs : List Byte), gather m vs = some bs → IoBuf.Rep b q →
    b.size + total vs ≤ 2 ^ 63 → ∃ b', bufSink.go m vs res b = some (.ok (res + total vs), b') ∧ IoBuf.Rep b' (q ++ bs) := by
  intro vs
  induction vs with
  | nil => intro res b q bs h hR _; simp [gather] at h; subst h; exact ⟨b, by simp [bufSink.go, total], by simpa using hR⟩
  | cons v vs ih =>
    intro res b q bs h hR hsz
    obtain ⟨x, y, h1, h2, rfl⟩ := gather_cons.1 h
    have hl := bytes_length h1
    have e : total (v :: vs) = v.len + total vs := by simp [total]
    obtain ⟨b1, hb1, hr1, ha, _⟩ := IoBuf.ensure_rep hR (n := x.length) (by omega)
    obtain ⟨b2, hb2, hr2, _⟩ := IoBuf.fill_rep hr1 ha
    have s1 := ensure_size hR (by omega) hb1
    have s2 := fill_size hb2
    obtain ⟨b3, h3, h4⟩ := ih (res + v.len) b2 _ _ h2 hr2 (by omega)
    refine ⟨b3, ?_, by rw [← List.append_assoc]; exact h4⟩
    simp only [bufSink.go, h1, IoBuf.Buf.writeAndCommit, hb1, hb2]
    rw [h3, e, Nat.add_assoc]

/-- `BufSink` appends everything to the queue of the `IoBuf` (as long as the buffer stays below 2^63 bytes). -/
theorem C16_buf_sink (m : Mem) (vs : List Iov) (b : IoBuf.Buf) (q bs : List Byte) (h : gather m vs = some bs) (hR : IoBuf.Rep b q)
    (hsz : b.size + bs.length ≤ 2 ^ 63) : ∃ b', bufSink m vs b = some (.ok bs.length, b') ∧ IoBuf.Rep b' (q ++ bs) := by
  have hl := gather_length h
  obtain ⟨b', h1, h2⟩ := bufSink_go m vs 0 b q bs h hR (by omega)
  exact ⟨b', by unfold bufSink; rw [h1, hl]; simp, h2⟩

/-- `NullSink` accepts everything. -/
theorem C16_null_sink (m : Mem) (vs : List Iov) : nullSink m vs () = some (.ok (total vs), ()) := rfl

example : prefixSource bytesSource ([1, 2], 0, ([3, 4], 0)) [⟨0, 3⟩] [0, 0, 0, 0] = some (.ok 2, [1, 2, 0, 0], ([1, 2], 2, ([3, 4], 0))) := by
  decide +kernel

/-! ### C15 -/

/-- `Sink::Write` over any lawful sink, with any short writes, interruptions and errors: it is never undefined, and when it
returns, either it reports success and the sink has received exactly the bytes of the vector, in order and once, or it reports
an error, other than the interruption it retries on, and the sink has received a prefix of them. -/
theorem C15_write {σ : Type} {snk : Snk σ} {W : σ → List Byte → Prop} (hL : LawfulSink snk W) (m : Mem) (vs : List Iov) (bs : List Byte)
    (hg : gather m vs = some bs) (s : σ) (o : List Byte) (hW : W s o) (retries iters : Nat) :
    match sinkWrite snk m retries iters vs s with
    | .ub => False
    | .more => True
    | .ret none s' => W s' (o ++ bs)
    | .ret (some e) s' => e ≠ .interrupted ∧ ∃ k, k ≤ bs.length ∧ W s' (o ++ bs.take k) := by
  have h := applyExactly_spec (sinkWrite_transfers hL hg retries o) iters 0 vs s (by simpa using hW) (by omega) (by simp)
  unfold sinkWrite
  cases hr : applyExactly (fun vs s => writeSomeBytes snk m retries vs s) iters vs s with
  | ub => rw [hr] at h; exact h
  | more => trivial
  | ret r s' =>
    rw [hr] at h
    have hl := gather_length hg
    cases r with
    | none =>
      simp only [ExactPost, ← hl, List.take_length] at h
      exact h
    | some e =>
      simp only [ExactPost, ← hl] at h
      exact h

/-- The first `k` attempts are all interrupted. -/
def allInterrupted {σ : Type} (snk : Snk σ) (m : Mem) (vs : List Iov) : Nat → σ → Prop
  | 0, _ => True
  | k + 1, s => ∃ s', snk m vs s = some (.err .interrupted, s') ∧ allInterrupted snk m vs k s'

theorem writeSomeBytes_more {σ : Type} (snk : Snk σ) (m : Mem) (vs : List Iov) : ∀ (f : Nat) (s : σ),
    writeSomeBytes snk m f vs s = .more → allInterrupted snk m vs f s := by
  intro f
  induction f with
  | zero => intros; trivial
  | succ f ih =>
    intro s h
    simp only [writeSomeBytes] at h
    split at h <;> first | (simp at h; done) | skip
    rename_i s' hs
    exact ⟨s', hs, ih s' h⟩

/-- It does return if no write is interrupted `retries` times in a row. -/
theorem C15_write_returns {σ : Type} {snk : Snk σ} {m : Mem} {retries : Nat} (hI : ∀ vs s, ¬ allInterrupted snk m vs retries s)
    (vs : List Iov) (s : σ) (iters : Nat) (hi : total vs < iters) : sinkWrite snk m retries iters vs s ≠ .more := by
  refine applyExactly_ends (func := fun vs s => writeSomeBytes snk m retries vs s) ?_ iters vs s hi _ rfl
  intro vs s
  simp only
  cases h : writeSomeBytes snk m retries vs s with
  | ub => trivial
  | more => exact hI vs s (writeSomeBytes_more _ _ _ _ _ h)
  | ret r s' =>
    cases r with
    | err e => trivial
    | ok n =>
      have : ∀ (f : Nat) (s : σ) s' n, writeSomeBytes snk m f vs s = .ret (.ok n) s' → 0 < n := by
        intro f
        induction f with
        | zero => intro s s' n h; simp [writeSomeBytes] at h
        | succ f ih =>
          intro s s' n h
          simp only [writeSomeBytes] at h
          split at h
          · simp at h
          · simp at h
          · simp at h; omega
          · exact ih _ _ _ h
          · simp at h
      exact this _ _ _ _ h

/-- Writing nothing (a vector of empty entries) to a sink that takes everything is reported as an I/O error. -/
theorem C15_empty_write_is_error (s : List Byte) (b : Nat) (m : Mem) (retries iters : Nat) :
    sinkWrite stringSink m (retries + 1) (iters + 1) [⟨b, 0⟩] s = .ret (some .ioError) s := by
  have h : stringSink m [⟨b, 0⟩] s = some (.ok 0, s) := by
    have := C16_string_sink m [⟨b, 0⟩] s [] (by simp [gather, Iov.bytes])
    simpa using this
  simp [sinkWrite, applyExactly, writeSomeBytes, h]

/-- A sink that takes at most one byte at a time and is interrupted every other time. -/
def drip : Snk (List Byte × Bool) := fun m vs s =>
  if s.2 then some (.err .interrupted, (s.1, false))
  else
    match gather m vs with
    | none => none
    | some bs => some (.ok (min 1 bs.length), (s.1 ++ bs.take 1, true))

theorem drip_lawful : LawfulSink drip (fun s o => s.1 = o) := by
  rintro m vs ⟨s, f⟩ o bs rfl hg
  cases f with
  | true => exact ⟨.err .interrupted, (s, false), rfl, rfl⟩
  | false =>
    refine ⟨.ok (min 1 bs.length), _, by simp only [drip, hg]; rfl, by omega, ?_⟩
    simp only
    cases bs <;> simp

theorem C15_nonvacuous : ∀ s : List Byte × Bool, ∀ vs, ¬ allInterrupted drip [5, 6, 7] vs 2 s := by
  rintro ⟨s, f⟩ vs ⟨s1, h1, s2, h2, _⟩
  cases f with
  | true =>
    simp [drip] at h1
    subst h1
    simp only [drip, Bool.false_eq_true, if_false] at h2
    split at h2 <;> simp at h2
  | false =>
    simp only [drip, Bool.false_eq_true, if_false] at h1
    split at h1 <;> simp at h1

example : sinkWrite drip [5, 6, 7, 8] 2 5 [⟨0, 0⟩, ⟨2, 2⟩, ⟨1, 1⟩] ([], true) = .ret none ([7, 8, 6], true) := by
  rfl

/-! ### C17 -/

/-- `AsyncWrite`/`AsyncRead` for every sequence of completions that answer the requests: never undefined; the user's callback has
been called at most once, and exactly once as soon as no request is outstanding; it reports success only when all bytes have
been moved, and then none is left; it reports an error exactly when the last completion did; and as long as a request is
outstanding it asks for exactly the bytes not moved yet. -/
theorem C17_exact_partial (vs : List Iov) (hne : vs ≠ []) (rs : List Res) (hA : Answers (aStart vs) rs) :
    ∃ s, aRun (aStart vs) rs = some s ∧
      ((∃ req, s.req = some req ∧ s.calls = [] ∧ (∀ r ∈ rs, ∃ n, r = .ok n) ∧ addrs req = (addrs vs).drop (moved rs) ∧
          (rs = [] ∨ moved rs < total vs)) ∨
       (s.req = none ∧ s.calls = [none] ∧ (∀ r ∈ rs, ∃ n, r = .ok n) ∧ moved rs = total vs) ∨
       (∃ e, s.req = none ∧ s.calls = [some e] ∧ rs.getLast? = some (.err e) ∧ moved rs ≤ total vs)) := by
  obtain ⟨s, h1, h2⟩ := aRun_spec rs vs hne hA
  refine ⟨s, h1, ?_⟩
  rcases h2 with ⟨req, rfl, _, h3, h4, h5⟩ | ⟨rfl, h3, h4⟩ | ⟨e, rfl, ⟨pre, rfl, _⟩, h4⟩
  · exact .inl ⟨req, rfl, rfl, h3, h4, h5⟩
  · exact .inr (.inl ⟨rfl, rfl, h3, h4⟩)
  · exact .inr (.inr ⟨e, rfl, rfl, by simp, h4⟩)

/-- If every completion moves something the callback comes after at most as many completions as there are bytes. -/
theorem C17_progress (vs : List Iov) (hne : vs ≠ []) (rs : List Res) (hA : Answers (aStart vs) rs) (hp : ∀ n, .ok n ∈ rs → 0 < n)
    (hl : total vs ≤ rs.length) (hl0 : 0 < rs.length) : ∃ s, aRun (aStart vs) rs = some s ∧ s.req = none ∧ s.calls.length = 1 := by
  obtain ⟨s, h1, h2⟩ := C17_exact_partial vs hne rs hA
  refine ⟨s, h1, ?_⟩
  rcases h2 with ⟨req, h3, h4, h5, h6, h7⟩ | ⟨h3, h4, _⟩ | ⟨e, h3, h4, _⟩
  · have : ∀ l : List Res, (∀ r ∈ l, ∃ n, r = .ok n) → (∀ n, .ok n ∈ l → 0 < n) → l.length ≤ moved l := by
      intro l
      induction l with
      | nil => intros; simp [moved]
      | cons r l ih =>
        intro ha hb
        obtain ⟨n, rfl⟩ := ha r (by simp)
        have := hb n (by simp)
        have := ih (fun r hr => ha r (by simp [hr])) (fun n hn => hb n (by simp [hn]))
        simp [moved]; omega
    have := this rs h5 hp
    rcases h7 with rfl | h7
    · simp at hl0
    · omega
  · exact ⟨h3, by simp [h4]⟩
  · exact ⟨h3, by simp [h4]⟩

/-- The missing part: completions of 0 bytes, which is what a source at its end reports, are answered by issuing the same
request again, for ever; the callback is never called. -/
theorem C17_eof_never_completes (v : Iov) (vs : List Iov) (hv : 0 < v.len) (k : Nat) :
    Answers (aStart (v :: vs)) (List.replicate k (.ok 0)) ∧ aRun (aStart (v :: vs)) (List.replicate k (.ok 0)) = some (aStart (v :: vs)) := by
  have hst : aStep (aStart (v :: vs)) (.ok 0) = some (aStart (v :: vs)) := by
    unfold aStep aStart
    simp only
    unfold onOk
    rw [if_neg (by omega)]
    simp
  induction k with
  | zero => exact ⟨trivial, rfl⟩
  | succ k ih =>
    simp only [List.replicate_succ]
    refine ⟨⟨⟨v :: vs, rfl, by intro n hn; simp at hn; omega⟩, ?_⟩, ?_⟩
    · intro s' hs'
      rw [hst, Option.some.injEq] at hs'
      subst hs'
      exact ih.1
    · simp only [aRun, hst]
      exact ih.2

/-- An empty array is undefined behaviour on the first completion (the code reads `arr.end()`). -/
theorem C17_empty_array_ub (n : Nat) : aRun (aStart []) [.ok n] = none := rfl

example : aRun (aStart [⟨0, 2⟩, ⟨5, 0⟩, ⟨7, 3⟩]) [.ok 1, .ok 2, .ok 2] = some ⟨none, [none]⟩ := by rfl
example : Answers (aStart [⟨0, 2⟩, ⟨5, 0⟩, ⟨7, 3⟩]) [.ok 1, .ok 2, .ok 2] := by
  refine ⟨⟨_, rfl, ?_⟩, ?_⟩
  · intro n h; cases h; decide
  · intro s hs
    cases hs
    refine ⟨⟨_, rfl, by intro n h; cases h; decide⟩, ?_⟩
    intro s hs
    cases hs
    exact ⟨⟨_, rfl, by intro n h; cases h; decide⟩, fun _ _ => trivial⟩

/-! ### C38 -/

/-- `AdvanceIovec(n)` leaves the original bytes without the first `n`; it fails its CHECK iff there are not that many. -/
theorem C38_advance (m : Mem) (vs : List Iov) (bs : List Byte) (hg : gather m vs = some bs) (n : Nat) :
    (n ≤ bs.length → ∃ ws, advanceIovec vs n = some ws ∧ gather m ws = some (bs.drop n)) ∧
    (bs.length < n → advanceIovec vs n = none) := by
  have hl := gather_length hg
  refine ⟨fun hn => ?_, fun hn => advance_over vs n (by omega)⟩
  obtain ⟨ws, h1, h2⟩ := advance_spec vs n (by omega)
  have hin := gather_iff.1 ⟨bs, hg⟩
  obtain ⟨cs, hcs⟩ := gather_iff.2 (fun a ha => hin a (by rw [h2] at ha; exact List.mem_of_mem_drop ha))
  refine ⟨ws, h1, ?_⟩
  have hcp := gather_prefix hg hcs (k := n) (by rw [h2]; exact List.prefix_rfl)
  rw [hcs, hcp.eq_of_length (by rw [gather_length hcs, ← addrs_length, h2]; simp [addrs_length]; omega)]

/-- `IsEmptyIovec` holds iff no bytes remain. -/
theorem C38_is_empty (m : Mem) (vs : List Iov) (bs : List Byte) (hg : gather m vs = some bs) : isEmptyIovec vs = true ↔ bs = [] := by
  have hl := gather_length hg
  rw [← List.length_eq_zero_iff, hl]
  clear hl hg
  induction vs with
  | nil => simp [isEmptyIovec, total]
  | cons v vs ih =>
    simp only [isEmptyIovec]
    have e : total (v :: vs) = v.len + total vs := by simp [total]
    split <;> rename_i h
    · simp; omega
    · have := ih; simp only [Classical.not_not] at h; rw [e, h, Nat.zero_add]; exact ih

/-- `GetIovecTotalBytes` is the number of bytes, failing its CHECK iff that does not fit `size_t`. -/
theorem C38_total (m : Mem) (vs : List Iov) (bs : List Byte) (hg : gather m vs = some bs) (hv : ∀ v ∈ vs, v.len < 2 ^ 64) :
    getIovecTotalBytes vs = if bs.length < 2 ^ 64 then some bs.length else none := by
  rw [gather_length hg]
  have := totalLoop_spec vs 0 (by decide) hv
  simpa [getIovecTotalBytes] using this

example : advanceIovec [⟨0, 2⟩, ⟨4, 0⟩, ⟨6, 3⟩] 3 = some [⟨7, 2⟩] := by decide

/-! ### C49 -/

/-- `LinuxFile::Write`: never undefined; on success the file has the bytes of the vector at the given position and is unchanged
elsewhere, on error a prefix of them. -/
theorem C49_file_write {κ : Type} {pw : PWrite κ} {content : κ → Content} (hL : LawfulPWrite pw content) (m : Mem) (vs : List Iov)
    (bs : List Byte) (hg : gather m vs = some bs) (off : Nat) (k : κ) (iters : Nat) :
    match fileWrite pw m iters vs off k with
    | .ub => False
    | .more => True
    | .ret none s' => content s'.2 = overlay (content k) off bs
    | .ret (some _) s' => ∃ n, n ≤ bs.length ∧ content s'.2 = overlay (content k) off (bs.take n) := by
  have h := applyExactly_spec (fileWrite_transfers hL hg off (content k)) iters 0 vs (off, k) (by simp [overlay_nil]) (by omega) (by simp)
  unfold fileWrite
  have hl := gather_length hg
  cases hr : applyExactly (pwriteCb pw m) iters vs (off, k) with
  | ub => rw [hr] at h; exact h
  | more => trivial
  | ret r s' =>
    rw [hr] at h
    cases r with
    | none => simp only [ExactPost, ← hl, List.take_length] at h; exact h.2
    | some e =>
      obtain ⟨_, n, h1, h2, h3⟩ := h
      exact ⟨n, by omega, h3⟩

/-- `LinuxFile::Read` on a file that does not change: never undefined; on success the file has all the requested bytes and the
vector (its entries being disjoint) now holds them. -/
theorem C49_file_read_partial {κ : Type} {pr : PRead κ} {file : List Byte} (hL : LawfulPRead pr file) (m : Mem) (vs : List Iov)
    (hin : InMem m vs) (hd : (addrs vs).Nodup) (off : Nat) (k : κ) (iters : Nat) :
    match fileRead pr iters vs off m k with
    | .ub => False
    | .more => True
    | .ret none s' => total vs ≤ file.length - off ∧ gather s'.2.1 vs = some ((file.drop off).take (total vs)) ∧
        ∀ i, i ∉ addrs vs → s'.2.1[i]? = m[i]?
    | .ret (some _) s' => ∀ i, i ∉ addrs vs → s'.2.1[i]? = m[i]? := by
  have hb : ∀ a ∈ addrs vs, a < m.length := gather_iff.1 (gather_some hin)
  have h := applyExactly_spec (fileRead_transfers hL hb off) iters 0 vs (off, m, k) (by simp [pokes]) (by omega) (by simp)
  unfold fileRead
  cases hr : applyExactly (preadCb pr) iters vs (off, m, k) with
  | ub => rw [hr] at h; exact h
  | more => trivial
  | ret r s' =>
    rw [hr] at h
    cases r with
    | none =>
      obtain ⟨_, h2, h3⟩ := h
      refine ⟨h2, ?_, ?_⟩
      · obtain ⟨cs, hcs⟩ := gather_iff.2 (show ∀ a ∈ addrs vs, a < s'.2.1.length by intro a ha; rw [h3, pokes_length]; exact hb a ha)
        rw [hcs, Option.some.injEq]
        apply List.ext_getElem?
        intro i
        by_cases hi : i < total vs
        · rw [gather_get hcs, h3, pokes_read _ _ _ _ hd hb (by simp; omega) (by rw [addrs_length]; exact hi)]
        · rw [List.getElem?_eq_none (by rw [gather_length hcs]; omega), List.getElem?_eq_none (by simp; omega)]
      · intro i hi; rw [h3]; exact pokes_get _ _ _ _ hi
    | some e =>
      obtain ⟨_, n, _, _, _, h3⟩ := h
      intro i hi; rw [h3]; exact pokes_get _ _ _ _ hi

/-- The missing part: reading past the end of the file never returns. For every lawful `preadv2` that reports no errors and
every file that ends before the requested range does, no number of iterations is enough. -/
theorem C49_file_read_past_end_hangs {κ : Type} {pr : PRead κ} {file : List Byte} (hL : LawfulPRead pr file)
    (hne : ∀ vs off m k r m' k', pr vs off m k = some (r, m', k') → ∃ n, r = .ok n) (m : Mem) (vs : List Iov)
    (hin : InMem m vs) (off : Nat) (k : κ) (hend : file.length - off < total vs) (iters : Nat) : fileRead pr iters vs off m k = .more := by
  have hb : ∀ a ∈ addrs vs, a < m.length := gather_iff.1 (gather_some hin)
  have hT := fileRead_transfers hL hb off
  have hT' : Transfers (preadCb pr) vs (fun k s => s.1 = off + k ∧ k ≤ file.length - off ∧
      s.2.1 = pokes m (addrs vs) ((file.drop off).take k)) (fun _ => False) := by
    intro j ws s hI hj hp hw
    have h := hT j ws s hI hj hp hw
    cases hr : preadCb pr ws s with
    | ub => rw [hr] at h; exact h
    | more => trivial
    | ret r s' =>
      rw [hr] at h
      cases r with
      | ok n => exact h
      | err e =>
        unfold preadCb at hr
        split at hr
        · simp at hr
        · simp at hr
        · rename_i e' m' k' hpr
          obtain ⟨n, hn⟩ := hne _ _ _ _ _ _ _ hpr
          simp at hn
  have h := applyExactly_spec hT' iters 0 vs (off, m, k) (by simp [pokes]) (by omega) (by simp)
  unfold fileRead
  cases hr : applyExactly (preadCb pr) iters vs (off, m, k) with
  | ub => rw [hr] at h; exact h.elim
  | more => rfl
  | ret r s' =>
    rw [hr] at h
    cases r with
    | none => have := h.2.1; omega
    | some e => exact h.1.elim

/-- A kernel that gives at most one byte per call. -/
def slowRead (file : List Byte) : PRead Unit := fun vs off m k =>
  let n := min (min 1 (total vs)) (file.length - off)
  some (.ok n, pokes m (addrs vs) ((file.drop off).take n), k)

theorem slowRead_lawful (file : List Byte) : LawfulPRead (slowRead file) file := by
  intro vs off m k _ _
  refine ⟨_, _, _, rfl, ?_, ?_, rfl⟩ <;> omega

example : fileRead (slowRead [1, 2, 3, 4]) 9 [⟨0, 2⟩, ⟨3, 1⟩] 1 [0, 0, 0, 0] () = .ret none (4, [2, 3, 0, 4], ()) := by rfl

end Verif.Io
