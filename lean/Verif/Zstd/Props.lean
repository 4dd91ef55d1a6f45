import Verif.Zstd.Spec
/-! C103: reading from the decompressing source gives the decompressed stream. -/
namespace Verif.Zstd
open Spec

variable {S : Type} {dec : Decoder S} {sem : S → Str → Str} {complete : S → Str → Prop}

/-- What a call does: the state and what was read before are consistent with the stream, whatever way the bytes come. -/
def Fine (sem : S → Str → Str) (complete : S → Str → Prop) (cap : Nat) (total : Str) (out0 : Str) (r : Res × St S) : Prop :=
  ∃ out, r.1 = .ok out ∧ out.length ≤ cap ∧ total = out ++ sem r.2.d (r.2.buf ++ coming r.2.up) ∧ complete r.2.d (r.2.buf ++ coming r.2.up) ∧ Upstream r.2.up ∧ (out.length < cap → r.2.buf = [] ∧ r.2.up = [])

theorem round_spec (hc : Contract dec sem complete) {cap : Nat} {d : S} {i out : Str} {up : List (Option Str)} (hcap : out.length ≤ cap) (hu : Upstream up) (hk : complete d (i ++ coming up)) :
    (∃ r, round dec cap d i out up = .inl r ∧ Fine sem complete cap (out ++ sem d (i ++ coming up)) out r) ∨
    (∃ d' out', round dec cap d i out up = .inr (d', out') ∧ out'.length < cap ∧ out ++ sem d (i ++ coming up) = out' ++ sem d' (coming up) ∧ complete d' (coming up)) := by
  unfold round
  cases hd : dec d i (cap - out.length) with
  | none => exact absurd hd (hc.fine hk)
  | some x =>
    obtain ⟨d', c, p⟩ := x
    simp only
    obtain ⟨b1, b2, b3⟩ := hc.bounds hd
    have ho := hc.output hd (coming up)
    have hr := hc.rest hd hk
    have hlen : (out ++ p).length = out.length + p.length := List.length_append
    split
    · rename_i hlt
      have hfull : (out ++ p).length = cap := by
        rw [hlen]
        rcases Nat.lt_or_ge p.length (cap - out.length) with h | h
        · have := b3 h; omega
        · omega
      rw [if_pos hfull]
      refine Or.inl ⟨_, rfl, out ++ p, rfl, by omega, ?_, hr, hu, fun h => by omega⟩
      rw [ho, List.append_assoc]
    · have hall : i.drop c = [] := List.drop_eq_nil_of_le (by omega)
      rw [hall, List.nil_append] at ho hr
      split
      · rename_i hlt
        exact Or.inr ⟨d', out ++ p, rfl, hlt, by rw [ho, List.append_assoc], hr⟩
      · rename_i hge
        exact Or.inl ⟨_, rfl, out ++ p, rfl, by omega, by rw [ho, List.append_assoc]; rfl, hr, hu, fun h => absurd h hge⟩

theorem fill_spec (hc : Contract dec sem complete) {cap : Nat} : ∀ (up : List (Option Str)) (d : S) (out : Str), out.length ≤ cap → Upstream up → complete d (coming up) →
    Fine sem complete cap (out ++ sem d (coming up)) out (fill dec cap up d out)
  | [], d, out, hcap, hu, hk => ⟨out, rfl, hcap, rfl, hk, hu, fun _ => ⟨rfl, rfl⟩⟩
  | none :: up, d, out, hcap, hu, hk => by
    obtain ⟨b, hb, _⟩ := hu none (by simp)
    cases hb
  | some i :: up, d, out, hcap, hu, hk => by
    have hu' : Upstream up := fun r hr => hu r (List.mem_cons_of_mem _ hr)
    obtain ⟨b, hb, hne⟩ := hu (some i) (by simp)
    injection hb with hb; subst hb
    have e : coming (some i :: up) = i ++ coming up := rfl
    rw [e] at hk ⊢
    unfold fill
    rw [if_neg hne]
    rcases round_spec hc (cap := cap) hcap hu' hk with ⟨r, h1, h2⟩ | ⟨d', out', h1, h2, h3, h4⟩
    · rw [h1]; exact h2
    · rw [h1, h3]
      obtain ⟨o, k⟩ := fill_spec hc up d' out' (Nat.le_of_lt h2) hu' h4
      exact ⟨o, k⟩

/-- The whole stream that a state stands for. -/
def rest (sem : S → Str → Str) (s : St S) : Str := sem s.d (s.buf ++ coming s.up)

/-- **C103** A call neither fails nor ends the process; it returns a piece of at most the asked for length from the front of the decompressed stream, and leaves the rest; a shorter piece is returned only when the stream has ended. Whatever way the upstream
source cuts its bytes. -/
theorem C103_read (hc : Contract dec sem complete) (s : St S) (cap : Nat) (more : List Nat) (hu : Upstream s.up) (hk : complete s.d (s.buf ++ coming s.up)) :
    ∃ out, (readSome dec s (cap :: more)).1 = .ok out ∧ out.length ≤ cap ∧ rest sem s = out ++ rest sem (readSome dec s (cap :: more)).2 ∧ (out.length < cap → rest sem (readSome dec s (cap :: more)).2 = []) ∧
      Upstream (readSome dec s (cap :: more)).2.up ∧ complete (readSome dec s (cap :: more)).2.d ((readSome dec s (cap :: more)).2.buf ++ coming (readSome dec s (cap :: more)).2.up) := by
  have hf : Fine sem complete cap (rest sem s) [] (readSome dec s (cap :: more)) := by
    unfold readSome rest
    simp only
    split
    · rename_i hb
      rw [hb, List.nil_append] at hk ⊢
      exact fill_spec hc s.up s.d [] (by simp) hu hk
    · rcases round_spec hc (cap := cap) (out := []) (by simp) hu hk with ⟨r, h1, h2⟩ | ⟨d', out', h1, h2, h3, h4⟩
      · rw [h1]; exact h2
      · rw [h1]
        rw [List.nil_append] at h3
        rw [h3]
        obtain ⟨o, k⟩ := fill_spec hc s.up d' out' (Nat.le_of_lt h2) hu h4
        exact ⟨o, k⟩
  obtain ⟨out, f1, f2, f3, f4, f5, f6⟩ := hf
  refine ⟨out, f1, f2, f3, ?_, f5, f4⟩
  intro hlt
  obtain ⟨k1, k2⟩ := f6 hlt
  unfold rest
  rw [k1, k2] at f4 ⊢
  exact hc.ended f4

theorem reads_spec (hc : Contract dec sem complete) : ∀ (vs : List (List Nat)) (s : St S), (∀ v ∈ vs, v ≠ []) → Upstream s.up → complete s.d (s.buf ++ coming s.up) →
    ∃ outs s', reads dec s vs = some (outs, s') ∧ rest sem s = outs.flatten ++ rest sem s' ∧ List.Forall₂ (fun out v => out.length < v.headD 0 → rest sem s' = []) outs vs
  | [], s, _, _, _ => ⟨[], s, rfl, by simp, .nil⟩
  | [] :: vs, s, hv, _, _ => absurd rfl (hv [] (by simp))
  | (cap :: more) :: vs, s, hv, hu, hk => by
    obtain ⟨out, h1, h2, h3, h4, h5, h6⟩ := C103_read hc s cap more hu hk
    obtain ⟨outs, s', k1, k2, k3⟩ := reads_spec hc vs (readSome dec s (cap :: more)).2 (fun v hv' => hv v (List.mem_cons_of_mem _ hv')) h5 h6
    refine ⟨out :: outs, s', ?_, ?_, .cons ?_ k3⟩
    · have : readSome dec s (cap :: more) = (.ok out, (readSome dec s (cap :: more)).2) := Prod.ext h1 rfl
      unfold reads
      rw [this]
      simp only
      rw [k1]; rfl
    · rw [h3, k2, List.flatten_cons, List.append_assoc]
    · intro hlt
      have := h4 hlt
      rw [k2] at this
      exact (List.append_eq_nil_iff.mp this).2

/-- **C103** Any number of reads with buffers of any lengths never fail, and together give a piece from the front of the decompressed stream; as soon as one of them returns less than it has room for, they have given all of it. -/
theorem C103_stream (hc : Contract dec sem complete) {d : S} {up : List (Option Str)} (hu : Upstream up) (hk : complete d (coming up)) (vs : List (List Nat)) (hv : ∀ v ∈ vs, v ≠ []) :
    ∃ outs s', reads dec ⟨d, [], up⟩ vs = some (outs, s') ∧ outs.flatten <+: sem d (coming up) ∧
      ((∃ (k : Nat) (out : Str) (v : List Nat), outs[k]? = some out ∧ vs[k]? = some v ∧ out.length < v.headD 0) → outs.flatten = sem d (coming up)) := by
  obtain ⟨outs, s', h1, h2, h3⟩ := reads_spec hc vs ⟨d, [], up⟩ hv hu (by simpa using hk)
  have e : rest sem (⟨d, [], up⟩ : St S) = sem d (coming up) := by simp [rest]
  rw [e] at h2
  refine ⟨outs, s', h1, ⟨_, h2.symm⟩, ?_⟩
  rintro ⟨k, out, v, g1, g2, g3⟩
  have : ∀ {outs : List Str} {vs : List (List Nat)}, List.Forall₂ (fun out v => out.length < v.headD 0 → rest sem s' = []) outs vs → ∀ (k : Nat) (out : Str) (v : List Nat), outs[k]? = some out → vs[k]? = some v → out.length < v.headD 0 → rest sem s' = [] := by
    intro outs vs hf
    induction hf with
    | nil => intro k out v g; simp at g
    | cons h _ ih =>
      intro k out v g1 g2 g3
      cases k with
      | zero =>
        simp only [List.getElem?_cons_zero, Option.some.injEq] at g1 g2
        subst g1; subst g2; exact h g3
      | succ k => exact ih k out v (by simpa using g1) (by simpa using g2) g3
  rw [h2, this h3 k out v g1 g2 g3, List.append_nil]

/-! ### A decoder -/

/-- A small decoder: each byte is a frame and stands for two of it. The state says whether one of them has been put out. As in the library, the byte is taken only when both have. -/
def twice : Decoder Bool := fun d i cap => some (go d i cap)
where
  go : Bool → Str → Nat → Bool × Nat × Str
  | d, [], _ => (d, 0, [])
  | d, _ :: _, 0 => (d, 0, [])
  | true, b :: i, cap + 1 => let r := go false i cap; (r.1, r.2.1 + 1, b :: r.2.2)
  | false, b :: _, 1 => (true, 0, [b])
  | false, b :: i, cap + 2 => let r := go false i cap; (r.1, r.2.1 + 1, b :: b :: r.2.2)

/-- What it makes of its input. -/
def twiceSem : Bool → Str → Str
  | _, [] => []
  | true, b :: i => b :: twiceSem false i
  | false, b :: i => b :: b :: twiceSem false i

theorem twice_go : ∀ (d : Bool) (i : Str) (cap : Nat), (twice.go d i cap).2.1 ≤ i.length ∧ (twice.go d i cap).2.2.length ≤ cap ∧ ((twice.go d i cap).2.2.length < cap → (twice.go d i cap).2.1 = i.length) ∧
    (∀ more, twiceSem d (i ++ more) = (twice.go d i cap).2.2 ++ twiceSem (twice.go d i cap).1 (i.drop (twice.go d i cap).2.1 ++ more)) ∧ ((d = true → i ≠ []) → (twice.go d i cap).1 = true → i.drop (twice.go d i cap).2.1 ≠ [])
  | d, [], cap => by cases d <;> simp [twice.go]
  | d, b :: i, 0 => by cases d <;> simp [twice.go]
  | true, b :: i, cap + 1 => by
    obtain ⟨h1, h2, h3, h4, h5⟩ := twice_go false i cap
    simp only [twice.go, List.length_cons, List.drop_succ_cons]
    refine ⟨by omega, by omega, fun h => ?_, fun more => ?_, fun _ h => h5 (by simp) h⟩
    · have := h3 (by omega); omega
    · rw [List.cons_append, twiceSem, h4 more, List.cons_append]
  | false, b :: i, 1 => by
    simp only [twice.go, List.length_cons, List.length_nil, List.drop_zero]
    refine ⟨by omega, by omega, fun h => by omega, fun more => rfl, fun _ _ => by simp⟩
  | false, b :: i, cap + 2 => by
    obtain ⟨h1, h2, h3, h4, h5⟩ := twice_go false i cap
    simp only [twice.go, List.length_cons, List.drop_succ_cons]
    refine ⟨by omega, by omega, fun h => ?_, fun more => ?_, fun _ h => h5 (by simp) h⟩
    · have := h3 (by omega); omega
    · rw [List.cons_append, twiceSem, h4 more, List.cons_append, List.cons_append]

/-- It keeps the contract: so the contract can be met. -/
theorem twice_contract : Contract twice twiceSem (fun d i => d = true → i ≠ []) where
  bounds := fun {d i cap d' c p} h => by
    have := twice_go d i cap
    rw [show twice.go d i cap = (d', c, p) from Option.some.inj h] at this
    exact ⟨this.1, this.2.1, this.2.2.1⟩
  output := fun {d i cap d' c p} h more => by
    have := twice_go d i cap
    rw [show twice.go d i cap = (d', c, p) from Option.some.inj h] at this
    exact this.2.2.2.1 more
  rest := fun {d i cap d' c p more} h hk hd hn => by
    have := twice_go d i cap
    rw [show twice.go d i cap = (d', c, p) from Option.some.inj h] at this
    obtain ⟨e1, e2⟩ := List.append_eq_nil_iff.mp hn
    refine this.2.2.2.2 (fun h => ?_) hd e1
    rw [e2, List.append_nil] at hk
    exact hk h
  ended := fun {d} _ => by cases d <;> rfl
  fine := fun _ h => by simp [twice] at h

example : reads twice ⟨false, [], [some [1, 2], some [3]]⟩ [[1], [3, 7], [5]] = some ([[1], [1, 2, 2], [3, 3]], ⟨false, [], []⟩) := by rfl
example : Upstream [some [1, 2], some [3]] := by unfold Upstream; decide

/-! ### Disagreements -/

/-- Disagreement: a call that has decompressed something and then meets an error of the upstream source returns the error only. The bytes are lost: a caller that tries again reads a stream with a hole. -/
theorem C103_error_loses_bytes : ∃ s', readSome twice ⟨false, [], [some [1], none, some [2]]⟩ [4] = (.upstream, s') ∧ (readSome twice s' [4]).1 = .ok [2, 2] := ⟨_, rfl, rfl⟩

/-- Disagreement: only the first buffer is used. If it is empty, a call returns 0 bytes although there is room in the second and the stream has not ended: the caller takes this for the end. -/
theorem C103_empty_first_buffer : (readSome twice ⟨false, [], [some [1]]⟩ [0, 8]).1 = .ok [] ∧ (readSome twice ⟨false, [], [some [1]]⟩ [8]).1 = .ok [1, 1] := ⟨rfl, rfl⟩

/-- A decoder with frames of two bytes, that stand for themselves. -/
def pairs : Decoder (Option UInt8) := fun d i cap =>
  match d, i, cap with
  | none, a :: b :: _, _ + 2 => some (none, 2, [a, b])
  | none, [a], _ + 1 => some (some a, 1, [])
  | some a, b :: _, _ + 2 => some (none, 1, [a, b])
  | d, _, _ => some (d, 0, [])

/-- Disagreement: a stream that is cut in the middle of a frame is read as if it had ended: no error is reported. -/
theorem C103_truncated : (readSome pairs ⟨none, [], [some [1]]⟩ [4]).1 = .ok [] ∧ (readSome pairs ⟨none, [], [some [1, 2]]⟩ [4]).1 = .ok [1, 2] := ⟨rfl, rfl⟩

end Verif.Zstd
