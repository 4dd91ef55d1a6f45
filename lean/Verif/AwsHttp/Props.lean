import Verif.AwsHttp.Model
/-!
# Properties of the stream adapter and of the HTTP client of the AWS SDK (C127)
-/
namespace Verif.AwsHttp

/-- Called with a cleared error, the adapter reports the bytes the socket read or wrote, and an error exactly if the socket failed or, for reading, the
peer closed the connection. -/
theorem C127_adapter_partial (r : Except Err Nat) :
    ((readSome r none).2 = none ↔ ∃ n, r = .ok n ∧ 0 < n) ∧ (∀ n, r = .ok n → (readSome r none).1 = n ∧ (writeSome r none) = (n, none)) ∧
    ((readSome r none).2 = some eof ↔ r = .ok 0) ∧ ((writeSome r none).2 = none ↔ ∃ n, r = .ok n) := by
  cases r with
  | ok n =>
    simp only [readSome, writeSome]
    by_cases h : n = 0
    · simp [h]
    · simp [h, Nat.pos_of_ne_zero h]
  | error e => simp [readSome, writeSome, eof, sysCat]

/-- An error left in the caller's variable by an earlier call stays there although the call succeeds, unlike in other streams. -/
theorem C127_stale (e : Err) : readSome (.ok 5) (some e) = (5, some e) ∧ writeSome (.ok 5) (some e) = (5, some e) := ⟨rfl, rfl⟩

/-- The category of errors is lost: a TLS error becomes the system error with its number. -/
theorem C127_category (c d v : Nat) (ec : Option Err) : readSome (.error ⟨c, v⟩) ec = readSome (.error ⟨d, v⟩) ec ∧
    writeSome (.error ⟨c, v⟩) ec = writeSome (.error ⟨d, v⟩) ec := ⟨rfl, rfl⟩

theorem writeAll_spec (rs : List (Except Err Nat)) (d acc out : List UInt8) (ec : Option Err) (h : writeAll rs d none acc = some (out, ec)) :
    (ec = none → out = acc ++ d) ∧ ∃ p q, d = p ++ q ∧ out = acc ++ p := by
  induction rs generalizing d acc with
  | nil =>
    cases d with
    | nil => simp only [writeAll, Option.some.injEq, Prod.mk.injEq] at h; obtain ⟨rfl, rfl⟩ := h; exact ⟨by simp, [], [], by simp⟩
    | cons => cases h
  | cons r rs ih =>
    cases d with
    | nil => simp only [writeAll, Option.some.injEq, Prod.mk.injEq] at h; obtain ⟨rfl, rfl⟩ := h; exact ⟨by simp, [], [], by simp⟩
    | cons x ds =>
      simp only [writeAll] at h
      split at h
      · rename_i n e he
        cases h
        exact ⟨by simp, (x :: ds).take n, (x :: ds).drop n, by rw [List.take_append_drop], rfl⟩
      · rename_i n he
        obtain ⟨h1, p, q, hp, hq⟩ := ih _ _ h
        refine ⟨fun hn => ?_, (x :: ds).take n ++ p, q, ?_, ?_⟩
        · rw [h1 hn, List.append_assoc, List.take_append_drop]
        · rw [List.append_assoc, ← hp, List.take_append_drop]
        · rw [hq, List.append_assoc]

/-- Writing through the adapter: without an error the socket took all bytes, in order; with one it took a part from the beginning. -/
theorem C127_write (rs : List (Except Err Nat)) (d out : List UInt8) (ec : Option Err) (h : writeAll rs d none [] = some (out, ec)) :
    (ec = none → out = d) ∧ out <+: d := by
  obtain ⟨h1, p, q, hp, hq⟩ := writeAll_spec rs d [] out ec h
  exact ⟨by simpa using h1, ⟨q, by rw [hp, hq]; simp⟩⟩

/-- What was sent on the connection. -/
def sentBytes : List Ev → List UInt8
  | [] => []
  | .sent b :: l => b ++ sentBytes l
  | _ :: l => sentBytes l

/-- The log of one connection that is closed at the end: opened, bytes sent, closed. -/
def Closed (l : List Ev) : Prop := l = [] ∨ ∃ m, l = .opened :: m ++ [.close] ∧ ∀ x ∈ m, ∃ b, x = .sent b

/-- The bytes a complete request has. -/
def request (e : Env) : List UInt8 := match e.body with
  | .none => e.head
  | .buffer b => e.head ++ b
  | .stream b len => e.head ++ copied b len

/-- Every request uses at most one connection, and on every path it is closed, exactly once and as the last thing. -/
theorem C127_closed (e : Env) (r : Resp) (l : List Ev) (h : make e = some (r, l)) : Closed l := by
  unfold make at h
  split at h
  · cases h
  · split at h
    · cases h; exact .inl rfl
    · split at h
      · cases h; exact .inr ⟨[], rfl, by simp⟩
      · split at h
        · cases h; exact .inr ⟨[], rfl, by simp⟩
        · split at h
          · cases h
          · rename_i b _ _; cases h; exact .inr ⟨[.sent b], rfl, by simp⟩
          · rename_i b _
            simp only [Option.some.injEq] at h
            unfold rest at h
            dsimp only at h
            cases hb : e.body with
            | none =>
              simp only [hb] at h
              cases hr : e.resp <;> simp only [hr] at h <;> cases h <;> exact .inr ⟨[.sent b], rfl, by simp⟩
            | stream s n =>
              simp only [hb] at h
              cases hr : e.resp <;> simp only [hr] at h <;> cases h <;> exact .inr ⟨[.sent b], rfl, by simp⟩
            | buffer s =>
              simp only [hb] at h
              cases hw : e.wbody.2
              · simp only [hw] at h
                cases h; exact .inr ⟨[.sent b, .sent (s.take e.wbody.1)], rfl, by simp⟩
              · simp only [hw] at h
                cases hr : e.resp <;> simp [hr] at h <;> obtain ⟨-, rfl⟩ := h <;> exact .inr ⟨[.sent b, .sent s], rfl, by simp⟩

/-- A response that is not a network error is the one the server sent, and the server got the complete request; a network error is reported exactly if
a step failed. -/
theorem C127_response (e : Env) (r : Resp) (l : List Ev) (h : make e = some (r, l)) :
    (∀ m, r = .msg m → e.resp = some m ∧ sentBytes l = request e) ∧
    (r = .network ↔ e.dns = false ∨ e.connect = false ∨ (e.https = true ∧ e.tls = false) ∨
      (∃ b x, writeAll e.wr (first e) none [] = some (b, some x)) ∨ (∃ b, e.body = .buffer b ∧ e.wbody.2 = false) ∨ e.resp = none) := by
  unfold make at h
  split at h
  · cases h
  · split at h
    · rename_i hd; cases h; exact ⟨by simp, by simp [hd]⟩
    · rename_i hd
      split at h
      · rename_i hc; cases h; exact ⟨by simp, by simp [hc]⟩
      · rename_i hc
        split at h
        · rename_i ht; cases h; exact ⟨by simp, by simp [ht]⟩
        · rename_i ht
          split at h
          · cases h
          · rename_i b x hw; cases h; exact ⟨by simp, by simp [hw]⟩
          · rename_i b hw
            have hb' := (C127_write _ _ _ _ hw).1 rfl
            simp only [Option.some.injEq] at h
            unfold rest at h
            dsimp only at h
            have ht' : ¬ (e.https = true ∧ e.tls = false) := ht
            cases hb : e.body with
            | none =>
              simp only [first, hb] at hb'
              simp only [hb] at h
              cases hr : e.resp <;> simp only [hr] at h <;> cases h <;> simp [hd, hc, ht', hw, sentBytes, request, hb, hb']
            | stream s n =>
              simp only [first, hb] at hb'
              simp only [hb] at h
              cases hr : e.resp <;> simp only [hr] at h <;> cases h <;> simp [hd, hc, ht', hw, sentBytes, request, hb, hb']
            | buffer s =>
              simp only [first, hb] at hb'
              simp only [hb] at h
              cases hwb : e.wbody.2
              · simp only [hwb] at h
                cases h; simp
              · simp only [hwb] at h
                cases hr : e.resp <;> simp [hr] at h <;> obtain ⟨rfl, rfl⟩ := h <;> simp [hd, hc, ht', hw, sentBytes, request, hb, hb']

/-- A request stops the process exactly if its body is copied from a stream and is 4 GiB or longer; otherwise it is answered, unless
the connection is there and the socket does not answer to a write. -/
theorem C127_stops (e : Env) : make e = none ↔ (∃ b len, e.body = .stream b len ∧ 2 ^ 32 ≤ len) ∨
    (e.dns = true ∧ e.connect = true ∧ (e.https = true → e.tls = true) ∧ writeAll e.wr (first e) none [] = none) := by
  have key : tooLong e.body = true ↔ ∃ b len, e.body = .stream b len ∧ 2 ^ 32 ≤ len := by
    cases hb : e.body with
    | stream b len =>
      simp only [tooLong, decide_eq_true_eq]
      constructor
      · intro h; exact ⟨b, len, rfl, h⟩
      · rintro ⟨b', len', h, h2⟩; cases h; exact h2
    | _ => simp [tooLong]
  unfold make
  rw [← key]
  by_cases h : tooLong e.body = true
  · simp [h]
  · rw [if_neg h]
    cases hd : e.dns
    · simp [h]
    · cases hc : e.connect
      · simp [h]
      · by_cases ht : e.https = true ∧ e.tls = false
        · simp [h, ht]
        · rw [if_neg (by simp), if_neg (by simp), if_neg ht]
          have ht' : e.https = true → e.tls = true := by
            intro h1
            cases h2 : e.tls
            · exact absurd ⟨h1, h2⟩ ht
            · rfl
          cases hw : writeAll e.wr (first e) none [] with
          | none => simp; exact .inr ht'
          | some r =>
            obtain ⟨b, ec⟩ := r
            cases ec <;> simp [h]

/-- A stream that has the declared length is sent as it is; a shorter one is filled with characters '0'. -/
theorem C127_copied (b : List UInt8) (len : Nat) : (b.length = len → copied b len = b) ∧ (copied b len).length = len := by
  unfold copied
  constructor
  · rintro rfl; simp
  · simp; omega

/-- The filling: a stream of one byte declared to have three. -/
theorem C127_filled : copied [7] 3 = [7, 48, 48] := rfl

/-- A request with a buffer; the socket takes the header in two parts. -/
theorem C127_case : make ⟨true, true, true, true, [1, 2, 3], .buffer [4, 5], [.ok 2, .ok 1], (2, true), some ⟨200, [], [9]⟩⟩ =
    some (.msg ⟨200, [], [9]⟩, [.opened, .sent [1, 2, 3], .sent [4, 5], .close]) := by decide

end Verif.AwsHttp
