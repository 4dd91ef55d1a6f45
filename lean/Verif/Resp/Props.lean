import Verif.Resp.Inline

/-!
# C45: reading requests from a connection in any packets
-/
namespace Verif.Resp

/-- **C45 (partial), every split.** A request within the limits, followed by anything, arriving in any
packets: unless the parser writes outside a block, the server gets exactly the arguments of the request and
exactly the bytes that follow it, and is ready for the next request. In particular the request is never
refused, and never left waiting. -/
theorem C45_any_split_partial (as : List (List Nat)) (ha : Allowed as) (s : S) (hs : Ready s) (tail : List Nat)
    (ps : List (List Nat)) (hps : ps.flatten = encode as ++ tail) :
    serve s [] ps = none ∨ Got as tail (serve s [] ps) :=
  (serve_any ha ps s [] (encode as) tail (.inl ⟨hs, rfl⟩) (by simp [encode]) (by simpa using hps)).1

/-- **C45 (partial), arguments of at most 30 bytes.** Then nothing is written outside a block. -/
theorem C45_short_args_partial (as : List (List Nat)) (ha : Allowed as) (hsh : ∀ a ∈ as, a.length ≤ 30)
    (s : S) (hs : Ready s) (tail : List Nat)
    (ps : List (List Nat)) (hps : ps.flatten = encode as ++ tail) : Got as tail (serve s [] ps) :=
  (serve_any ha ps s [] (encode as) tail (.inl ⟨hs, rfl⟩) (by simp [encode]) (by simpa using hps)).2 hsh hs.2

/-- **C45 (partial), packets that do not end inside the body of an argument**, in any number and for
arguments of any size: the server gets the arguments, and each of them can be read. -/
theorem C45_header_cuts_partial (as : List (List Nat)) (ha : Allowed as) (s : S) (hs : Ready s) (tail : List Nat)
    (ps : List (List Nat)) (hps : ps.flatten = encode as ++ tail)
    (hcut : ∀ i, i < ps.length → ¬ MidBody as (ps.take i).flatten) : GotValid as tail (serve s [] ps) :=
  serve_header ha ps s [] [] (encode as) tail (.inl ⟨hs, rfl⟩) (by simp [encode]) (by simpa using hps)
    (by simpa using hps) (.inl hs.1) hs.2 (by simpa using hcut)

/-- **A request that arrives in one packet**, with arguments of any size. -/
theorem C45_whole (as : List (List Nat)) (ha : Allowed as) (s : S) (hs : Ready s) (tail : List Nat) :
    GotValid as tail (serve s [] [encode as ++ tail]) := by
  apply C45_header_cuts_partial as ha s hs tail _ (by simp)
  intro i hi
  have : i = 0 := by simp at hi; exact hi
  subst this
  rintro ⟨done, a, todo, y, z, _, _, _, h⟩
  simp at h

/-- **A request in two packets**, cut anywhere: arguments of at most 30 bytes can all be read. -/
theorem C45_two_packets_partial (as : List (List Nat)) (ha : Allowed as) (hsh : ∀ a ∈ as, a.length ≤ 30)
    (s : S) (hs : Ready s) (tail p q : List Nat) (hpq : p ++ q = encode as ++ tail) :
    GotValid as tail (serve s [] [p, q]) := by
  have h1 : p ++ q = encode as ++ tail := hpq
  rcases parse_good ha (s := s) (r := encode as) (.inl ⟨hs, rfl⟩) h1 with ⟨_, ns⟩ | ⟨⟨st, n, args, s'⟩, ho, _, hcase⟩
  · exact absurd (.inl hs.1) ns
  · unfold serve
    rw [List.nil_append, ho]
    dsimp only at hcase
    rcases hcase with ⟨rfl, hr, hd, ht, hv⟩ | ⟨rfl, r', hb', hf, hlt, hb2, hnb, hj', hbk⟩
    · exact ⟨args, s', _, q, rfl, hd, hr, ht.symm, hv (.inl hs.1)⟩
    · have hni := (hj' (.inl hs.1)).1
      have hbr := hb2 hsh hs.2
      dsimp only
      have hf' : (p.drop n ++ q) ++ [] = r' ++ tail := by simpa using hf
      rcases parse_good ha hb' hf' with ⟨_, ns⟩ | ⟨⟨st, n2, args, s2⟩, ho2, _, hcase⟩
      · refine absurd (.inr (fun _ e => ?_)) ns
        have : s'.broken = true := e
        rw [hbr] at this
        cases this
      · unfold serve
        rw [ho2]
        dsimp only at hcase
        rcases hcase with ⟨rfl, hr, hd, ht, hv⟩ | ⟨rfl, r2, _, hf2, hlt2, _⟩
        · exact ⟨args, s2, _, [], rfl, hd, hr, by simpa using ht.symm, hv hni⟩
        · exfalso
          have := congrArg List.length hf2
          simp at this hlt2
          omega

/-- An inline request: a line that does not begin like another kind of request. -/
def InlineStart (ln : List Nat) : Prop := ∀ b, (ln ++ [10]).head? = some b → b ≠ 36 ∧ b ≠ 58 ∧ b ≠ 42

/-- **C45 (partial), inline requests** in packets of at least two bytes: the arguments are the words of the
line, they can all be read, and the bytes behind the line are left. -/
theorem C45_inline_partial (ln tail : List Nat) (h10 : 10 ∉ ln) (hst : InlineStart ln) (s : S) (hs : Ready s)
    (ps : List (List Nat)) (hp : ∀ p ∈ ps, 2 ≤ p.length) (hps : ps.flatten = ln ++ 10 :: tail) :
    GotValid (words [] ln) tail (serve s [] ps) :=
  serve_inline ln tail h10 hst ps s [] (.inl ⟨hs, rfl⟩) hp (by simp) (by simpa using hps)

/-! ### The hypotheses are met -/

example : Ready {} := ⟨.inl rfl, rfl⟩

example : Allowed [bytesOf "SET", bytesOf "key", []] := by
  refine ⟨by decide, by decide, ?_⟩
  intro a ha
  simp at ha
  rcases ha with rfl | rfl | rfl <;> decide

example : serve {} [] [bytesOf "*2\r\n$3\r\nGET\r\n$3", bytesOf "\r\nkey\r\n*1\r\n"]
    = some (.request [⟨bytesOf "GET", .block 3⟩, ⟨bytesOf "key", .input 2⟩]
        { st := .complete, idx := 1, ast := some [⟨bytesOf "GET", .block 3⟩], call := 2 } (bytesOf "*1\r\n")) := by
  decide

example : words [] (bytesOf "SET key  value\r") = [bytesOf "SET", bytesOf "key", bytesOf "value"] := by decide

example : serve {} [] [bytesOf "SE", bytesOf "T ke", bytesOf "y\r\n"]
    = some (.request [⟨bytesOf "SET", .block 3⟩, ⟨bytesOf "key", .block 3⟩]
        { st := .complete, idx := 2, ast := some [⟨bytesOf "SET", .block 3⟩, ⟨bytesOf "ke", .block 2⟩], call := 3 } []) := by
  decide

/-! ### C45 is false -/

/-- **A long argument cut by a packet is written outside its block**: 34 bytes of an argument of 40 arrive
first; the parser copies them into a block for 40 bytes, then copies that into a block of 34 bytes, and then
writes the last six bytes behind it. -/
theorem C45_overflow :
    serve {} [] [bytesOf "*1\r\n$40\r\n0123456789012345678901234567890123", bytesOf "456789\r\n"] = none := by
  decide

/-- **An argument points into a buffer that was given back**: the request arrives in three packets, the first
ends inside the first argument. The request obtained in call 3 has an argument in the buffer of call 2. -/
theorem C45_dangling : ∃ s a b rest,
    serve {} [] [bytesOf "*2\r\n$3\r\nab", bytesOf "c\r\n$3\r\n", bytesOf "xyz\r\n"]
      = some (.request [a, b] s rest) ∧ valid s.call a = false := by
  refine ⟨_, ⟨bytesOf "abc", .input 2⟩, ⟨bytesOf "xyz", .input 3⟩, _, rfl, ?_⟩
  decide

/-- **The last byte of an inline request may not come alone**: then the request is not recognised, though it
is complete. -/
theorem C45_lone_byte :
    serve {} [] [bytesOf "PING\r", bytesOf "\n"] = some .waiting ∧
    ∃ s, serve {} [] [bytesOf "PING\r\n"] = some (.request [⟨bytesOf "PING", .input 1⟩] s []) := by
  refine ⟨by decide, _, rfl⟩

end Verif.Resp
