import Verif.S3File.Lemmas
/-! C98, C99: the files over the AWS SDK, with a service that may fail any request. -/
namespace Verif.S3File

/-! ## C98: writing -/

/-- A history of calls on a file opened with part size `cap`: the data of the `WriteSome` calls, each with whether it succeeded. If `cl`, calls of `Close` that failed may be among them. -/
inductive History (cap : Nat) (cl : Bool) : WFile → List (List Byte × Bool) → Prop
  | start : History cap cl (openW cap) []
  | wrote {f f' : WFile} {cs vs net n net'} : History cap cl f cs → writeSome f vs net 0 = (.ok n f', net') → History cap cl f' (cs ++ [(vs.flatten, true)])
  | failed {f f' : WFile} {cs vs net net'} : History cap cl f cs → writeSome f vs net 0 = (.error f', net') → History cap cl f' (cs ++ [(vs.flatten, false)])
  | unclosed {f f' : WFile} {cs net net'} : cl = true → History cap cl f cs → closeW f net = (.error f', net') → History cap cl f' cs

/-- What the calls may contribute to the object: all data of a call that succeeded, the first bytes of the data of one that failed. -/
def Contributes : List (List Byte × Bool) → List Byte → Prop
  | [], d => d = []
  | c :: cs, d => ∃ k d', d = c.1.take k ++ d' ∧ (c.2 = true → c.1.length ≤ k) ∧ Contributes cs d'

theorem Contributes.append : ∀ {cs : List (List Byte × Bool)} {d : List Byte}, Contributes cs d → ∀ (c : List Byte × Bool) (k : Nat), (c.2 = true → c.1.length ≤ k) →
    Contributes (cs ++ [c]) (d ++ c.1.take k)
  | [], d, h, c, k, hk => ⟨k, [], by have h : d = [] := h; simp [h], hk, rfl⟩
  | x :: cs, d, ⟨j, d', hd, hj, h⟩, c, k, hk => ⟨j, d' ++ c.1.take k, by rw [hd, List.append_assoc], hj, h.append c k hk⟩

theorem history_kept {cap : Nat} (hc : 0 < cap) {cl : Bool} {f : WFile} {cs : List (List Byte × Bool)} (h : History cap cl f cs) :
    f.cap = cap ∧ (cl = false → Full f) ∧ ∃ d, Kept f d ∧ Contributes cs d := by
  induction h with
  | start => exact ⟨rfl, fun _ => open_full cap, [], open_kept hc, rfl⟩
  | @wrote f f' cs vs net n net' _ e ih =>
    obtain ⟨h1, h2, d, hK, hC⟩ := ih
    have := writeSome_spec vs f d net 0 hK
    rw [e] at this
    obtain ⟨_, k1, k2, k3⟩ := this
    refine ⟨by omega, fun hcl => k3 (h2 hcl), _, k1, ?_⟩
    have := hC.append (vs.flatten, true) vs.flatten.length (fun _ => Nat.le_refl _)
    simpa only [List.take_length] using this
  | @failed f f' cs vs net net' _ e ih =>
    obtain ⟨h1, h2, d, hK, hC⟩ := ih
    have := writeSome_spec vs f d net 0 hK
    rw [e] at this
    obtain ⟨k, _, k1, k2, _, k3⟩ := this
    exact ⟨by omega, fun hcl => k3 (h2 hcl), _, k1, hC.append (vs.flatten, false) k nofun⟩
  | unclosed hcl _ e ih =>
    obtain ⟨h1, h2, d, hK, hC⟩ := ih
    obtain ⟨k1, k2⟩ := close_err hK e
    exact ⟨by omega, fun h => (by rw [hcl] at h; cases h), d, k1, hC⟩

/-- C98: if `Close` succeeds, the object is made of all data of the calls that succeeded and the first bytes of those that failed, in order, whatever requests failed, were lost, or were carried
out although their answer was an error. -/
theorem C98_object {cap : Nat} (hc : 0 < cap) {cl : Bool} {f f' : WFile} {cs : List (List Byte × Bool)} (h : History cap cl f cs) {net net' : List Ans} {k : Nat}
    (e : closeW f net = (.ok k f', net')) : ∃ d, assemble f'.srv k = some d ∧ Contributes cs d := by
  obtain ⟨_, _, d, hK, hC⟩ := history_kept hc h
  exact ⟨d, (close_spec hK e).1, hC⟩

theorem contributes_all : ∀ {cs : List (List Byte × Bool)} {d : List Byte}, Contributes cs d → (∀ c ∈ cs, c.2 = true) → d = (cs.map (·.1)).flatten
  | [], _, h, _ => h
  | c :: cs, d, ⟨k, d', hd, hk, h⟩, ha => by
    rw [List.map_cons, List.flatten_cons, ← contributes_all h (fun x hx => ha x (List.mem_cons_of_mem _ hx)), hd, List.take_of_length_le (hk (ha c (by simp)))]

/-- C98: if all writes succeeded, the object is the concatenation of their data, also if `Close` had to be repeated. -/
theorem C98_all_written {cap : Nat} (hc : 0 < cap) {cl : Bool} {f f' : WFile} {cs : List (List Byte × Bool)} (h : History cap cl f cs) (ha : ∀ c ∈ cs, c.2 = true) {net net' : List Ans} {k : Nat}
    (e : closeW f net = (.ok k f', net')) : assemble f'.srv k = some (cs.map (·.1)).flatten := by
  obtain ⟨d, h1, h2⟩ := C98_object hc h e
  rw [h1, contributes_all h2 ha]

/-- C98: `WriteSome` always returns, and if it succeeds, it returns the length of all entries. -/
theorem C98_write_returns {cap : Nat} (hc : 0 < cap) {cl : Bool} {f : WFile} {cs : List (List Byte × Bool)} (h : History cap cl f cs) (vs : List (List Byte)) (net : List Ans) :
    match (writeSome f vs net 0).1 with
    | .spin => False
    | .error _ => True
    | .ok n _ => n = vs.flatten.length := by
  obtain ⟨_, _, d, hK, _⟩ := history_kept hc h
  have := writeSome_spec vs f d net 0 hK
  revert this
  cases (writeSome f vs net 0).1 with
  | spin => exact id
  | error _ => exact fun _ => trivial
  | ok n _ => exact fun h => by have := h.1; omega

/-- C98: all parts of the object but the last have exactly the part size, the last has at least one byte and at most the part size, as the service requires (before a failed `Close`). -/
theorem C98_part_sizes {cap : Nat} (hc : 0 < cap) {f f' : WFile} {cs : List (List Byte × Bool)} (h : History cap false f cs) {net net' : List Ans} {k : Nat}
    (e : closeW f net = (.ok k f', net')) (i : Nat) (h1 : 1 ≤ i) (h2 : i ≤ k) : ∃ b, f'.srv i = some b ∧ 0 < b.length ∧ b.length ≤ cap ∧ (i < k → b.length = cap) := by
  obtain ⟨hcap, hF, d, hK, hC⟩ := history_kept hc h
  have hF := hF rfl
  have hr := hK.room
  unfold closeW flush at e
  split at e
  · simp only [] at e
    rw [if_neg (by decide)] at e
    split at e
    · cases e
      obtain ⟨b, hb1, hb2⟩ := hF i h1 h2
      exact ⟨b, hb1, by omega, by omega, fun _ => by omega⟩
    · cases e
  · rename_i h0
    split at e
    · simp only [] at e
      rw [if_neg (by decide)] at e
      split at e
      · cases e
        simp only [put]
        split
        · rename_i hi
          exact ⟨f.buf, rfl, by omega, by omega, fun hx => by omega⟩
        · rename_i hi
          obtain ⟨b, hb1, hb2⟩ := hF i h1 (by omega)
          exact ⟨b, hb1, by omega, by omega, fun _ => by omega⟩
      · cases e
    · cases e
    · cases e

/-- C98: an upload that failed is tried again by the next call: after a failed write the buffer is full, so a next write that succeeds and has a byte to write has had one more part
acknowledged. -/
theorem C98_retried {cap : Nat} (hc : 0 < cap) {cl : Bool} {f f1 f2 : WFile} {cs : List (List Byte × Bool)} (h : History cap cl f cs) {vs ws : List (List Byte)} {net net1 net2 net3 : List Ans} {n : Nat}
    (e1 : writeSome f vs net 0 = (.error f1, net1)) (hw : ws.flatten ≠ []) (e2 : writeSome f1 ws net2 0 = (.ok n f2, net3)) :
    assemble f2.srv f2.parts ≠ assemble f1.srv f1.parts := by
  obtain ⟨_, _, d, hK, _⟩ := history_kept hc h
  have := writeSome_spec vs f d net 0 hK
  rw [e1] at this
  obtain ⟨k, _, k1, k2, k4, _⟩ := this
  have := writeSome_spec ws f1 _ net2 0 k1
  rw [e2] at this
  obtain ⟨_, q1, q2, _⟩ := this
  obtain ⟨_, r1, a, ha, hd⟩ := k1
  obtain ⟨_, r2, a2, ha2, hd2⟩ := q1
  intro hx
  rw [ha, ha2] at hx
  cases hx
  have l1 := congrArg List.length hd
  have l2 := congrArg List.length hd2
  simp only [List.length_append] at l1 l2
  have : 0 < ws.flatten.length := List.length_pos_iff.mpr hw
  omega

/-- C98 fails where a caller repeats a failed write: the failed call has kept its first bytes, at least a part of them, but does not say how many, and the object gets them twice. -/
theorem C98_repeated_write_doubles {cap : Nat} (hc : 0 < cap) {f1 f2 f3 : WFile} {vs : List (List Byte)} {net net1 net2 net3 net4 net5 : List Ans} {n k : Nat}
    (e1 : writeSome (openW cap) vs net 0 = (.error f1, net1)) (e2 : writeSome f1 vs net2 0 = (.ok n f2, net3)) (e3 : closeW f2 net4 = (.ok k f3, net5)) :
    ∃ m, cap ≤ m ∧ m ≤ vs.flatten.length ∧ assemble f3.srv k = some (vs.flatten.take m ++ vs.flatten) := by
  have h1 := writeSome_spec vs (openW cap) [] net 0 (open_kept hc)
  rw [e1] at h1
  obtain ⟨m, k0, k1, k2, k4, _⟩ := h1
  have h2 := writeSome_spec vs f1 _ net2 0 k1
  rw [e2] at h2
  refine ⟨m, ?_, k0, by simpa using (close_spec h2.2.1 e3).1⟩
  obtain ⟨_, _, a, _, hd⟩ := k1
  have l := congrArg List.length hd
  have : f1.cap = cap := k2
  simp only [List.nil_append, List.length_append, List.length_take] at l
  omega

/-- C98 needs a part size above 0: else writing a byte never returns. -/
theorem C98_zero_part_size (v : List Byte) (hv : v ≠ []) (vs : List (List Byte)) (net : List Ans) : (writeSome (openW 0) (v :: vs) net 0).1 = .spin := by
  have h : v.length ≠ 0 := fun h => hv (List.eq_nil_of_length_eq_zero h)
  unfold writeSome fill
  simp [h, openW, flush]

/-- C98: a file closed without a byte is completed with no part at all. -/
theorem C98_nothing_written (cap : Nat) (net : List Ans) (h : net.headD .ok = .ok) : closeW (openW cap) net = (.ok 0 (openW cap), net.tail) := by
  unfold closeW flush
  simp only [openW, List.length_nil, if_true]
  rw [if_neg (by decide), h]

/-! ## C99: reading -/

/-- Successive reads, each with the lengths of its entries; the results if all succeed. -/
def readAll (f : RFile) : List (List Nat) → Net → Option (List (List Byte) × RFile)
  | [], _ => some ([], f)
  | ws :: cs, net => match read f 0 ws net [] with
    | (.ok g f', net') => (readAll f' cs net').map fun r => (g :: r.1, r.2)
    | _ => none

theorem readAll_at (obj : List Byte) : ∀ (cs : List (List Nat)) (f f' : RFile) (net : Net) (gs : List (List Byte)), (∀ g ∈ net, Honest obj g) → At obj f → readAll f cs net = some (gs, f') →
    gs.flatten = (obj.drop f.fileRead).take (cs.map List.sum).sum
  | [], f, f', net, gs, _, _, e => by cases e; simp
  | ws :: cs, f, f', net, gs, hh, h, e => by
    unfold readAll at e
    have := read_spec obj 0 ws f net [] hh h
    revert this e
    rcases read f 0 ws net [] with ⟨o, net1⟩
    cases o with
    | ok g f1 =>
      rintro e ⟨h1, h2, h3, _, h5, _, _⟩
      simp only [] at e
      rcases e2 : readAll f1 cs net1 with _ | ⟨gs1, f2⟩
      · rw [e2] at e; cases e
      · rw [e2] at e; cases e
        have := readAll_at obj cs f1 _ net1 gs1 (fun x hx => hh x (h5 x hx)) h2 e2
        rw [List.nil_append] at h1
        rw [List.map_cons, List.sum_cons, List.flatten_cons, this, take_sum _ _ _ (fun hl => by rw [List.length_take]; omega), ← h1, List.drop_drop, h3, ← h1]
    | pending => nofun
    | abort => nofun
    | overflow => nofun
    | error _ => nofun

/-- C99 (partial: if no call fails, whatever offsets are asked for): successive reads of a file give the bytes of the object in order, as many as asked for or up to its end. -/
theorem C99_in_order_partial {cap : Nat} (hc : 0 < cap) (obj : List Byte) (net : Net) (hh : ∀ g ∈ net, Honest obj g) (cs : List (List Nat)) (gs : List (List Byte)) (f' : RFile)
    (e : readAll (openR cap) cs net = some (gs, f')) : gs.flatten = obj.take (cs.map List.sum).sum :=
  readAll_at obj cs _ f' net gs hh (openR_at obj hc) e

/-- The states a reader of `obj` gets into by reads that succeed or fail. -/
inductive Reader (cap : Nat) (obj : List Byte) : RFile → Prop
  | start : Reader cap obj (openR cap)
  | good {f f' : RFile} {off ws net g net'} : Reader cap obj f → (∀ q ∈ net, Honest obj q) → read f off ws net [] = (.ok g f', net') → Reader cap obj f'
  | bad {f f' : RFile} {off ws net net'} : Reader cap obj f → (∀ q ∈ net, Honest obj q) → read f off ws net [] = (.error f', net') → Reader cap obj f'

theorem reader_at {cap : Nat} (hc : 0 < cap) {obj : List Byte} {f : RFile} (h : Reader cap obj f) : At obj f := by
  induction h with
  | start => exact openR_at obj hc
  | @good f f' off ws net g net' _ hh e ih =>
    have := read_spec obj off ws f net [] hh ih
    rw [e] at this
    exact this.2.1
  | @bad f f' off ws net net' _ hh e ih =>
    have := read_spec obj off ws f net [] hh ih
    rw [e] at this
    exact this.1

/-- C99: a read that succeeds gives the bytes from the reader's position on; 0 bytes mean that the end is reached; the size is then known. A read that fails moves the position by less than asked for;
no read aborts or writes past the buffer. -/
theorem C99_read {cap : Nat} (hc : 0 < cap) {obj : List Byte} {f : RFile} (h : Reader cap obj f) (off : Nat) (ws : List Nat) (net : Net) (hh : ∀ q ∈ net, Honest obj q) :
    match (read f off ws net []).1 with
    | .ok g f' => g = (obj.drop f.fileRead).take ws.sum ∧ f'.fileRead = f.fileRead + g.length ∧ (0 < ws.sum → f'.size = obj.length ∧ (g = [] → f.fileRead = obj.length))
    | .error f' => f.fileRead ≤ f'.fileRead ∧ f'.fileRead < f.fileRead + ws.sum
    | .pending => net.length < ws.sum
    | .abort => False
    | .overflow => False := by
  have hA := reader_at hc h
  have := read_spec obj off ws f net [] hh hA
  revert this
  rcases read f off ws net [] with ⟨o, net'⟩
  cases o with
  | ok g f' =>
    rintro ⟨h1, h2, h3, _, _, h6, _⟩
    rw [List.nil_append] at h1
    refine ⟨h1, by rw [h1]; exact h3, fun hp => ⟨h6 hp, fun hg => ?_⟩⟩
    rw [hg] at h1
    have := congrArg List.length h1
    have := hA.le
    simp at *
    omega
  | error f' => exact fun h => ⟨h.2.1, h.2.2.1⟩
  | pending => exact id
  | abort => exact id
  | overflow => exact id

/-- C99: with an answer for each byte asked for, a read returns. -/
theorem C99_returns {cap : Nat} (hc : 0 < cap) {obj : List Byte} {f : RFile} (h : Reader cap obj f) (off : Nat) (ws : List Nat) (net : Net) (hh : ∀ q ∈ net, Honest obj q) (hn : ws.sum ≤ net.length) :
    (read f off ws net []).1 ≠ .pending := by
  have := C99_read hc h off ws net hh
  intro e
  rw [e] at this
  have : net.length < ws.sum := this
  omega

/-- A service with the object. -/
def serve (obj : List Byte) : Nat → Nat → Get := fun a b => if a < obj.length ∧ a ≤ b then .body ((obj.drop a).take (b + 1 - a)) (.total obj.length) else .fail

theorem serve_honest (obj : List Byte) : Honest obj (serve obj) := by
  intro a b
  unfold serve
  split
  · trivial
  · rename_i bd r e
    split at e
    · rename_i h
      cases e
      refine ⟨fun hx => ?_, List.take_prefix _ _, ?_, Or.inl rfl⟩
      · have := congrArg List.length hx
        simp at this
        omega
      · rw [List.length_take]; omega
    · cases e

/-- A service that fails. -/
def down : Nat → Nat → Get := fun _ _ => .fail

theorem down_honest (obj : List Byte) : Honest obj down := fun _ _ => trivial

/-- C99 fails after an error: a read that got a first chunk and failed on the second has taken the first chunk, and no later read returns it. -/
theorem C99_error_loses_bytes : ∃ f : RFile, read (openR 2) 0 [4] [serve [1, 2, 3, 4], down] [] = (.error f, []) ∧
    (read f 0 [4] [serve [1, 2, 3, 4], serve [1, 2, 3, 4]] []).1 = .ok [3, 4] ⟨2, [], 4, 4⟩ := ⟨⟨2, [], 2, 4⟩, rfl, by decide +kernel⟩

/-- C99 fails for offsets: a read does the same for every offset, so a read at another position than the current one gives the wrong bytes. -/
theorem C99_offset_ignored (off off' : Nat) : ∀ (ws : List Nat) (got : List Byte) (f : RFile) (net : Net), read f off ws net got = read f off' ws net got
  | [], _, _, _ => rfl
  | w :: ws, got, f, net => by
    unfold read
    rcases readOne f w [] net with ⟨o, n⟩
    cases o with
    | ok g f1 => exact C99_offset_ignored off off' ws _ _ _
    | _ => rfl

/-- C99 fails for an empty object, first case: a service that refuses a range in it gives an error, never the end of the file. -/
theorem C99_empty_object_error (cap w : Nat) (hw : 0 < w) : (read (openR cap) 0 [w] [serve []] []).1 = .error (openR cap) := by
  unfold read readOne
  have : w ≠ 0 := by omega
  simp [openR, serve, this, hw]

/-- C99 fails for an empty object, second case: if the service answers with the empty object, the read asks for ever. -/
theorem C99_empty_object_endless (cap w : Nat) (hw : 0 < w) (m : Nat) : (read (openR cap) 0 [w] (List.replicate m fun _ _ => .body [] .absent) []).1 = .pending := by
  have h : ∀ m, readOne (openR cap) w [] (List.replicate m fun _ _ => .body [] .absent) = (.pending, []) := by
    intro m
    induction m with
    | zero =>
      unfold readOne
      have : w ≠ 0 := by omega
      simp [openR, this, hw]
    | succ m ih =>
      unfold readOne
      have : w ≠ 0 := by omega
      simp [openR, this, hw, List.replicate_succ, chunk]
      exact ih
  unfold read
  rw [h m]

/-- C99 depends on the service's answering no more than asked for: a service that sends the whole object writes past the buffer. -/
theorem C99_overflow (cap w : Nat) (hw : 0 < w) (obj : List Byte) (h : cap < obj.length) : (read (openR cap) 0 [w] [fun _ _ => .body obj .absent] []).1 = .overflow := by
  unfold read readOne
  have : w ≠ 0 := by omega
  simp [openR, this, hw, chunk, h]

/-- C99 fails if the object is replaced while it is read: no request names the version, and the reads give a mixture. -/
theorem C99_mixture : (read (openR 2) 0 [4] [serve [1, 1, 1, 1], serve [2, 2, 2, 2]] []).1 = .ok [1, 1, 2, 2] ⟨2, [], 4, 4⟩ := by decide +kernel

/-- C99: the size is 0 until the first read. -/
theorem C99_size_unknown (cap : Nat) : (openR cap).size = 0 := rfl

/-! ### The hypotheses can be met -/

/-- A first write fails when its first part is lost on the way; it is repeated, and the file closed. -/
example : ∃ f1 f2 f3 : WFile, writeSome (openW 2) [[1], [2, 3]] [.lost] 0 = (.error f1, []) ∧ writeSome f1 [[1], [2, 3]] [] 0 = (.ok 3 f2, []) ∧ closeW f2 [] = (.ok 3 f3, []) ∧
    assemble f3.srv 3 = some [1, 2, 1, 2, 3] := by
  refine ⟨⟨2, [1, 2], 0, fun _ => none⟩, ⟨2, [3], 2, put (put (fun _ => none) 1 [1, 2]) 2 [1, 2]⟩, ⟨2, [], 3, put (put (put (fun _ => none) 1 [1, 2]) 2 [1, 2]) 3 [3]⟩, ?_, ?_, ?_, ?_⟩
  · simp [writeSome, fill, flush, openW]
  · simp [writeSome, fill, flush]
  · simp [closeW, flush]
  · simp [assemble, put]

/-- A history with a part whose acknowledgement is lost, a write that goes on after it and a failed `Close`. -/
example : ∃ f : WFile, History 2 true f [([1, 2, 3], false), ([4], true)] := by
  refine ⟨⟨2, [4], 1, put (put (fun _ => none) 1 [1, 2]) 1 [1, 2]⟩, .unclosed (f := ⟨2, [4], 1, put (put (fun _ => none) 1 [1, 2]) 1 [1, 2]⟩) rfl (net := [.lost]) (net' := []) (.wrote (vs := [[4]]) (net := []) (net' := []) (n := 1) (.failed (vs := [[1], [2, 3]]) (net := [.stored]) (net' := []) (f' := ⟨2, [1, 2], 0, put (fun _ => none) 1 [1, 2]⟩) .start ?_) ?_) ?_⟩
  · simp [writeSome, fill, flush, openW]
  · simp [writeSome, fill, flush]
  · simp [closeW, flush]

/-- Three reads of an object of five bytes by chunks of two; the last finds the end. -/
example : readAll (openR 2) [[1, 2], [7], [1]] (List.replicate 5 (serve [1, 2, 3, 4, 5])) = some ([[1, 2, 3], [4, 5], []], ⟨2, [], 5, 5⟩) := by decide +kernel

example : ∀ g ∈ List.replicate 5 (serve [1, 2, 3, 4, 5]), Honest [1, 2, 3, 4, 5] g := fun g h => by rw [List.eq_of_mem_replicate h]; exact serve_honest _

end Verif.S3File
