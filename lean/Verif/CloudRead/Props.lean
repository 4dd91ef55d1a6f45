import Verif.CloudRead.Model
/-! C100: streaming readers of cloud objects. -/
namespace Verif.CloudRead

/-! ## The environment -/

/-- What the HTTP parser guarantees of a call: it stores no more than the buffer holds and the body has; the message is complete only if nothing is left; it asks for a buffer only if the buffer is full. -/
def Legal (r : Recv) : Prop := ∀ left w, (r left w).1 ≤ left ∧ (r left w).1 ≤ w ∧ ((r left w).2 = .done → (r left w).1 = left) ∧ ((r left w).2 = .needBuffer → (r left w).1 = w)

/-- An answer about the object: an error, or the object with its length. -/
def Honest (obj : List Byte) (i : Resp) : Prop := i = .fail ∨ i = .len obj.length obj

/-- The readers and the states they get into by reads that succeed or fail. -/
inductive Reader (obj : List Byte) : File → Prop
  | lazy (k : Kind) (h : k ≠ .s3) : Reader obj (fresh k)
  | eager {i : Resp} {f : File} : Honest obj i → openS3 i = some f → Reader obj f
  | good {f f' : File} {off ws i net g net'} : Reader obj f → Honest obj i → (∀ r ∈ net, Legal r) → read f off ws i net = (.ok g f', net') → Reader obj f'
  | bad {f f' : File} {off ws i net net'} : Reader obj f → Honest obj i → (∀ r ∈ net, Legal r) → read f off ws i net = (.error f', net') → Reader obj f'

/-- Where a reader stands. -/
def At (obj : List Byte) (f : File) : Prop := f.offs ≤ obj.length ∧ (f.up = true → f.rest = obj.drop f.offs ∧ f.size = obj.length) ∧ (f.up = false → f.offs = 0 ∧ f.size = 0)

/-- What a read of `w` bytes may do from `f`. -/
def Reads (obj : List Byte) (f : File) (w : Nat) (got : List Byte) : Out (List Byte) × List Recv → Prop
  | (.pending, _) => True
  | (.abort, _) => False
  | (.error f', _) => At obj f' ∧ f.offs ≤ f'.offs ∧ f'.offs ≤ f.offs + w
  | (.ok g f', _) => At obj f' ∧ g = got ++ (obj.drop f.offs).take w ∧ f'.offs = f.offs + ((obj.drop f.offs).take w).length ∧ f'.up = true

theorem take_sum (l : List Byte) (a b : Nat) : l.take (a + b) = l.take a ++ (l.drop (l.take a).length).take b := by
  rcases Nat.lt_or_ge l.length a with hl | hl
  · have : l.take a = l := List.take_of_length_le (by omega)
    rw [this, List.drop_length, List.take_of_length_le (by omega)]; simp
  · have e : (l.take a).length = a := by rw [List.length_take]; omega
    rw [e, List.take_add]

theorem pull_spec (obj : List Byte) : ∀ (ws : List Nat) (f : File) (net : List Recv) (got : List Byte), (∀ r ∈ net, Legal r) → At obj f → f.up = true →
    Reads obj f ws.sum got (pull f ws net got)
  | [], f, net, got, _, h, hu => ⟨h, by simp, by simp, hu⟩
  | w :: ws, f, [], got, _, h, hu => trivial
  | w :: ws, f, r :: net, got, hl, h, hu => by
    obtain ⟨h1, h2, _⟩ := h
    obtain ⟨hrest, hsize⟩ := h2 hu
    obtain ⟨l1, l2, l3, l4⟩ := hl r (by simp) f.rest.length w
    unfold pull
    simp only []
    generalize r f.rest.length w = a at l1 l2 l3 l4 ⊢
    obtain ⟨n, c⟩ := a
    simp only [] at l1 l2 l3 l4 ⊢
    have hlen : f.rest.length = obj.length - f.offs := by rw [hrest]; simp
    have hA : At obj { f with offs := f.offs + n, rest := f.rest.drop n } := by
      refine ⟨by simp only []; omega, fun _ => ⟨?_, hsize⟩, fun hx => ?_⟩
      · simp only []; rw [hrest, List.drop_drop]
      · have : f.up = false := hx
        rw [hu] at this; cases this
    rw [List.sum_cons]
    have key : c = .done ∨ c = .needBuffer → f.rest.take n = (obj.drop f.offs).take w ∧ ¬ (n < w ∧ f.offs + n ≠ f.size) := by
      intro hc
      rcases hc with hc | hc
      · have e := l3 hc
        refine ⟨?_, fun hx => hx.2 (by omega)⟩
        rw [hrest, List.take_of_length_le (by simp; omega), List.take_of_length_le (by simp; omega)]
      · have e := l4 hc
        exact ⟨by rw [hrest, e], fun hx => by omega⟩
    have step : c = .done ∨ c = .needBuffer → Reads obj f (w + ws.sum) got (pull { f with offs := f.offs + n, rest := f.rest.drop n } ws net (got ++ f.rest.take n)) := by
      intro hc
      obtain ⟨e, _⟩ := key hc
      have := pull_spec obj ws { f with offs := f.offs + n, rest := f.rest.drop n } net (got ++ f.rest.take n) (fun x hx => hl x (List.mem_cons_of_mem _ hx)) hA hu
      have en : n = ((obj.drop f.offs).take w).length := by rw [← e, List.length_take]; omega
      have hs : (obj.drop f.offs).take (w + ws.sum) = f.rest.take n ++ (obj.drop (f.offs + n)).take ws.sum := by
        rw [take_sum, ← e, List.drop_drop]
        congr 3
        rw [e]; omega
      have htl : (f.rest.take n).length = n := by rw [List.length_take]; omega
      revert this
      rcases pull { f with offs := f.offs + n, rest := f.rest.drop n } ws net (got ++ f.rest.take n) with ⟨o, net'⟩
      cases o with
      | pending => exact id
      | abort => exact id
      | error f' => exact fun ⟨x1, x2, x3⟩ => ⟨x1, by simp only [] at x2; omega, by simp only [] at x3; omega⟩
      | ok g f' =>
        rintro ⟨x1, x2, x3, x4⟩
        refine ⟨x1, ?_, ?_, x4⟩
        · rw [x2, hs, List.append_assoc]
        · rw [x3, hs, List.length_append, htl]; simp only []; omega
    cases c with
    | partialMsg => exact ⟨hA, by simp only []; omega, by simp only []; omega⟩
    | other => exact ⟨hA, by simp only []; omega, by simp only []; omega⟩
    | done => simp only []; rw [if_neg (key (Or.inl rfl)).2]; exact step (Or.inl rfl)
    | needBuffer => simp only []; rw [if_neg (key (Or.inr rfl)).2]; exact step (Or.inr rfl)

theorem read_spec (obj : List Byte) (f : File) (off : Nat) (ws : List Nat) (i : Resp) (net : List Recv) (hi : Honest obj i) (hl : ∀ r ∈ net, Legal r) (h : At obj f) :
    Reads obj f ws.sum [] (read f off ws i net) := by
  unfold read
  split
  · rename_i hu
    exact pull_spec obj ws f net [] hl h hu
  · rename_i hu
    have hu : f.up = false := by simpa using hu
    rcases hi with rfl | rfl
    · exact ⟨h, Nat.le_refl _, Nat.le_add_right _ _⟩
    · have ho := (h.2.2 hu).1
      exact pull_spec obj ws { f with up := true, size := obj.length, rest := obj } net [] hl ⟨h.1, fun _ => ⟨by rw [show f.offs = 0 from ho]; rfl, rfl⟩, nofun⟩ rfl

theorem reader_at {obj : List Byte} {f : File} (h : Reader obj f) : At obj f := by
  induction h with
  | lazy k _ => exact ⟨Nat.zero_le _, nofun, fun _ => ⟨rfl, rfl⟩⟩
  | eager hi e =>
    rcases hi with rfl | rfl
    · cases e
    · cases e; exact ⟨Nat.zero_le _, fun _ => ⟨rfl, rfl⟩, nofun⟩
  | @good f f' off ws i net g net' _ hi hl e ih =>
    have := read_spec obj f off ws i net hi hl ih
    rw [e] at this
    exact this.1
  | @bad f f' off ws i net net' _ hi hl e ih =>
    have := read_spec obj f off ws i net hi hl ih
    rw [e] at this
    exact this.1

/-! ## The theorems -/

/-- C100: a read that succeeds gives the next bytes of the object, as many as asked for or up to its end (0 bytes only at the end), and leaves the size known. A broken connection is an error, never a
short read. No check fails. -/
theorem C100_read {obj : List Byte} {f : File} (h : Reader obj f) (off : Nat) (ws : List Nat) (i : Resp) (net : List Recv) (hi : Honest obj i) (hl : ∀ r ∈ net, Legal r) :
    match (read f off ws i net).1 with
    | .ok g f' => g = (obj.drop f.offs).take ws.sum ∧ f'.offs = f.offs + g.length ∧ f'.size = obj.length ∧ (0 < ws.sum → g = [] → f.offs = obj.length)
    | .error f' => f.offs ≤ f'.offs ∧ f'.offs ≤ f.offs + ws.sum
    | .pending => True
    | .abort => False := by
  have hA := reader_at h
  have := read_spec obj f off ws i net hi hl hA
  revert this
  rcases read f off ws i net with ⟨o, net'⟩
  cases o with
  | pending => exact id
  | abort => exact id
  | error f' => exact fun h => h.2
  | ok g f' =>
    rintro ⟨x1, x2, x3, x4⟩
    rw [List.nil_append] at x2
    refine ⟨x2, by rw [x2]; exact x3, (x1.2.1 x4).2, fun hp hg => ?_⟩
    rw [hg] at x2
    have := congrArg List.length x2
    have := hA.1
    simp at *
    omega

/-- Successive reads; the results if all succeed. -/
def readAll (f : File) : List (List Nat × Resp × List Recv) → Option (List (List Byte))
  | [] => some []
  | c :: cs => match (read f 0 c.1 c.2.1 c.2.2).1 with
    | .ok g f' => (readAll f' cs).map (g :: ·)
    | _ => none

/-- C100: as long as no read fails, successive reads give the object in order. -/
theorem C100_in_order_partial {obj : List Byte} : ∀ {cs : List (List Nat × Resp × List Recv)} {f : File} {gs : List (List Byte)}, Reader obj f → (∀ c ∈ cs, Honest obj c.2.1 ∧ ∀ r ∈ c.2.2, Legal r) →
    readAll f cs = some gs → gs.flatten = (obj.drop f.offs).take (cs.map fun c => c.1.sum).sum
  | [], f, gs, _, _, e => by cases e; simp
  | c :: cs, f, gs, h, hc, e => by
    unfold readAll at e
    have h1 := C100_read h 0 c.1 c.2.1 c.2.2 (hc c (by simp)).1 (hc c (by simp)).2
    rcases hr : read f 0 c.1 c.2.1 c.2.2 with ⟨o, net'⟩
    rw [hr] at e h1
    cases o with
    | ok g f' =>
      simp only [] at e h1
      rcases e2 : readAll f' cs with _ | gs'
      · rw [e2] at e; cases e
      · rw [e2] at e; cases e
        have hR : Reader obj f' := .good h (hc c (by simp)).1 (hc c (by simp)).2 hr
        have := C100_in_order_partial hR (fun x hx => hc x (List.mem_cons_of_mem _ hx)) e2
        rw [List.flatten_cons, this, List.map_cons, List.sum_cons, take_sum, ← h1.1, List.drop_drop, h1.2.1]
    | _ => cases e

/-- C100: whatever the transport does, and for any headers, neither the Azure nor the S3 reader aborts. -/
theorem C100_no_abort (f : File) (hk : f.kind ≠ .gcs) (off : Nat) (ws : List Nat) (i : Resp) (net : List Recv) : (read f off ws i net).1 ≠ .abort := by
  have hp : ∀ (ws : List Nat) (f : File) (net : List Recv) (got : List Byte), f.kind ≠ .gcs → (pull f ws net got).1 ≠ .abort := by
    intro ws
    induction ws with
    | nil => intro f net got _; unfold pull; nofun
    | cons w ws ih =>
      intro f net got hk
      unfold pull
      split
      · nofun
      simp only []
      split
      · nofun
      · nofun
      · split
        · split
          · rename_i hx; exact absurd hx hk
          · nofun
          · exact ih _ _ _ hk
        · exact ih _ _ _ hk
  unfold read
  split
  · exact hp _ _ _ _ hk
  · cases i with
    | fail => nofun
    | noLen b => simp only [initRead]; rw [if_neg hk]; nofun
    | len n b => exact hp _ _ _ _ hk

/-- A parser that fills the buffer as far as the body goes. -/
def fast : Recv := fun left w => if w < left then (w, .needBuffer) else (left, .done)

theorem fast_legal : Legal fast := by
  intro left w
  unfold fast
  split <;> (refine ⟨?_, ?_, ?_, ?_⟩ <;> simp <;> omega)

/-- A connection that breaks at once. -/
def broken : Recv := fun _ _ => (0, .partialMsg)

theorem broken_legal : Legal broken := fun _ _ => ⟨Nat.zero_le _, Nat.zero_le _, nofun, nofun⟩

/-- C100 fails for GCS if the answer has no content length (a chunked one): the first read reports an error, and the next aborts the process at the end of the body. -/
theorem C100_gcs_aborts (off off' w : Nat) (body : List Byte) (hb : body ≠ []) (hw : body.length < w) (i : Resp) :
    ∃ f, read (fresh .gcs) off [w] (.noLen body) [fast] = (.error f, [fast]) ∧ (read f off' [w] i [fast]).1 = .abort := by
  refine ⟨⟨.gcs, true, 0, 0, body⟩, rfl, ?_⟩
  have : body.length ≠ 0 := fun h => hb (List.eq_nil_of_length_eq_zero h)
  unfold read pull
  simp [fast, hw, this, Nat.not_lt_of_gt hw]

/-- C100: the Azure reader sends its request again after such an answer. -/
theorem C100_azure_retries (off off' w : Nat) (obj body : List Byte) (hw : obj.length < w) :
    ∃ f, read (fresh .azure) off [w] (.noLen body) [fast] = (.error f, [fast]) ∧ (read f off' [w] (.len obj.length obj) [fast]).1 = .ok obj ⟨.azure, true, obj.length, obj.length, []⟩ := by
  refine ⟨⟨.azure, false, 0, 0, []⟩, rfl, ?_⟩
  unfold read initRead pull pull
  simp [fast, Nat.not_lt_of_gt hw]

/-- C100 fails after an error: the entries filled before it are lost, for a later read goes on behind them. -/
theorem C100_error_loses_bytes (k : Kind) : ∃ f, read ⟨k, true, 4, 0, [1, 2, 3, 4]⟩ 0 [2, 2] .fail [fast, broken] = (.error f, []) ∧ (read f 0 [4] .fail [fast]).1 = .ok [3, 4] ⟨k, true, 4, 4, []⟩ := by
  refine ⟨⟨k, true, 4, 2, [3, 4]⟩, rfl, ?_⟩
  cases k <;> decide +kernel

/-- C100 fails for offsets: they are ignored. -/
theorem C100_offset_ignored (f : File) (off off' : Nat) (ws : List Nat) (i : Resp) (net : List Recv) : read f off ws i net = read f off' ws i net := rfl

/-! ### The hypotheses can be met -/

example : Reader [1, 2, 3, 4] ⟨.azure, true, 4, 3, [4]⟩ :=
  .good (off := 0) (ws := [1, 2]) (i := .len 4 [1, 2, 3, 4]) (net := [fast, fast]) (g := [1, 2, 3]) (net' := []) (.lazy .azure (by decide)) (Or.inr rfl)
    (fun r h => by simp at h; subst h; exact fast_legal) rfl

/-- The state of `C100_error_loses_bytes` is one the S3 reader starts in. -/
example : Reader [1, 2, 3, 4] ⟨.s3, true, 4, 0, [1, 2, 3, 4]⟩ := .eager (i := .len 4 [1, 2, 3, 4]) (Or.inr rfl) rfl

example : readAll (fresh .gcs) [([3], .len 4 [1, 2, 3, 4], [fast]), ([2, 1], .fail, [fast, fast]), ([1], .fail, [fast])] = some [[1, 2, 3], [4], []] := by decide +kernel

end Verif.CloudRead
