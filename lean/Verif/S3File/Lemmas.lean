import Verif.S3File.Model
/-! Lemmas for the S3 files: what every step keeps. -/
namespace Verif.S3File

/-! ## Writing -/

/-- The acknowledged parts followed by the buffer are `d`. -/
structure Kept (f : WFile) (d : List Byte) : Prop where
  pos : 0 < f.cap
  room : f.buf.length ≤ f.cap
  all : ∃ a, assemble f.srv f.parts = some a ∧ a ++ f.buf = d

/-- Every acknowledged part has the part size. -/
def Full (f : WFile) : Prop := ∀ k, 1 ≤ k → k ≤ f.parts → ∃ b, f.srv k = some b ∧ b.length = f.cap

theorem assemble_put (srv : Nat → Option (List Byte)) (j : Nat) (b : List Byte) : ∀ k, k < j → assemble (put srv j b) k = assemble srv k
  | 0, _ => rfl
  | k + 1, h => by
    have e : put srv j b (k + 1) = srv (k + 1) := if_neg (by omega)
    simp only [assemble, e, assemble_put srv j b k (by omega)]

theorem flush_spec {f f' : WFile} {net net' : List Ans} {b : Bool} {d : List Byte} (h : Kept f d) (e : flush f net = (b, f', net')) :
    Kept f' d ∧ f'.cap = f.cap ∧ (b = true → f'.buf = []) ∧ (b = false → f'.buf = f.buf ∧ f'.parts = f.parts) ∧ (Full f → b = false ∨ f.buf = [] ∨ f.buf.length = f.cap → Full f') := by
  obtain ⟨hp, hr, a, ha, hd⟩ := h
  unfold flush at e
  split at e
  · rename_i h0
    cases e
    have h1 : f.buf = [] := List.eq_nil_of_length_eq_zero h0
    exact ⟨⟨hp, hr, a, ha, hd⟩, rfl, fun _ => h1, nofun, fun hf _ => hf⟩
  · rename_i h0
    split at e
    · cases e
      refine ⟨⟨hp, Nat.zero_le _, a ++ f.buf, ?_, by simpa using hd⟩, rfl, fun _ => rfl, nofun, fun hf hb k h1 h2 => ?_⟩
      · simp only [assemble, assemble_put _ _ _ _ (Nat.lt_succ_self _), ha]
        simp [put]
      · rcases Nat.lt_or_ge f.parts k with hk | hk
        · have : k = f.parts + 1 := by have : k ≤ f.parts + 1 := h2; omega
          subst this
          refine ⟨f.buf, by simp [put], ?_⟩
          rcases hb with hb | hb | hb
          · cases hb
          · rw [hb] at h0; exact absurd rfl h0
          · exact hb
        · obtain ⟨b, hb1, hb2⟩ := hf k h1 hk
          exact ⟨b, by simp only [put]; rw [if_neg (by omega)]; exact hb1, hb2⟩
    · cases e
      exact ⟨⟨hp, hr, a, ha, hd⟩, rfl, nofun, fun _ => ⟨rfl, rfl⟩, fun hf _ => hf⟩
    · cases e
      refine ⟨⟨hp, hr, a, ?_, hd⟩, rfl, nofun, fun _ => ⟨rfl, rfl⟩, fun hf _ k h1 h2 => ?_⟩
      · rw [← ha]; exact assemble_put _ _ _ _ (Nat.lt_succ_self _)
      · obtain ⟨b, hb1, hb2⟩ := hf k h1 h2
        have h2 : k ≤ f.parts := h2
        exact ⟨b, by simp only [put]; rw [if_neg (by omega)]; exact hb1, hb2⟩

/-- What a call does to a file holding `d`, given the data. -/
def Did (f : WFile) (d data : List Byte) {α : Type} (P : α → Prop) : Out α → Prop
  | .spin => False
  | .error f' => ∃ k, k ≤ data.length ∧ Kept f' (d ++ data.take k) ∧ f'.cap = f.cap ∧ f'.buf.length = f'.cap ∧ (Full f → Full f')
  | .ok a f' => P a ∧ Kept f' (d ++ data) ∧ f'.cap = f.cap ∧ (Full f → Full f')

theorem fill_spec : ∀ (m : Nat) (f : WFile) (data d : List Byte) (net : List Ans), 2 * data.length + (if f.buf.length = f.cap then 1 else 0) ≤ m → Kept f d →
    Did f d data (fun _ : Unit => True) (fill f data net).1 := by
  intro m
  induction m with
  | zero =>
    intro f data d net hm h
    have : data = [] := List.eq_nil_of_length_eq_zero (by omega)
    subst this
    unfold fill
    exact ⟨trivial, by simpa using h, rfl, id⟩
  | succ m ih =>
    intro f data d net hm h
    unfold fill
    split
    · rename_i h0
      have : data = [] := List.eq_nil_of_length_eq_zero h0
      subst this
      exact ⟨trivial, by simpa using h, rfl, id⟩
    rename_i h0
    obtain ⟨n, hn⟩ : ∃ n, n = min data.length (f.cap - f.buf.length) := ⟨_, rfl⟩
    obtain ⟨f1, hf1⟩ : ∃ f1 : WFile, f1 = { f with buf := f.buf ++ data.take n } := ⟨_, rfl⟩
    have hnl : (data.take n).length = n := by rw [List.length_take]; omega
    have hr := h.room
    have hp := h.pos
    have hxl : (f.buf ++ data.take n).length = f.buf.length + n := by simp [hnl]
    have hbl : f1.buf.length = f.buf.length + n := by rw [hf1]; simp [hnl]
    have hc1 : f1.cap = f.cap := by rw [hf1]
    have hK1 : Kept f1 (d ++ data.take n) := by
      obtain ⟨_, _, a, ha, hd⟩ := h
      refine ⟨by omega, by omega, a, by rw [hf1]; exact ha, by rw [hf1, ← hd]; simp⟩
    have hF1 : Full f → Full f1 := by rw [hf1]; exact id
    simp only [← hn, ← hf1]
    split
    · rename_i hfull
      rcases hfl : flush f1 net with ⟨b, f2, net2⟩
      obtain ⟨hK2, hc2, ht2, hb2, hF2⟩ := flush_spec hK1 hfl
      simp only []
      cases b with
      | false =>
        simp only [if_true]
        exact ⟨n, by omega, hK2, by omega, by rw [(hb2 rfl).1]; omega, fun hf => hF2 (hF1 hf) (Or.inl rfl)⟩
      | true =>
        have hb := ht2 rfl
        rw [if_neg (by decide), dif_neg (by omega), dif_pos ⟨by omega, hb, hr⟩]
        have hdr : 2 * (data.drop n).length + (if f2.buf.length = f2.cap then 1 else 0) ≤ m := by
          rw [hb, if_neg (by simp; omega), List.length_drop]
          split at hm <;> omega
        have := ih f2 (data.drop n) (d ++ data.take n) net2 hdr hK2
        have hF : Full f → Full f2 := fun hf => hF2 (hF1 hf) (Or.inr (Or.inr (by omega)))
        revert this
        cases (fill f2 (data.drop n) net2).1 with
        | spin => exact id
        | error f3 =>
          rintro ⟨k, hk, hK3, hc3, hl3, hF3⟩
          refine ⟨n + k, by rw [List.length_drop] at hk; omega, ?_, by omega, hl3, fun hf => hF3 (hF hf)⟩
          rw [List.take_add, ← List.append_assoc]; exact hK3
        | ok a f3 =>
          rintro ⟨_, hK3, hc3, hF3⟩
          refine ⟨trivial, ?_, by omega, fun hf => hF3 (hF hf)⟩
          rw [List.append_assoc, List.take_append_drop] at hK3; exact hK3
    · rename_i hnf
      rw [if_pos (by omega)]
      have : data.take n = data := List.take_of_length_le (by omega)
      rw [this] at hK1
      exact ⟨trivial, hK1, hc1, hF1⟩

theorem writeSome_spec : ∀ (vs : List (List Byte)) (f : WFile) (d : List Byte) (net : List Ans) (t : Nat), Kept f d →
    Did f d vs.flatten (fun n : Nat => n = t + vs.flatten.length) (writeSome f vs net t).1
  | [], f, d, net, t, h => ⟨by simp, by simpa using h, rfl, id⟩
  | v :: vs, f, d, net, t, h => by
    have := fill_spec _ f v d net (Nat.le_refl _) h
    unfold writeSome
    revert this
    rcases fill f v net with ⟨o, net1⟩
    cases o with
    | spin => exact id
    | error f1 =>
      rintro ⟨k, hk, hK, hc, hl, hF⟩
      refine ⟨k, by simp; omega, ?_, hc, hl, hF⟩
      rw [List.flatten_cons, List.take_append_of_le_length hk]; exact hK
    | ok a f1 =>
      rintro ⟨_, hK, hc, hF⟩
      have := writeSome_spec vs f1 (d ++ v) net1 (t + v.length) hK
      simp only []
      revert this
      rcases writeSome f1 vs net1 (t + v.length) with ⟨o, net2⟩
      cases o with
      | spin => exact id
      | error f2 =>
        rintro ⟨k, hk, hK2, hc2, hl2, hF2⟩
        refine ⟨v.length + k, by rw [List.flatten_cons, List.length_append]; omega, ?_, by omega, hl2, fun hf => hF2 (hF hf)⟩
        rw [List.flatten_cons, List.take_append, List.take_of_length_le (by omega), Nat.add_sub_cancel_left, ← List.append_assoc]; exact hK2
      | ok a f2 =>
        rintro ⟨hn, hK2, hc2, hF2⟩
        refine ⟨by rw [List.flatten_cons, List.length_append]; omega, ?_, by omega, fun hf => hF2 (hF hf)⟩
        rw [List.flatten_cons, ← List.append_assoc]; exact hK2

theorem open_kept {cap : Nat} (h : 0 < cap) : Kept (openW cap) [] := ⟨h, Nat.zero_le _, [], rfl, rfl⟩

theorem open_full (cap : Nat) : Full (openW cap) := fun k h1 h2 => by
  have h2 : k ≤ 0 := h2
  omega

theorem close_spec {f f' : WFile} {net net' : List Ans} {d : List Byte} {k : Nat} (h : Kept f d) (e : closeW f net = (.ok k f', net')) :
    assemble f'.srv k = some d ∧ f'.parts = k ∧ f'.cap = f.cap := by
  unfold closeW at e
  rcases hfl : flush f net with ⟨b, f2, net2⟩
  obtain ⟨hK, hc, ht, _, _⟩ := flush_spec h hfl
  rw [hfl] at e
  simp only [] at e
  split at e
  · cases e
  rename_i hb
  split at e
  · cases e
    obtain ⟨_, _, a, ha, hd⟩ := hK
    rw [ht (by simpa using hb), List.append_nil] at hd
    exact ⟨by rw [← hd]; exact ha, rfl, hc⟩
  · cases e

theorem close_err {f f' : WFile} {net net' : List Ans} {d : List Byte} (h : Kept f d) (e : closeW f net = (.error f', net')) : Kept f' d ∧ f'.cap = f.cap := by
  unfold closeW at e
  rcases hfl : flush f net with ⟨b, f2, net2⟩
  obtain ⟨hK, hc, _⟩ := flush_spec h hfl
  rw [hfl] at e
  simp only [] at e
  split at e
  · cases e; exact ⟨hK, hc⟩
  · split at e
    · cases e
    · cases e; exact ⟨hK, hc⟩

/-! ## Reading -/

/-- A service that holds `obj` and answers a request for the bytes a..b with an error or with one or more bytes from position `a` on, no more than asked for, naming the size of the object; a whole
object may come without a range. -/
def Honest (obj : List Byte) (g : Nat → Nat → Get) : Prop := ∀ a b, match g a b with
  | .fail => True
  | .body bd r => bd ≠ [] ∧ bd <+: obj.drop a ∧ a + bd.length ≤ b + 1 ∧ (r = .total obj.length ∨ (r = .absent ∧ bd = obj))

/-- The reader stands at position `fileRead` of `obj`. -/
structure At (obj : List Byte) (f : RFile) : Prop where
  pos : 0 < f.cap
  pre : f.buf <+: obj.drop f.fileRead
  le : f.fileRead ≤ obj.length
  size : f.fileSize = obj.length ∨ (f.fileSize = 0 ∧ f.buf = [])

theorem prefix_take {a b : List Byte} (h : a <+: b) {n : Nat} (hn : n ≤ a.length) : a.take n = b.take n := by
  obtain ⟨c, rfl⟩ := h
  rw [List.take_append_of_le_length hn]

theorem prefix_drop {a b : List Byte} (h : a <+: b) {n : Nat} (hn : n ≤ a.length) : a.drop n <+: b.drop n := by
  obtain ⟨c, rfl⟩ := h
  rw [List.drop_append_of_le_length hn]
  exact ⟨c, rfl⟩

/-- What a read of `want` more bytes may do. -/
def Reads (obj : List Byte) (f : RFile) (want : Nat) (got : List Byte) (net : Net) : ROut (List Byte) × Net → Prop
  | (.pending, _) => net.length + (if f.buf = [] then 0 else 1) < want
  | (.abort, _) => False
  | (.overflow, _) => False
  | (.error f', net') => At obj f' ∧ f.fileRead ≤ f'.fileRead ∧ f'.fileRead < f.fileRead + want ∧ f'.cap = f.cap ∧ (∀ g ∈ net', g ∈ net)
  | (.ok g f', net') => g = got ++ (obj.drop f.fileRead).take want ∧ At obj f' ∧ f'.fileRead = f.fileRead + ((obj.drop f.fileRead).take want).length ∧ f'.cap = f.cap ∧
      net.length + (if f.buf = [] ∨ want = 0 then 0 else 1) ≤ net'.length + want ∧ (∀ g ∈ net', g ∈ net) ∧ (0 < want → f'.fileSize = obj.length)

theorem readOne_spec (obj : List Byte) : ∀ (m : Nat) (net : Net) (f : RFile) (want : Nat) (got : List Byte), net.length = m → (∀ g ∈ net, Honest obj g) → At obj f →
    Reads obj f (want - got.length) got net (readOne f want got net) := by
  intro m
  induction m using Nat.strongRecOn with
  | ind m ih =>
  intro net f want got hm hh h
  unfold readOne
  split
  · rename_i h0
    have hs : f.fileSize = obj.length := by rcases h.size with e | e <;> omega
    have : obj.drop f.fileRead = [] := List.drop_of_length_le (by omega)
    exact ⟨by simp [this], h, by simp [this], rfl, by split <;> omega, fun _ => id, fun _ => hs⟩
  rename_i h0
  simp only []
  split
  · rename_i hw
    exact ⟨by simp [hw], h, by simp [hw], rfl, by rw [if_pos (Or.inr hw)]; omega, fun _ => id, fun hc => by omega⟩
  rename_i hw
  obtain ⟨n, hn⟩ : ∃ n, n = if f.buf.length < want - got.length then f.buf.length else want - got.length := ⟨_, rfl⟩
  rw [← hn]
  have hnb : n ≤ f.buf.length := by rw [hn]; split <;> omega
  have hnw : n ≤ want - got.length := by rw [hn]; split <;> omega
  have hpl : f.buf.length ≤ obj.length - f.fileRead := by simpa using h.pre.length_le
  have htk : (f.buf.take n).length = n := by rw [List.length_take]; omega
  have htake : f.buf.take n = (obj.drop f.fileRead).take n := prefix_take h.pre hnb
  have hgl : (got ++ f.buf.take n).length = got.length + n := by rw [List.length_append, htk]
  have hle := h.le
  obtain ⟨f2, hf2⟩ : ∃ f2 : RFile, f2 = { f with buf := f.buf.drop n, fileRead := f.fileRead + n } := ⟨_, rfl⟩
  have hr2 : f2.fileRead = f.fileRead + n := by rw [hf2]
  have hs2 : f2.fileSize = f.fileSize := by rw [hf2]
  have hc2 : f2.cap = f.cap := by rw [hf2]
  have hA2 : At obj f2 := by
    refine ⟨by rw [hc2]; exact h.pos, ?_, by omega, ?_⟩
    · have := prefix_drop h.pre hnb
      rw [List.drop_drop] at this
      rw [hf2]; exact this
    · rcases h.size with e | ⟨e, eb⟩
      · exact Or.inl (by omega)
      · exact Or.inr ⟨by omega, by rw [hf2, eb]; simp⟩
  have hs0 : 0 < n → f.fileSize = obj.length := fun hp => by
    rcases h.size with e | ⟨e, eb⟩
    · exact e
    · rw [eb] at hnb; simp at hnb; omega
  have hne : f.buf ≠ [] → 0 < n := fun hb => by
    have : 0 < f.buf.length := List.length_pos_iff.mpr hb
    rw [hn]; split <;> omega
  rw [← hf2]
  split
  · rename_i hA
    have : n = want - got.length := by omega
    rw [← this]
    exact ⟨by rw [htake], hA2, by rw [← htake, htk]; exact hr2, hc2, by split <;> omega, fun _ => id, fun hp => by rw [hs2]; exact hs0 hp⟩
  rename_i hA
  have hbuf : f2.buf = [] := by
    rw [hf2]
    have : n = f.buf.length := by split at hn <;> omega
    simp [this]
  split
  · rename_i hB
    have hs : f.fileSize = obj.length := by rcases h.size with e | e <;> omega
    have hall : (obj.drop f.fileRead).take (want - got.length) = (obj.drop f.fileRead).take n := by
      rw [List.take_of_length_le (by simp; omega), List.take_of_length_le (by simp; omega)]
    exact ⟨by rw [hall, htake], hA2, by rw [hall, ← htake, htk]; exact hr2, hc2, by split <;> omega, fun _ => id, fun _ => by omega⟩
  rename_i hB
  cases net with
  | nil =>
    show (0 : Nat) + _ < _
    split
    · omega
    · rename_i hb
      have := hne hb
      omega
  | cons g net =>
    simp only []
    have hg := hh g (by simp) (f.fileRead + n) (f.fileRead + n + f.cap - 1)
    rcases hq : g (f.fileRead + n) (f.fileRead + n + f.cap - 1) with _ | ⟨b, r⟩
    · exact ⟨hA2, by omega, by omega, hc2, fun _ hx => List.mem_cons_of_mem _ hx⟩
    · rw [hq] at hg
      simp only [] at hg
      obtain ⟨hb0, hbp, hbl, hbr⟩ := hg
      rw [← hr2] at hbp
      have hp2 := hA2.pos
      have hch : ∃ f3, chunk f2 b r = .ok () f3 ∧ At obj f3 ∧ f3.fileRead = f2.fileRead ∧ f3.cap = f2.cap ∧ f3.buf = b := by
        unfold chunk
        rw [if_neg (by simp [hbuf]), if_neg (by omega)]
        simp only []
        split
        · rcases hbr with hbr | ⟨hbr, hbo⟩
          · rw [hbr]; exact ⟨_, rfl, ⟨hp2, hbp, hA2.le, Or.inl rfl⟩, rfl, rfl, rfl⟩
          · rw [hbr]; exact ⟨_, rfl, ⟨hp2, hbp, hA2.le, Or.inl (by rw [hbo])⟩, rfl, rfl, rfl⟩
        · rename_i hz
          refine ⟨_, rfl, ⟨hp2, hbp, hA2.le, ?_⟩, rfl, rfl, rfl⟩
          rcases hA2.size with e | e
          · exact Or.inl e
          · exact absurd e.1 hz
      obtain ⟨f3, e3, hA3, hr3, hc3, hb3⟩ := hch
      simp only []
      rw [e3]
      simp only []
      have hl : net.length < m := by rw [← hm]; simp
      have := ih net.length hl net f3 want (got ++ f.buf.take n) rfl (fun x hx => hh x (List.mem_cons_of_mem _ hx)) hA3
      have hbn : f3.buf ≠ [] := by rw [hb3]; exact hb0
      have hrest : want - (got ++ f.buf.take n).length = want - got.length - n := by omega
      rw [hrest] at this
      have hsplit : (obj.drop f.fileRead).take (want - got.length) = f.buf.take n ++ (obj.drop f3.fileRead).take (want - got.length - n) := by
        have e : want - got.length = n + (want - got.length - n) := by omega
        rw [e, List.take_add, ← htake, List.drop_drop, hr3, hr2]
        congr 2
        omega
      revert this
      rcases readOne f3 want (got ++ f.buf.take n) net with ⟨o, net'⟩
      cases o with
      | pending =>
        intro hx
        have hx : net.length + (if f3.buf = [] then 0 else 1) < want - got.length - n := hx
        rw [if_neg hbn] at hx
        show (g :: net).length + _ < _
        rw [List.length_cons]
        split
        · omega
        · rename_i hb
          have := hne hb
          omega
      | abort => exact id
      | overflow => exact id
      | error f4 =>
        rintro ⟨x1, x2, x3, x4, x5⟩
        exact ⟨x1, by omega, by omega, by omega, fun y hy => List.mem_cons_of_mem _ (x5 y hy)⟩
      | ok q f4 =>
        rintro ⟨x1, x2, x3, x4, x5, x6, x7⟩
        refine ⟨by rw [x1, hsplit, List.append_assoc], x2, ?_, by omega, ?_, fun y hy => List.mem_cons_of_mem _ (x6 y hy), fun _ => x7 (by omega)⟩
        · rw [hsplit, List.length_append, htk]; omega
        · rw [List.length_cons]
          rw [if_neg (fun hx => hx.elim hbn (by omega))] at x5
          split
          · omega
          · rename_i hb
            have := hne (fun e => hb (Or.inl e))
            omega

theorem take_sum (l : List Byte) (a b : Nat) (h : l.length < a → (l.take a).length = l.length) : l.take (a + b) = l.take a ++ (l.drop (l.take a).length).take b := by
  rcases Nat.lt_or_ge l.length a with hl | hl
  · rw [h hl, List.drop_length, List.take_of_length_le (by omega), List.take_of_length_le (by omega)]; simp
  · have e : (l.take a).length = a := by rw [List.length_take]; omega
    rw [e, List.take_add]

theorem read_spec (obj : List Byte) (off : Nat) : ∀ (wants : List Nat) (f : RFile) (net : Net) (got : List Byte), (∀ g ∈ net, Honest obj g) → At obj f →
    match read f off wants net got with
    | (.pending, _) => net.length < wants.sum
    | (.abort, _) => False
    | (.overflow, _) => False
    | (.error f', net') => At obj f' ∧ f.fileRead ≤ f'.fileRead ∧ f'.fileRead < f.fileRead + wants.sum ∧ (∀ g ∈ net', g ∈ net)
    | (.ok g f', net') => g = got ++ (obj.drop f.fileRead).take wants.sum ∧ At obj f' ∧ f'.fileRead = f.fileRead + ((obj.drop f.fileRead).take wants.sum).length ∧
        net.length ≤ net'.length + wants.sum ∧ (∀ g ∈ net', g ∈ net) ∧ (0 < wants.sum → f'.fileSize = obj.length) ∧ (wants.sum = 0 → f' = f)
  | [], f, net, got, hh, h => by
    unfold read
    exact ⟨by simp, h, by simp, by simp, fun _ => id, fun hc => by simp at hc, fun _ => rfl⟩
  | w :: ws, f, net, got, hh, h => by
    have h1 := readOne_spec obj net.length net f w [] rfl hh h
    have h0 : w = 0 → readOne f w [] net = (.ok [] f, net) := by
      rintro rfl
      unfold readOne
      split <;> simp
    unfold read
    rw [List.length_nil, Nat.sub_zero] at h1
    revert h1 h0
    rcases readOne f w [] net with ⟨o, net1⟩
    rw [List.sum_cons]
    cases o with
    | pending =>
      intro x _
      have x : net.length + (if f.buf = [] then 0 else 1) < w := x
      show net.length < _
      omega
    | abort => exact fun x _ => x
    | overflow => exact fun x _ => x
    | error f1 =>
      rintro ⟨x1, x2, x3, _, x5⟩ _
      exact ⟨x1, x2, by omega, x5⟩
    | ok g f1 =>
      rintro ⟨x1, x2, x3, _, x5, x6, x7⟩ h0
      rw [List.nil_append] at x1
      have := read_spec obj off ws f1 net1 (got ++ g) (fun y hy => hh y (x6 y hy)) x2
      have hsum : (obj.drop f.fileRead).take (w + ws.sum) = g ++ (obj.drop f1.fileRead).take ws.sum := by
        rw [take_sum _ _ _ (fun hl => by rw [List.length_take]; omega), ← x1, List.drop_drop, x3, ← x1]
      have hw : f1.fileRead ≤ f.fileRead + w := by rw [x3, List.length_take]; omega
      simp only []
      revert this
      rcases read f1 off ws net1 (got ++ g) with ⟨o, net2⟩
      cases o with
      | pending =>
        intro x
        have x : net1.length < ws.sum := x
        show net.length < _
        split at x5 <;> omega
      | abort => exact id
      | overflow => exact id
      | error f2 =>
        rintro ⟨y1, y2, y3, y4⟩
        exact ⟨y1, by omega, by omega, fun z hz => x6 z (y4 z hz)⟩
      | ok q f2 =>
        rintro ⟨y1, y2, y3, y4, y5, y6, y7⟩
        refine ⟨by rw [y1, hsum, List.append_assoc], y2, ?_, by split at x5 <;> omega, fun z hz => x6 z (y5 z hz), fun hp => ?_, fun hz => ?_⟩
        · rw [hsum, List.length_append, y3, x3, ← x1]; omega
        · rcases Nat.eq_zero_or_pos ws.sum with e | e
          · rw [y7 e]; exact x7 (by omega)
          · exact y6 e
        · have e := h0 (by omega)
          rw [y7 (by omega)]
          cases e; rfl

theorem openR_at (obj : List Byte) {cap : Nat} (h : 0 < cap) : At obj (openR cap) := ⟨h, List.nil_prefix, Nat.zero_le _, Or.inr ⟨rfl, rfl⟩⟩

end Verif.S3File
