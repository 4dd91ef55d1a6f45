import Verif.Cloud.Model
/-! C42: cloud storage writers upload exactly what was written. -/
namespace Verif.Cloud

/-- A new writer (`part_num_` and `block_id_` start at 1, `uploaded_` at 0). -/
def create (kind : Kind) (max : Nat) : Writer := ⟨kind, max, [], if kind = .gcs then 0 else 1, []⟩

/-- The bytes of the parts the service has acknowledged, in order. -/
def content (ps : List Part) : List Byte := ps.flatMap Part.body

/-- The label of part `i` (from 0): its number for S3 and Azure, its position in the object for GCS. -/
def label (kind : Kind) (max i : Nat) : Nat := match kind with
  | .gcs => i * max
  | _ => 1 + i

/-- The writer after `written` was written without errors. -/
structure Inv (w : Writer) (written : List Byte) : Prop where
  pos : 0 < w.max
  room : w.buf.length < w.max
  all : content w.sent ++ w.buf = written
  full : ∀ p ∈ w.sent, p.body.length = w.max
  labels : w.sent.map Part.num = (List.range w.sent.length).map (label w.kind w.max)
  next : w.next = label w.kind w.max w.sent.length
  gran : w.kind = .gcs → w.max % 2 ^ 18 = 0

theorem create_inv (kind : Kind) (max : Nat) (h : 0 < max) (hg : kind = .gcs → max % 2 ^ 18 = 0) : Inv (create kind max) [] :=
  ⟨h, h, rfl, by simp [create], rfl, by cases kind <;> simp [create, label], hg⟩

theorem content_append (a b : List Part) : content (a ++ b) = content a ++ content b := by simp [content]

/-- Filling a buffer. -/
theorem fillBuf_spec : ∀ (n : Nat) (w : Writer) (written data : List Byte) (net : Net), data.length ≤ n → Inv w written →
    (match (fillBuf w data net).1 with
     | .abort => False
     | .ok _ w' => Inv w' (written ++ data) ∧ w'.kind = w.kind ∧ w'.max = w.max
     | .error w' => content w'.sent <+: written ++ data ∧ false ∈ net) := by
  intro n
  induction n with
  | zero =>
    intro w written data net hn hI
    have : data = [] := by simpa using hn
    subst this
    unfold fillBuf
    have := hI.room
    rw [if_neg (by simp; omega)]
    simpa using hI
  | succ n ih =>
    intro w written data net hn hI
    unfold fillBuf
    have hroom := hI.room
    by_cases hc : w.max - w.buf.length ≤ data.length
    · rw [if_pos hc]
      simp only
      have hlen : (w.buf ++ data.take (w.max - w.buf.length)).length = w.max := by simp; omega
      unfold upload
      simp only
      have hpos := hI.pos
      rw [if_neg (by omega), if_neg (by rw [hlen]; rintro ⟨h1, h2⟩; exact h2 (hI.gran h1))]
      have hpre : content w.sent ++ (w.buf ++ data.take (w.max - w.buf.length)) = written ++ data.take (w.max - w.buf.length) := by
        rw [← List.append_assoc, hI.all]
      by_cases hok : net.headD true = true
      · rw [if_pos hok]
        simp only
        rw [dif_pos ⟨by omega, hc⟩]
        have hnext : (match w.kind with
            | .s3 => w.next + 1
            | .gcs => w.next + (w.buf ++ data.take (w.max - w.buf.length)).length
            | .azure => w.next + 1) = label w.kind w.max (w.sent.length + 1) := by
          have hx := hI.next
          rw [hlen]
          cases hk : w.kind <;> rw [hk] at hx <;> simp only [label] at hx ⊢
          · omega
          · rw [hx, Nat.add_mul, Nat.one_mul]
          · omega
        have hI' : Inv { w with
            buf := []
            next := (match w.kind with
              | .s3 => w.next + 1
              | .gcs => w.next + (w.buf ++ data.take (w.max - w.buf.length)).length
              | .azure => w.next + 1)
            sent := w.sent ++ [⟨w.next, w.buf ++ data.take (w.max - w.buf.length)⟩] } (written ++ data.take (w.max - w.buf.length)) := by
          refine ⟨hpos, hpos, ?_, ?_, ?_, ?_, hI.gran⟩
          · simp only [content_append, List.append_nil]
            rw [← hpre]; simp [content]
          · intro p hp
            simp only [List.mem_append, List.mem_singleton] at hp
            rcases hp with hp | rfl
            · exact hI.full p hp
            · exact hlen
          · simp only [List.map_append, List.length_append, List.length_singleton, List.range_succ, hI.labels, List.map_cons, List.map_nil]
            rw [hI.next]
          · refine hnext.trans ?_
            show _ = label w.kind w.max (w.sent ++ [_]).length
            rw [List.length_append]; rfl
        have h := ih _ _ (data.drop (w.max - w.buf.length)) net.tail (by simp; omega) hI'
        rw [List.append_assoc, List.take_append_drop] at h
        revert h
        generalize fillBuf _ _ _ = r
        obtain ⟨o, r2⟩ := r
        cases o with
        | abort => exact id
        | ok a w' => exact id
        | error w' => rintro ⟨h1, h2⟩; exact ⟨h1, List.mem_of_mem_tail h2⟩
      · rw [if_neg hok]
        simp only
        refine ⟨?_, ?_⟩
        · rw [← hI.all, List.append_assoc]; exact List.prefix_append _ _
        · cases net with
          | nil => simp at hok
          | cons b net => simp at hok; simp [hok]
    · rw [if_neg hc]
      refine ⟨⟨hI.pos, by simp; omega, ?_, hI.full, hI.labels, hI.next, hI.gran⟩, rfl, rfl⟩
      rw [← List.append_assoc, hI.all]

/-- C42: one buffer is taken over completely, for every content and every position of the part boundary; only a failing request makes
it report an error, and then what the service has is a prefix of what was written. -/
theorem C42_fill_buf (w : Writer) (written data : List Byte) (net : Net) (h : Inv w written) :
    match (fillBuf w data net).1 with
    | .abort => False
    | .ok _ w' => Inv w' (written ++ data) ∧ w'.kind = w.kind ∧ w'.max = w.max
    | .error w' => content w'.sent <+: written ++ data ∧ false ∈ net := fillBuf_spec data.length w written data net (Nat.le_refl _) h

/-- C42, as far as it holds: a vectored write with one entry adds exactly its bytes and reports their number. -/
theorem C42_write_some_partial (w : Writer) (written data : List Byte) (net : Net) (h : Inv w written) :
    match (writeSome w [data] net).1 with
    | .abort => False
    | .ok n w' => n = data.length ∧ Inv w' (written ++ data) ∧ w'.kind = w.kind ∧ w'.max = w.max
    | .error w' => content w'.sent <+: written ++ data ∧ false ∈ net := by
  have hf := C42_fill_buf w written data net h
  unfold writeSome
  simp only [List.headD_cons, List.length_singleton, writeSomeLoop]
  revert hf
  generalize fillBuf w data net = r
  obtain ⟨o, net'⟩ := r
  cases o with
  | abort => exact id
  | error w' => exact id
  | ok a w' => intro hf; exact ⟨by omega, hf⟩

/-- What several entries do: the first one is written as many times as there are entries. -/
theorem C42_write_some_repeats_first (w : Writer) (written v : List Byte) (vs : List (List Byte)) (net : Net) (h : Inv w written) :
    match (writeSome w (v :: vs) net).1 with
    | .abort => False
    | .ok n w' => n = (vs.length + 1) * v.length ∧ Inv w' (written ++ (List.replicate (vs.length + 1) v).flatten)
    | .error _ => false ∈ net := by
  have key : ∀ (k tot : Nat) (w : Writer) (written : List Byte) (net : Net), Inv w written →
      match (writeSomeLoop v k w net tot).1 with
      | .abort => False
      | .ok n w' => n = tot + k * v.length ∧ Inv w' (written ++ (List.replicate k v).flatten)
      | .error _ => false ∈ net := by
    intro k
    induction k with
    | zero => intro tot w written net h; simp [writeSomeLoop]; simpa using h
    | succ k ih =>
      intro tot w written net h
      have hf := C42_fill_buf w written v net h
      have hnet : ∀ x, x ∈ (fillBuf w v net).2 → x ∈ net := by
        intro x hx
        have gen : ∀ (n : Nat) (w : Writer) (d : List Byte) (net : Net), d.length ≤ n → x ∈ (fillBuf w d net).2 → x ∈ net := by
          intro n
          induction n with
          | zero =>
            intro w d net hd hx
            have : d = [] := by simpa using hd
            subst this
            unfold fillBuf at hx
            split at hx
            · simp only at hx
              split at hx
              · exact List.mem_of_mem_tail hx
              · exact List.mem_of_mem_tail hx
              · rw [dif_neg (by simp; omega)] at hx; exact List.mem_of_mem_tail hx
            · exact hx
          | succ n ih =>
            intro w d net hd hx
            unfold fillBuf at hx
            split at hx
            · simp only at hx
              split at hx
              · exact List.mem_of_mem_tail hx
              · exact List.mem_of_mem_tail hx
              · split at hx
                · rename_i hh; exact List.mem_of_mem_tail (ih _ _ _ (by simp; omega) hx)
                · exact List.mem_of_mem_tail hx
            · exact hx
        exact gen _ w v net (Nat.le_refl _) hx
      unfold writeSomeLoop
      revert hf hnet
      generalize fillBuf w v net = r
      obtain ⟨o, net'⟩ := r
      cases o with
      | abort => intro hf _; exact hf
      | error w' => intro hf _; exact hf.2
      | ok a w' =>
        intro hf hnet
        have h2 := ih (tot + v.length) w' (written ++ v) net' hf.1
        simp only
        revert h2
        generalize writeSomeLoop v k w' net' (tot + v.length) = r
        obtain ⟨o, net''⟩ := r
        cases o with
        | abort => exact id
        | error w' => intro h2; exact hnet _ h2
        | ok n w'' =>
          rintro ⟨h2, h3⟩
          refine ⟨by rw [h2, Nat.add_mul]; omega, ?_⟩
          rw [List.replicate_succ, List.flatten_cons, ← List.append_assoc]; exact h3
  have := key (vs.length + 1) 0 w written net h
  simpa [writeSome] using this

/-- C42 is false as stated: writing "ab" and "cd" in one call stores "abab". -/
theorem C42_write_some_refuted : writeSome (create .s3 100) [[97, 98], [99, 100]] [] = (.ok 4 ⟨.s3, 100, [97, 98, 97, 98], 1, []⟩, []) := by
  simp [writeSome, writeSomeLoop, fillBuf, create]

/-! ## Whole histories -/

/-- Writes one after the other, each with one entry, until one fails. -/
def writes (w : Writer) : List (List Byte) → Net → Out Unit × Net
  | [], net => (.ok () w, net)
  | d :: ds, net =>
    match writeSome w [d] net with
    | (.abort, net) => (.abort, net)
    | (.error w, net) => (.error w, net)
    | (.ok _ w, net) => writes w ds net

theorem writes_inv : ∀ (ds : List (List Byte)) (w : Writer) (written : List Byte) (net net' : Net) (w' : Writer), Inv w written →
    writes w ds net = (.ok () w', net') → Inv w' (written ++ ds.flatten) ∧ w'.kind = w.kind ∧ w'.max = w.max := by
  intro ds
  induction ds with
  | nil => intro w written net net' w' h hw; simp [writes] at hw; rw [← hw.1]; simpa using h
  | cons d ds ih =>
    intro w written net net' w' h hw
    have h1 := C42_write_some_partial w written d net h
    unfold writes at hw
    revert h1 hw
    generalize writeSome w [d] net = r
    obtain ⟨o, n2⟩ := r
    cases o with
    | abort => intro h1 _; exact h1.elim
    | error w2 => intro _ hw; simp at hw
    | ok a w2 =>
      intro h1 hw
      obtain ⟨h2, h3, h4⟩ := ih w2 (written ++ d) n2 net' w' h1.2.1 hw
      rw [List.flatten_cons, ← List.append_assoc]
      exact ⟨h2, h3.trans h1.2.2.1, h4.trans h1.2.2.2⟩

/-- The object the service makes of the parts: those the final request names, in the order it names them, and its own body. -/
def object (parts : List Part) (f : Final) : List Byte :=
  (f.named.flatMap (fun n => ((parts.filter (fun p => p.num == n)).head?.map Part.body).getD [])) ++ (f.last.map Part.body).getD []

theorem named_content (parts : List Part) (h : (parts.map Part.num).Nodup) :
    (parts.map Part.num).flatMap (fun n => ((parts.filter (fun p => p.num == n)).head?.map Part.body).getD []) = content parts := by
  have gen : ∀ (l all : List Part), (∀ p ∈ l, (all.filter (fun q => q.num == p.num)).head? = some p) →
      (l.map Part.num).flatMap (fun n => ((all.filter (fun p => p.num == n)).head?.map Part.body).getD []) = content l := by
    intro l
    induction l with
    | nil => intro all _; rfl
    | cons p l ih =>
      intro all hh
      simp only [List.map_cons, List.flatMap_cons, content]
      rw [hh p (by simp), ih all (fun q hq => hh q (by simp [hq]))]
      rfl
  apply gen
  induction parts with
  | nil => simp
  | cons p ps ih =>
    intro q hq
    rw [List.map_cons, List.nodup_cons] at h
    simp only [List.mem_cons] at hq
    by_cases e : p.num = q.num
    · rcases hq with rfl | hq
      · simp
      · exact absurd (List.mem_map.2 ⟨q, hq, e.symm⟩) h.1
    · rcases hq with rfl | hq
      · exact absurd rfl e
      · rw [List.filter_cons_of_neg (by simpa using e)]; exact ih h.2 q hq

theorem labels_nodup (kind : Kind) (max n : Nat) (h : 0 < max) : ((List.range n).map (label kind max)).Nodup := by
  apply List.Pairwise.map _ _ List.nodup_range
  intro a b hab he
  cases kind <;> simp only [label] at he
  · omega
  · exact hab (Nat.eq_of_mul_eq_mul_right h he)
  · omega

theorem range_map_add (n : Nat) : (List.range n).map (fun i => 1 + i) = List.range' 1 n := by
  rw [List.range'_eq_map_range]

/-- C42 for whole histories: if all writes succeed and closing succeeds, the object is the concatenation of everything written, for S3,
GCS and Azure; GCS is also told the right size, and every part but the last is a full one. -/
theorem C42_object (kind : Kind) (max : Nat) (hm : 0 < max) (hg : kind = .gcs → max % 2 ^ 18 = 0) (ds : List (List Byte)) (net net' : Net)
    (w w' : Writer) (f : Final) (hw : writes (create kind max) ds net = (.ok () w, net')) (hc : close w net' = .ok f w') :
    object w'.sent f = ds.flatten ∧ (kind = .gcs → f.size = ds.flatten.length) ∧ (∀ p ∈ w'.sent.dropLast, p.body.length = max) := by
  obtain ⟨hI, hk, hmx⟩ := writes_inv ds _ [] net net' w (create_inv kind max hm hg) hw
  rw [List.nil_append] at hI
  have hk' : w.kind = kind := hk
  have hmx' : w.max = max := hmx
  have hnd : (w.sent.map Part.num).Nodup := by rw [hI.labels]; exact labels_nodup _ _ _ hI.pos
  have gcs : kind = .gcs → (object w'.sent f = ds.flatten ∧ (kind = .gcs → f.size = ds.flatten.length) ∧ (∀ p ∈ w'.sent.dropLast, p.body.length = max)) := by
    intro e
    subst e
    unfold close at hc
    rw [if_pos hk'] at hc
    unfold closeGcs at hc
    split at hc
    · simp only [Out.ok.injEq] at hc
      obtain ⟨rfl, rfl⟩ := hc
      simp only
      refine ⟨?_, ?_, ?_⟩
      · unfold object
        simp only
        rw [named_content _ hnd]
        rw [← hI.all]
        by_cases hb : w.buf = []
        · rw [if_pos hb, hb]; rfl
        · rw [if_neg hb]; rfl
      · intro _
        rw [← hI.all, hI.next, hk', List.length_append]
        simp only [label]
        congr 1
        have : ∀ l : List Part, (∀ p ∈ l, p.body.length = w.max) → l.length * w.max = (content l).length := by
          intro l
          induction l with
          | nil => intro _; simp [content]
          | cons p l ih =>
            intro hl
            have := ih (fun q hq => hl q (by simp [hq]))
            simp only [content, List.flatMap_cons, List.length_append, List.length_cons, Nat.add_mul] at this ⊢
            rw [hl p (by simp)]; omega
        exact this _ hI.full
      · intro p hp
        rw [← hmx']; exact hI.full p ((List.dropLast_sublist _).subset hp)
    · simp at hc
  by_cases hgk : kind = .gcs
  · exact gcs hgk
  · have hk2 : w.kind ≠ .gcs := by rw [hk']; exact hgk
    -- after the last upload
    have fin : ∀ (u : Writer), u.kind = kind → content u.sent = ds.flatten → u.sent.map Part.num = (List.range u.sent.length).map (label kind max) →
        u.next = label kind max u.sent.length → ∀ g : Final, g = ⟨if u.kind = .azure then List.range' 1 (u.next - 1) else u.sent.map Part.num, none, 0⟩ →
        object u.sent g = ds.flatten := by
      intro u huk hcont hlab hnx g hgf
      have hnd : (u.sent.map Part.num).Nodup := by rw [hlab]; exact labels_nodup _ _ _ hm
      have hnm : g.named = u.sent.map Part.num := by
        subst hgf
        simp only
        split
        · rename_i ha
          rw [huk] at ha
          subst ha
          rw [hlab, hnx]
          simp only [label]
          rw [show 1 + u.sent.length - 1 = u.sent.length by omega, ← range_map_add]
          rfl
        · rfl
      unfold object
      rw [hnm, named_content _ hnd, hcont]
      subst hgf
      simp
    unfold close at hc
    rw [if_neg hk2] at hc
    unfold closeParts complete at hc
    by_cases hb : w.buf.length > 0
    · rw [if_pos hb] at hc
      unfold upload at hc
      rw [if_neg (by omega), if_neg (by simp [hk2])] at hc
      simp only at hc
      by_cases hok : net'.headD true = true
      · rw [if_pos hok] at hc
        simp only at hc
        split at hc
        · simp only [Out.ok.injEq] at hc
          obtain ⟨hf, hw2⟩ := hc
          refine ⟨?_, fun e => absurd e hgk, ?_⟩
          · refine fin w' (by rw [← hw2]; exact hk') ?_ ?_ ?_ f (by rw [← hf, ← hw2]) <;> rw [← hw2]
            · simp only [content_append]
              rw [← hI.all]; simp [content]
            · simp only [List.map_append, List.length_append, List.length_singleton, List.range_succ, hI.labels, List.map_cons, List.map_nil]
              rw [hI.next, hk', hmx']
            · simp only [List.length_append, List.length_singleton]
              have := hI.next
              rw [hk', hmx'] at this
              rw [hk']
              cases kind <;> simp only [label] at this ⊢
              · omega
              · exact absurd rfl hgk
              · omega
          · intro p hp
            rw [← hw2] at hp
            simp only [List.dropLast_concat] at hp
            rw [← hmx']; exact hI.full p hp
        · simp at hc
      · rw [if_neg hok] at hc; simp at hc
    · rw [if_neg hb] at hc
      split at hc
      · simp only [Out.ok.injEq] at hc
        obtain ⟨rfl, rfl⟩ := hc
        have hb' : w.buf = [] := by simpa using hb
        refine ⟨?_, fun e => absurd e hgk, ?_⟩
        · refine fin w hk' ?_ ?_ ?_ _ rfl
          · rw [← hI.all, hb', List.append_nil]
          · rw [hI.labels, hk', hmx']
          · rw [hI.next, hk', hmx']
        · intro p hp
          rw [← hmx']; exact hI.full p ((List.dropLast_sublist _).subset hp)
      · simp at hc

/-- A history that meets the hypotheses: three writes with parts of 4 bytes. -/
example : (match writes (create .azure 4) [[1, 2, 3], [4, 5, 6, 7, 8, 9], [], [10]] [] with
    | (.ok _ w, net) => (match close w net with
      | .ok f w' => f.named = [1, 2, 3] ∧ object w'.sent f = [1, 2, 3, 4, 5, 6, 7, 8, 9, 10]
      | _ => False)
    | _ => False) := by simp [writes, writeSome, writeSomeLoop, fillBuf, upload, create, close, closeParts, complete, object, List.range']

end Verif.Cloud
