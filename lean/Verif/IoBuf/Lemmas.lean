import Verif.IoBuf.Spec
namespace Verif.IoBuf

/-- Representation relation. -/
structure Rep (b : Buf) (q : List UInt8) : Prop where
  h1 : b.offs ≤ b.size
  h2 : b.size ≤ b.cap
  hl : q.length = b.size - b.offs
  hn : b.buf = none → b.cap = 0
  hm : ∀ m, b.buf = some m → m.length = b.cap ∧ (m.drop b.offs).take (b.size - b.offs) = q.map some

theorem bitCeil_spec {n p : Nat} (h : bitCeil n = some p) : IsBitCeil n p := by
  unfold bitCeil at h
  split at h
  · cases h
    exact ⟨⟨0, rfl⟩, by omega, fun k _ => Nat.one_le_two_pow⟩
  · split at h
    · cases h
      have hne : n - 1 ≠ 0 := by omega
      refine ⟨⟨_, rfl⟩, ?_, ?_⟩
      · have := Nat.lt_log2_self (n := n - 1)
        omega
      · intro k hk
        apply Nat.pow_le_pow_right (by decide)
        have h2 := Nat.log2_self_le hne
        have : 2 ^ (n - 1).log2 < 2 ^ k := by omega
        exact (Nat.pow_lt_pow_iff_right (by decide)).mp this
    · cases h

theorem bitCeil_def {n : Nat} (h : n ≤ 2 ^ 63) : ∃ p, bitCeil n = some p := by
  unfold bitCeil
  split
  · exact ⟨_, rfl⟩
  · exact ⟨_, rfl⟩

theorem load_of_rep {b : Buf} {q : List UInt8} (h : Rep b q) {m : List Cell} (hb : b.buf = some m) :
    load m b.offs (b.size - b.offs) = some (q.map some) := by
  have ⟨hml, hmq⟩ := h.hm m hb
  have := h.h1; have := h.h2
  unfold load
  rw [if_pos (by omega), hmq]

theorem input_of_rep {b : Buf} {q : List UInt8} (h : Rep b q) : b.input = some (q.map some) := by
  unfold Buf.input
  cases hb : b.buf with
  | none =>
    have := h.hn hb; have := h.h2; have := h.hl
    have hq : q = [] := List.eq_nil_of_length_eq_zero (by omega)
    have : b.inputLen = 0 := by unfold Buf.inputLen; omega
    simp [this, hq]
  | some m => exact load_of_rep h hb

theorem reallocate_rep {b : Buf} {q : List UInt8} (h : Rep b q) {c : Nat} (hc : q.length ≤ c) :
    ∃ b', b.reallocate c = some b' ∧ Rep b' q ∧ b'.cap = c ∧ b'.gen = b.gen + 1
      ∧ b'.size = q.length ∧ b'.buf.isSome := by
  have h1 := h.h1; have h2 := h.h2; have hl := h.hl
  unfold Buf.reallocate
  cases hb : b.buf with
  | none =>
    have := h.hn hb
    have hq : q = [] := List.eq_nil_of_length_eq_zero (by omega)
    subst hq
    refine ⟨_, rfl, ⟨h1, ?_, ?_, ?_, ?_⟩, rfl, rfl, ?_, rfl⟩
    · simp; omega
    · simp; omega
    · intro e; cases e
    · intro m hm
      simp only [Option.some.injEq] at hm
      subst hm
      refine ⟨by simp, ?_⟩
      have : b.size - b.offs = 0 := by omega
      simp [this]
    · simp; omega
  | some m =>
    simp only
    split
    · rename_i hlt
      rw [load_of_rep h hb]
      simp only
      unfold store
      rw [if_pos (by simp; omega)]
      refine ⟨_, rfl, ⟨?_, ?_, ?_, ?_, ?_⟩, rfl, rfl, ?_, rfl⟩
      · exact Nat.zero_le _
      · simp only; omega
      · simp only; omega
      · intro e; cases e
      · intro m' hm'
        simp only [Option.some.injEq] at hm'
        subst hm'
        refine ⟨?_, ?_⟩
        · simp; omega
        · simp only [List.take_zero, List.nil_append, List.drop_zero, Nat.sub_zero]
          rw [List.take_append_of_le_length (by simp; omega), List.take_of_length_le (by simp; omega)]
      · simp only; omega
    · have hq : q = [] := List.eq_nil_of_length_eq_zero (by omega)
      subst hq
      refine ⟨_, rfl, ⟨?_, ?_, ?_, ?_, ?_⟩, rfl, rfl, rfl, rfl⟩
      · exact Nat.zero_le _
      · exact Nat.zero_le _
      · rfl
      · intro e; cases e
      · intro m' hm'
        simp only [Option.some.injEq] at hm'
        subst hm'
        simp

theorem reserve_rep {b : Buf} {q : List UInt8} (h : Rep b q) {n : Nat} (hn : n ≤ 2 ^ 63) :
    ∃ b', b.reserve n = some b' ∧ Rep b' q ∧ n ≤ b'.cap ∧ b.cap ≤ b'.cap
      ∧ (n < b.cap → b' = b) ∧ (b.cap ≤ n → IsBitCeil n b'.cap ∧ b'.gen = b.gen + 1
      ∧ b'.size = q.length ∧ b'.buf.isSome) := by
  unfold Buf.reserve
  split
  · exact ⟨b, rfl, h, by omega, by omega, fun _ => rfl, fun _ => by omega⟩
  · rename_i hge
    obtain ⟨p, hp⟩ := bitCeil_def hn
    have hs := bitCeil_spec hp
    rw [hp]
    simp only
    have h1 := h.h1; have h2 := h.h2; have hl := h.hl
    obtain ⟨b', hb', hr, hc, hg, hsz, hbuf⟩ := reallocate_rep h (c := p) (by have := hs.2.1; omega)
    refine ⟨b', hb', hr, by rw [hc]; exact hs.2.1, by have := hs.2.1; omega, fun _ => by omega,
      fun _ => ⟨by rw [hc]; exact hs, hg, hsz, hbuf⟩⟩

theorem ensure_rep {b : Buf} {q : List UInt8} (h : Rep b q) {n : Nat} (hn : b.size + n ≤ 2 ^ 63) :
    ∃ b', b.ensureCapacity n = some b' ∧ Rep b' q ∧ n ≤ b'.appendLen
      ∧ (n ≤ b.appendLen → b' = b) ∧ (b'.buf = none → n = 0) := by
  have h1 := h.h1; have h2 := h.h2; have hl := h.hl
  unfold Buf.ensureCapacity
  split
  · rename_i hgt
    obtain ⟨b', hb', hr, hc, _, hlt, hge⟩ := reserve_rep h hn
    have : b.cap ≤ b.size + n := by unfold Buf.appendLen at hgt; omega
    obtain ⟨_, _, hsz, hbuf⟩ := hge this
    refine ⟨b', hb', hr, ?_, fun _ => by omega, ?_⟩
    · unfold Buf.appendLen; omega
    · intro e; rw [e] at hbuf; simp at hbuf
  · rename_i hle
    refine ⟨b, rfl, h, by omega, fun _ => rfl, ?_⟩
    intro e
    have := h.hn e
    unfold Buf.appendLen at hle
    omega

theorem fill_rep {b : Buf} {q bs : List UInt8} (h : Rep b q) (hn : bs.length ≤ b.appendLen) :
    ∃ b', b.fillAndCommit bs = some b' ∧ Rep b' (q ++ bs) ∧ b'.gen = b.gen ∧ b'.cap = b.cap := by
  have h1 := h.h1; have h2 := h.h2; have hl := h.hl
  unfold Buf.appendLen at hn
  unfold Buf.fillAndCommit
  cases hb : b.buf with
  | none =>
    have := h.hn hb
    have hbs : bs = [] := List.eq_nil_of_length_eq_zero (by omega)
    subst hbs
    exact ⟨b, by simp, by simpa using h, rfl, rfl⟩
  | some m =>
    obtain ⟨hml, hmq⟩ := h.hm m hb
    simp only
    unfold store
    rw [if_pos (by simp; omega)]
    refine ⟨_, rfl, ⟨?_, ?_, ?_, ?_, ?_⟩, rfl, rfl⟩
    · simp only; omega
    · simp only; omega
    · simp only [List.length_append]; omega
    · intro e; cases e
    · intro m' hm'
      simp only [Option.some.injEq] at hm'
      subst hm'
      refine ⟨?_, ?_⟩
      · simp; omega
      · simp only
        rw [List.drop_append_of_le_length (by simp; omega),
          List.drop_append_of_le_length (by simp; omega)]
        have e1 : b.size + bs.length - b.offs = (b.size - b.offs) + bs.length := by omega
        rw [List.take_append_of_le_length (by simp; omega)]
        rw [List.take_of_length_le (by simp; omega)]
        rw [List.map_append, ← hmq, List.drop_take]

theorem compact_rep {b : Buf} {q : List UInt8} (h : Rep b q) :
    ∃ b', b.compact = some b' ∧ Rep b' q ∧ b'.gen = b.gen ∧ b'.cap = b.cap ∧ b'.offs = 0 := by
  have h1 := h.h1; have h2 := h.h2; have hl := h.hl
  unfold Buf.compact
  split
  · cases hb : b.buf with
    | none => have := h.hn hb; omega
    | some m =>
      obtain ⟨hml, hmq⟩ := h.hm m hb
      simp only
      rw [load_of_rep h hb]
      simp only
      unfold store
      rw [if_pos (by simp; omega)]
      refine ⟨_, rfl, ⟨?_, ?_, ?_, ?_, ?_⟩, rfl, rfl, rfl⟩
      · exact Nat.zero_le _
      · simp only; omega
      · simp only; omega
      · intro e; cases e
      · intro m' hm'
        simp only [Option.some.injEq] at hm'
        subst hm'
        refine ⟨?_, ?_⟩
        · simp; omega
        · simp only [List.take_zero, List.nil_append, List.drop_zero, Nat.sub_zero]
          rw [List.take_append_of_le_length (by simp; omega),
            List.take_of_length_le (by simp; omega)]
  · exact ⟨b, rfl, h, rfl, rfl, by omega⟩

theorem consume_rep {b : Buf} {q : List UInt8} (h : Rep b q) (n : Nat) :
    ∃ b', b.consumeInput n = some b' ∧ Rep b' (q.drop n) ∧ b'.gen = b.gen ∧ b'.cap = b.cap := by
  have h1 := h.h1; have h2 := h.h2; have hl := h.hl
  unfold Buf.consumeInput
  split
  · rw [List.drop_eq_nil_of_le (by omega)]
    refine ⟨_, rfl, ⟨Nat.le_refl _, Nat.zero_le _, by simp, h.hn, ?_⟩, rfl, rfl⟩
    intro m hm
    exact ⟨(h.hm m hm).1, by simp⟩
  · have hr : Rep { b with offs := b.offs + n } (q.drop n) := by
      refine ⟨?_, h2, ?_, h.hn, ?_⟩
      · simp only; omega
      · simp only [List.length_drop]; omega
      · intro m hm
        obtain ⟨hml, hmq⟩ := h.hm m hm
        refine ⟨hml, ?_⟩
        simp only
        rw [List.map_drop, ← hmq, List.drop_take, List.drop_drop]
        congr 1
        omega
    simp only
    split
    · obtain ⟨b', hb', hr', hg, hc, _⟩ := compact_rep hr
      exact ⟨b', hb', hr', hg, hc⟩
    · exact ⟨_, rfl, hr, rfl, rfl⟩

theorem shrink_rep {b : Buf} {q : List UInt8} (h : Rep b q) {t : Nat} (ht : t ≤ 2 ^ 63) :
    ∃ r b', b.shrinkTo t = some (r, b') ∧ Rep b' q ∧
      (r = true ↔ ∃ p, IsBitCeil t p ∧ t < b.cap ∧ p < b.cap ∧ q.length ≤ p) ∧
      (r = true → IsBitCeil t b'.cap ∧ b'.gen = b.gen + 1) ∧ (r = false → b' = b) := by
  have h1 := h.h1; have h2 := h.h2; have hl := h.hl
  have huniq : ∀ {p p'}, IsBitCeil t p → IsBitCeil t p' → p = p' := by
    rintro p p' ⟨⟨k, rfl⟩, a, c⟩ ⟨⟨k', rfl⟩, a', c'⟩
    have := c k' a'; have := c' k a
    omega
  unfold Buf.shrinkTo
  split
  · refine ⟨false, b, rfl, h, ?_, ?_, fun _ => rfl⟩
    · simp only [Bool.false_eq_true, false_iff]
      rintro ⟨p, _, hlt, _⟩; omega
    · simp
  · obtain ⟨p, hp⟩ := bitCeil_def ht
    have hs := bitCeil_spec hp
    rw [hp]
    simp only
    split
    · rename_i hor
      refine ⟨false, b, rfl, h, ?_, ?_, fun _ => rfl⟩
      · simp only [Bool.false_eq_true, false_iff]
        rintro ⟨p', hs', hlt, h3, h4⟩
        rw [← huniq hs hs'] at h3 h4
        unfold Buf.inputLen at hor
        omega
      · simp
    · rename_i hor
      unfold Buf.inputLen at hor
      obtain ⟨b', hb', hr, hc, hg, _, _⟩ := reallocate_rep h (c := p) (by omega)
      rw [hb']
      refine ⟨true, b', rfl, hr, ?_, fun _ => ⟨by rw [hc]; exact hs, hg⟩, by simp⟩
      simp only [true_iff]
      exact ⟨p, hs, by omega, by omega, by omega⟩

theorem create_rep {c : Nat} (h0 : 0 < c) (hc : c ≤ 2 ^ 63) :
    ∃ b, create c = some b ∧ Rep b [] := by
  have hnull : Rep Buf.null [] := ⟨Nat.le_refl _, Nat.le_refl _, rfl, fun _ => rfl, fun m hm => by cases hm⟩
  obtain ⟨b, hb, hr, _⟩ := reserve_rep hnull hc
  exact ⟨b, by rw [create, if_pos h0, hb], hr⟩

theorem step_rep {b : Buf} {q : List UInt8} (h : Rep b q) (op : Op) (hp : pre b op) :
    ∃ b', b.step op = some ((specStep q op).1, b') ∧ Rep b' (specStep q op).2 := by
  cases op with
  | writeAndCommit bs =>
    obtain ⟨b1, hb1, hr1, ha, _⟩ := ensure_rep h hp
    obtain ⟨b2, hb2, hr2, _⟩ := fill_rep hr1 ha
    exact ⟨b2, by simp [Buf.step, Buf.writeAndCommit, hb1, hb2, specStep], hr2⟩
  | fillAndCommit bs =>
    obtain ⟨b2, hb2, hr2, _⟩ := fill_rep h hp
    exact ⟨b2, by simp [Buf.step, hb2, specStep], hr2⟩
  | consumeInput n =>
    obtain ⟨b2, hb2, hr2, _⟩ := consume_rep h n
    exact ⟨b2, by simp [Buf.step, hb2, specStep], hr2⟩
  | readAndConsume n =>
    obtain ⟨b2, hb2, hr2, _⟩ := consume_rep h n
    have hl := h.hl
    simp only [pre, Buf.inputLen] at hp
    refine ⟨b2, ?_, hr2⟩
    simp only [Buf.step, Buf.readAndConsume, input_of_rep h]
    rw [if_pos (by simp; omega), hb2]
    simp [specStep, List.map_take]
  | ensureCapacity n =>
    obtain ⟨b1, hb1, hr1, _⟩ := ensure_rep h hp
    exact ⟨b1, by simp [Buf.step, hb1, specStep], hr1⟩
  | reserve n =>
    obtain ⟨b1, hb1, hr1, _⟩ := reserve_rep h hp
    exact ⟨b1, by simp [Buf.step, hb1, specStep], hr1⟩
  | shrinkTo n =>
    obtain ⟨r, b1, hb1, hr1, _⟩ := shrink_rep h hp
    exact ⟨b1, by simp [Buf.step, hb1, specStep], hr1⟩
  | compact =>
    obtain ⟨b1, hb1, hr1, _⟩ := compact_rep h
    exact ⟨b1, by simp [Buf.step, hb1, specStep], hr1⟩
  | clear =>
    refine ⟨b.clear, rfl, ⟨Nat.le_refl _, Nat.zero_le _, rfl, h.hn, ?_⟩⟩
    intro m hm
    exact ⟨(h.hm m hm).1, by simp [Buf.clear, specStep]⟩
  | inputBuffer =>
    exact ⟨b, by simp [Buf.step, input_of_rep h, specStep], h⟩

theorem run_rep (ops : List Op) : ∀ {b : Buf} {q : List UInt8}, Rep b q → Valid b ops →
    ∃ b', Common.run Buf.step b ops = some ((specRun q ops).1, b') ∧ Rep b' (specRun q ops).2 := by
  induction ops with
  | nil => intro b q h _; exact ⟨b, rfl, h⟩
  | cons op ops ih =>
    intro b q h hv
    obtain ⟨b1, hb1, hr1⟩ := step_rep h op hv.1
    obtain ⟨b2, hb2, hr2⟩ := ih hr1 (hv.2 _ _ hb1)
    exact ⟨b2, by simp [Common.run, hb1, hb2, specRun], hr2⟩

end Verif.IoBuf
