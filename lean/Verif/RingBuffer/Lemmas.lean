import Verif.RingBuffer.Spec
namespace Verif.RingBuffer
variable {α : Type}

/-- Representation relation between a ring and the abstract queue. -/
structure Rep (k : Nat) (r : RB α) (q : List α) : Prop where
  hk : k ≤ 31
  cap : r.cap.toNat = 2 ^ k
  mask : r.mask.toNat = 2 ^ k - 1
  buf : r.buf.length = 2 ^ k
  len : q.length = r.size.toNat
  le : q.length ≤ 2 ^ k
  elem : ∀ i, i < q.length → r.buf[(r.head.toNat + i) % 2 ^ k]? = q[i]?

theorem mod_mod_pow {k : Nat} (hk : k ≤ 31) (x : Nat) : x % 2 ^ 32 % 2 ^ k = x % 2 ^ k :=
  Nat.mod_mod_of_dvd x (Nat.pow_dvd_pow 2 (by omega))

theorem and_mask {k : Nat} {m x : UInt32} (hm : m.toNat = 2 ^ k - 1) :
    (x &&& m).toNat = x.toNat % 2 ^ k := by
  rw [UInt32.toNat_and, hm, Nat.and_two_pow_sub_one_eq_mod]

theorem pow_le31 {k : Nat} (hk : k ≤ 31) : 2 ^ k ≤ 2 ^ 31 := Nat.pow_le_pow_right (by decide) hk

theorem tail_eq {k : Nat} {r : RB α} {q : List α} (h : Rep k r q) :
    r.tail.toNat = (r.head.toNat + q.length) % 2 ^ 32 := by
  have := h.len
  have h1 := r.tail.toNat_lt
  have h2 := r.head.toNat_lt
  simp only [RB.size, UInt32.toNat_sub] at this
  omega

theorem tail_mod {k : Nat} {r : RB α} {q : List α} (h : Rep k r q) :
    r.tail.toNat % 2 ^ k = (r.head.toNat + q.length) % 2 ^ k := by
  rw [tail_eq h, mod_mod_pow h.hk]

theorem full_iff {k : Nat} {r : RB α} {q : List α} (h : Rep k r q) :
    r.full = (q.length == 2 ^ k) := by
  have := h.len
  have hc := h.cap
  unfold RB.full
  unfold RB.size at this
  by_cases e : q.length = 2 ^ k
  · have : r.tail - r.head = r.cap := UInt32.toNat_inj.mp (by omega)
    simp [this, e]
  · have hne : r.tail - r.head ≠ r.cap := fun c => e (by rw [this, c, hc])
    rw [beq_eq_false_iff_ne.mpr hne, beq_eq_false_iff_ne.mpr e]

theorem add_mod_ne {p a i j : Nat} (hi : i < p) (hj : j < p) (hij : i ≠ j) :
    (a + i) % p ≠ (a + j) % p := by
  intro h
  rcases Nat.lt_or_gt_of_ne hij with h1 | h1
  · have := h.symm
    have hd := Nat.sub_mod_eq_zero_of_mod_eq this
    have : a + j - (a + i) = j - i := by omega
    rw [this, Nat.mod_eq_of_lt (by omega)] at hd
    omega
  · have hd := Nat.sub_mod_eq_zero_of_mod_eq h
    have : a + i - (a + j) = i - j := by omega
    rw [this, Nat.mod_eq_of_lt (by omega)] at hd
    omega

/-- Dropping `n` elements from the head. -/
theorem rep_drop {k : Nat} {r : RB α} {q : List α} (h : Rep k r q) (n : UInt32)
    (hn : n.toNat ≤ q.length) : Rep k { r with head := r.head + n } (q.drop n.toNat) := by
  have hk := h.hk
  have hp := pow_le31 hk
  have h2 := r.head.toNat_lt
  have h3 := n.toNat_lt
  have ht := tail_eq h
  refine ⟨h.hk, h.cap, h.mask, h.buf, ?_, ?_, ?_⟩
  · simp only [List.length_drop, RB.size, UInt32.toNat_sub, UInt32.toNat_add, ht]
    have := h.le
    omega
  · simp only [List.length_drop]; have := h.le; omega
  · intro i hi
    simp only [List.length_drop] at hi
    have := h.elem (n.toNat + i) (by omega)
    rw [List.getElem?_drop, ← this]
    simp only [UInt32.toNat_add]
    congr 1
    rw [← Nat.mod_add_mod, mod_mod_pow hk, Nat.mod_add_mod, Nat.add_assoc]

/-- Appending to a ring that is not full. -/
theorem rep_push {k : Nat} {r : RB α} {q : List α} (h : Rep k r q) (hlt : q.length < 2 ^ k)
    (x : α) :
    ∃ r', ({ r with tail := r.tail + 1 } : RB α).store (r.tail &&& r.mask) x = some r' ∧
      Rep k r' (q ++ [x]) := by
  have hk := h.hk
  have hp := pow_le31 hk
  have h2 := r.head.toNat_lt
  have ht := tail_eq h
  have hidx : (r.tail &&& r.mask).toNat = (r.head.toNat + q.length) % 2 ^ k := by
    rw [and_mask h.mask, tail_mod h]
  have hlt' : (r.head.toNat + q.length) % 2 ^ k < 2 ^ k := Nat.mod_lt _ (Nat.two_pow_pos k)
  refine ⟨{ r with tail := r.tail + 1,
                   buf := r.buf.set ((r.head.toNat + q.length) % 2 ^ k) x }, ?_, ?_⟩
  · unfold RB.store
    simp only [hidx, h.buf, hlt', if_true]
  · refine ⟨h.hk, h.cap, h.mask, ?_, ?_, ?_, ?_⟩
    · simp [h.buf]
    · simp only [List.length_append, List.length_singleton, RB.size, UInt32.toNat_sub,
        UInt32.toNat_add, ht, UInt32.toNat_one]
      omega
    · simp only [List.length_append, List.length_singleton]; omega
    · intro i hi
      simp only [List.length_append, List.length_singleton] at hi
      by_cases hiq : i < q.length
      · have hne : (r.head.toNat + q.length) % 2 ^ k ≠ (r.head.toNat + i) % 2 ^ k :=
          add_mod_ne hlt (by omega) (by omega)
        rw [List.getElem?_set_ne hne, List.getElem?_append_left hiq]
        exact h.elem i hiq
      · have : i = q.length := by omega
        subst this
        rw [List.getElem?_set_self (by rw [h.buf]; exact hlt'), List.getElem?_append_right (by omega)]
        simp

/-- One step of the model matches one step of the specification. -/
theorem step_refines {k : Nat} {r : RB α} {q : List α} (h : Rep k r q) (op : Op α) :
    match r.step op, specStep (2 ^ k) q op with
    | none, none => True
    | some (o, r'), some (o', q') => o = o' ∧ Rep k r' q'
    | _, _ => False := by
  have hk := h.hk
  have hp := pow_le31 hk
  have hpos := Nat.two_pow_pos k
  have hfull := full_iff h
  have hlen := h.len
  have hle := h.le
  have hmod : ∀ x, x % 2 ^ k < r.buf.length := fun x => by rw [h.buf]; exact Nat.mod_lt _ hpos
  cases op with
  | tryEmplace x =>
    by_cases e : q.length = 2 ^ k
    · simp only [RB.step, RB.tryEmplace, RB.getTail, hfull, e, beq_self_eq_true, if_true, specStep,
        Bool.false_eq_true, if_false, Option.map]
      exact ⟨trivial, h⟩
    · obtain ⟨r', hs, hr⟩ := rep_push h (by omega) x
      have e' : (q.length == 2 ^ k) = false := by simpa using e
      simp only [RB.step, RB.tryEmplace, RB.getTail, hfull, e', Bool.false_eq_true, if_false, e,
        specStep, hs, Option.map]
      exact ⟨trivial, hr⟩
  | emplaceOrOverride x =>
    by_cases e : q.length = 2 ^ k
    · have hd := rep_drop h 1 (by simp only [UInt32.toNat_one]; omega)
      obtain ⟨r', hs, hr⟩ := rep_push hd (by
        simp only [List.length_drop, UInt32.toNat_one]; omega) x
      simp only [RB.step, RB.emplaceOrOverride, RB.getTail, hfull, e, beq_self_eq_true, if_true,
        specStep]
      simp only [UInt32.toNat_one, List.drop_one] at hr hs
      rw [hs]
      exact ⟨rfl, hr⟩
    · obtain ⟨r', hs, hr⟩ := rep_push h (by omega) x
      have e' : (q.length == 2 ^ k) = false := by simpa using e
      simp only [RB.step, RB.emplaceOrOverride, RB.getTail, hfull, e', Bool.false_eq_true, if_false,
        e, specStep, hs, Option.map]
      exact ⟨trivial, hr⟩
  | tryDeque =>
    cases q with
    | nil =>
      have : r.size = 0 := UInt32.toNat_inj.mp (by simpa using hlen.symm)
      simp only [RB.step, RB.tryDeque, this, if_true, specStep, Option.map]
      exact ⟨trivial, h⟩
    | cons x rest =>
      have hne : ¬ r.size = 0 := by
        intro c
        rw [c] at hlen
        simp at hlen
      have he := h.elem 0 (by simp)
      have hd := rep_drop h 1 (by simp)
      simp only [Nat.add_zero, List.getElem?_cons_zero] at he
      simp only [RB.step, RB.tryDeque, hne, if_false, specStep, and_mask h.mask, he, Option.map]
      simp only [UInt32.toNat_one, List.drop_one, List.tail_cons] at hd
      exact ⟨trivial, hd⟩
  | consumeHead n =>
    by_cases e : n.toNat ≤ q.length
    · have e' : n ≤ r.size := UInt32.le_iff_toNat_le.mpr (by omega)
      simp only [RB.step, RB.consumeHead, e', if_true, specStep, e, Option.map]
      exact ⟨trivial, rep_drop h n e⟩
    · have e' : ¬ n ≤ r.size := fun c => e (by have := UInt32.le_iff_toNat_le.mp c; omega)
      simp only [RB.step, RB.consumeHead, e', if_false, specStep, e, Option.map]
  | get i =>
    have hi32 := i.toNat_lt
    by_cases e : i.toNat < q.length
    · have e' : i < r.size := UInt32.lt_iff_toNat_lt.mpr (by omega)
      have he := h.elem i.toNat e
      have hx : ((r.head + i) &&& r.mask).toNat = (r.head.toNat + i.toNat) % 2 ^ k := by
        rw [and_mask h.mask, UInt32.toNat_add, mod_mod_pow hk]
      simp only [RB.step, RB.get, e', if_true, hx, he, specStep]
      rw [List.getElem?_eq_getElem e]
      exact ⟨rfl, h⟩
    · have e' : ¬ i < r.size := fun c => e (by have := UInt32.lt_iff_toNat_lt.mp c; omega)
      simp only [RB.step, RB.get, e', if_false, specStep,
        List.getElem?_eq_none (by omega : q.length ≤ i.toNat), Option.map]
  | size =>
    simp only [RB.step, specStep, hlen]
    exact ⟨trivial, h⟩
  | full =>
    simp only [RB.step, specStep, hfull]
    exact ⟨trivial, h⟩
  | empty =>
    have ht := tail_eq h
    have h2 := r.head.toNat_lt
    have : r.empty = q.isEmpty := by
      unfold RB.empty
      cases q with
      | nil =>
        have : r.tail = r.head := UInt32.toNat_inj.mp (by simp at ht; omega)
        simp [this]
      | cons x rest =>
        have : r.tail ≠ r.head := by
          intro c
          rw [c] at ht
          simp only [List.length_cons] at ht hle
          omega
        simp [this]
    simp only [RB.step, specStep, this]
    exact ⟨trivial, h⟩

theorem run_refines {k : Nat} (ops : List (Op α)) : ∀ {r : RB α} {q : List α}, Rep k r q →
    (r.run ops).map Prod.fst = (specRun (2 ^ k) q ops).map Prod.fst ∧
    ∀ o r' o' q', r.run ops = some (o, r') → specRun (2 ^ k) q ops = some (o', q') → Rep k r' q' := by
  induction ops with
  | nil =>
    intro r q h
    refine ⟨rfl, ?_⟩
    intro o r' o' q' h1 h2
    simp only [RB.run, specRun, Option.some.injEq, Prod.mk.injEq] at h1 h2
    rw [← h1.2, ← h2.2]; exact h
  | cons op ops ih =>
    intro r q h
    have hs := step_refines h op
    simp only [RB.run, specRun]
    revert hs
    cases r.step op with
    | none =>
      cases specStep (2 ^ k) q op with
      | none => simp
      | some p => simp
    | some p =>
      cases specStep (2 ^ k) q op with
      | none => simp
      | some p' =>
        obtain ⟨o, r1⟩ := p
        obtain ⟨o', q1⟩ := p'
        simp only
        rintro ⟨rfl, hr⟩
        have ih' := ih hr
        revert ih'
        cases RB.run r1 ops <;> cases specRun (2 ^ k) q1 ops <;> simp
        rename_i v w
        intro hvw hrep
        exact ⟨hvw, fun _ _ _ _ _ h2 _ h4 => hrep _ _ _ _ (Prod.ext rfl h2) (Prod.ext rfl h4)⟩

end Verif.RingBuffer
