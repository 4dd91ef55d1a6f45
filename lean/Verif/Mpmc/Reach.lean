import Verif.Mpmc.Steps
namespace Verif.Mpmc
open Verif.Common
variable {α : Type}

/-- The next-round position of the cell of a claimed position. -/
theorem next_round {s : State α} (h : Inv s) {p : Nat} (hp : p ≤ s.enqPos) :
    ∃ q, s.enqPos ≤ q ∧ q < s.enqPos + s.cap ∧ s.cell q = s.cell p ∧ p ≤ q ∧ (p < s.enqPos → p + s.cap ≤ q) := by
  have hc := cap_ge h.geo
  have hcell : ∀ k, s.cell (p + s.cap * k) = s.cell p := by
    intro k; rw [cell_eq h.geo, cell_eq h.geo, Nat.add_mul_mod_self_left]
  have hd := Nat.div_add_mod (s.enqPos - p + (s.cap - 1)) s.cap
  have hm := Nat.mod_lt (s.enqPos - p + (s.cap - 1)) (show 0 < s.cap by omega)
  refine ⟨p + s.cap * ((s.enqPos - p + (s.cap - 1)) / s.cap), by omega, by omega, hcell _, by omega, ?_⟩
  intro hlt
  have : 1 ≤ (s.enqPos - p + (s.cap - 1)) / s.cap := by
    rw [Nat.le_div_iff_mul_le (by omega)]; omega
  have := Nat.mul_le_mul_left s.cap this
  omega

/-- What a cell's sequence number says about a position at or before the enqueue position. -/
theorem seq_lt_enq {s : State α} (h : Inv s) {p : Nat} (hp : p ≤ s.enqPos) (hs : s.seq (s.cell p) < p) :
    p = s.enqPos ∧ (s.enqPos = s.deqPos + s.cap ∨ (s.cap ≤ s.enqPos ∧ Held s holdsD (s.enqPos - s.cap))) := by
  obtain ⟨q, h1, h2, h3, h4, h5⟩ := next_round h hp
  have hc := h.cells q h1 h2
  rw [← h3] at hs
  have hle2 := h.le2
  rcases Nat.lt_or_ge p s.enqPos with hlt | hge
  · exfalso
    have := h5 hlt
    rcases Nat.lt_or_ge q (s.deqPos + s.cap) with hq | hq
    · rcases hc.1 hq with ⟨a, _⟩ | ⟨_, a, _⟩ <;> omega
    · rcases hc.2 hq with ⟨a, _⟩ | ⟨a, _⟩ <;> omega
  · have e : p = s.enqPos := by omega
    subst e
    have eq : q = s.enqPos := by
      rw [cell_eq h.geo, cell_eq h.geo] at h3
      exact mod_window h3 (by omega) (by omega)
    subst eq
    refine ⟨rfl, ?_⟩
    rcases Nat.lt_or_ge s.enqPos (s.deqPos + s.cap) with hq | hq
    · rcases hc.1 hq with ⟨a, _⟩ | ⟨a, _, b⟩
      · omega
      · exact Or.inr ⟨a, b⟩
    · exact Or.inl (by omega)

theorem seq_le_deq {s : State α} (h : Inv s) {p : Nat} (hp : p ≤ s.deqPos) (hs : s.seq (s.cell p) < p + 1) :
    p = s.deqPos ∧ (s.enqPos = s.deqPos ∨ Held s holdsE s.deqPos) := by
  have hle := h.le
  have hcap := cap_ge h.geo
  obtain ⟨q, h1, h2, h3, h4, h5⟩ := next_round h (show p ≤ s.enqPos by omega)
  have hc := h.cells q h1 h2
  rw [← h3] at hs
  rcases Nat.lt_or_ge p s.enqPos with hlt | hge
  · have h6 := h5 hlt
    have e : p = s.deqPos := by
      rcases Nat.lt_or_ge p s.deqPos with hpd | hpd
      · exfalso
        rcases Nat.lt_or_ge q (s.deqPos + s.cap) with hq | hq
        · rcases hc.1 hq with ⟨a, _⟩ | ⟨_, a, _⟩ <;> omega
        · rcases hc.2 hq with ⟨a, _⟩ | ⟨a, _⟩ <;> omega
      · omega
    subst e
    refine ⟨rfl, Or.inr ?_⟩
    rcases hc.2 h6 with ⟨a, b⟩ | ⟨a, _⟩
    · have : q - s.cap = s.deqPos := by omega
      rw [this] at b; exact b
    · omega
  · exact ⟨by omega, Or.inl (by omega)⟩

/-- A cell that is published for the dequeue position. -/
theorem head_ready {s : State α} (h : Inv s) (hs : s.deqPos + 1 ≤ s.seq (s.cell s.deqPos)) :
    s.deqPos < s.enqPos ∧ s.seq (s.cell s.deqPos) = s.deqPos + 1 ∧
    ((∃ v, s.val (s.cell s.deqPos) = some v ∧ s.enq[s.deqPos]? = some v) ∨ Held s holdsS s.deqPos) := by
  have hle := h.le
  have hle2 := h.le2
  have hcap := cap_ge h.geo
  rcases Nat.lt_or_ge s.deqPos s.enqPos with hlt | hge
  · have hc := (h.cells (s.deqPos + s.cap) (by omega) (by omega)).2 (Nat.le_refl _)
    rw [cell_add h.geo, Nat.add_sub_cancel] at hc
    rcases hc with ⟨a, _⟩ | ⟨a, b⟩
    · omega
    · refine ⟨hlt, a, ?_⟩
      rcases b with b | ⟨_, b⟩
      · exact Or.inl b
      · exact Or.inr b
  · exfalso
    have e : s.deqPos = s.enqPos := by omega
    have hc := (h.cells s.deqPos (by omega) (by omega)).1 (by omega)
    rcases hc with ⟨a, _⟩ | ⟨_, a, _⟩ <;> omega

theorem inv_step {s s' : State α} {a : Act α} (h : Inv s) (hs : step s a = some s') : Inv s' := by
  cases a with
  | enqueue t x =>
    unfold step at hs; simp only at hs
    split at hs
    · rename_i ht
      simp only [Option.some.injEq] at hs; subst hs
      exact inv_setPc h ht trivial rfl rfl rfl (by simp [isD]) (by simp [isS])
    · simp at hs
  | dequeue t =>
    unfold step at hs; simp only at hs
    split at hs
    · rename_i ht
      split at hs
      · rename_i hsc
        simp only [Option.some.injEq] at hs; subst hs
        exact inv_setPc h ht trivial rfl rfl rfl (fun _ => hsc) (by simp [isS])
      · rename_i c hsc
        split at hs
        · rename_i hct
          simp only [Option.some.injEq] at hs; subst hs
          exact inv_setPc h ht trivial rfl rfl rfl (by simp [isD]) (fun _ => hct ▸ hsc)
        · simp at hs
    · simp at hs
  | casFail t =>
    unfold step at hs; simp only at hs
    split at hs
    · rename_i ht
      simp only [Option.some.injEq] at hs; subst hs
      exact inv_setPc h ht trivial rfl rfl rfl (by simp [isD]) (by simp [isS])
    · rename_i ht
      simp only [Option.some.injEq] at hs; subst hs
      exact inv_setPc h ht trivial rfl rfl rfl (fun _ => h.modeD _ _ ht rfl) (by simp [isS])
    · simp at hs
  | go t =>
    unfold step at hs; simp only at hs
    split at hs
    case h_2 => simp at hs
    rename_i pc ht
    have hpc := h.pcs t pc ht
    cases pc with
    | idle => simp [stepPc] at hs
    | eStart x =>
      simp only [stepPc, Option.some.injEq] at hs; subst hs
      exact inv_setPc h ht (Nat.le_refl _) rfl rfl rfl (by simp [isD]) (by simp [isS])
    | eLoaded x pos =>
      simp only [stepPc] at hs
      split at hs
      · rename_i he
        simp only [Option.some.injEq] at hs; subst hs
        exact inv_setPc h ht ⟨hpc, by omega⟩ rfl rfl rfl (by simp [isD]) (by simp [isS])
      · split at hs <;> simp only [Option.some.injEq] at hs <;> subst hs <;>
          exact inv_setPc h ht trivial rfl rfl rfl (by simp [isD]) (by simp [isS])
    | eReady x pos =>
      simp only [stepPc] at hs
      split at hs
      · rename_i he
        simp only [Option.some.injEq] at hs; subst hs
        exact inv_claimE h ht he
      · simp only [Option.some.injEq] at hs; subst hs
        exact inv_setPc h ht trivial rfl rfl rfl (by simp [isD]) (by simp [isS])
    | eClaimed x pos => simp only [stepPc, Option.some.injEq] at hs; subst hs; exact inv_buildE h ht
    | eBuilt x pos => simp only [stepPc, Option.some.injEq] at hs; subst hs; exact inv_publishE h ht
    | dStart =>
      simp only [stepPc, Option.some.injEq] at hs; subst hs
      exact inv_setPc h ht (Nat.le_refl _) rfl rfl rfl (fun _ => h.modeD _ _ ht rfl) (by simp [isS])
    | dLoaded pos =>
      simp only [stepPc] at hs
      split at hs
      · rename_i he
        simp only [Option.some.injEq] at hs; subst hs
        exact inv_setPc h ht ⟨hpc, by omega⟩ rfl rfl rfl (fun _ => h.modeD _ _ ht rfl) (by simp [isS])
      · split at hs <;> simp only [Option.some.injEq] at hs <;> subst hs <;>
          exact inv_setPc h ht trivial rfl rfl rfl (fun _ => h.modeD _ _ ht rfl) (by simp [isS])
    | dReady pos =>
      simp only [stepPc] at hs
      split at hs
      · rename_i he
        simp only [Option.some.injEq] at hs; subst hs
        subst he
        obtain ⟨a, b, c⟩ := head_ready h hpc.2
        rcases c with ⟨v, c1, c2⟩ | ⟨i, pi, c1, c2⟩
        · exact inv_claimD h ht a b c2 (Or.inl ⟨rfl, rfl, c1⟩)
        · exfalso
          have e1 := h.modeD _ _ ht rfl
          have e2 := h.modeS i pi c1 (by cases pi <;> simp [holdsS] at c2 <;> rfl)
          rw [e1] at e2; simp at e2
      · simp only [Option.some.injEq] at hs; subst hs
        exact inv_setPc h ht trivial rfl rfl rfl (fun _ => h.modeD _ _ ht rfl) (by simp [isS])
    | dClaimed pos =>
      simp only [stepPc] at hs
      obtain ⟨a, b, c, v, d, e⟩ := hpc
      rw [d] at hs
      simp only [Option.some.injEq] at hs; subst hs
      exact inv_setPc h ht ⟨a, b, c, d, e⟩ rfl rfl rfl (fun _ => h.modeD _ _ ht rfl) (by simp [isS])
    | dMoved v pos =>
      simp only [stepPc, Option.some.injEq] at hs; subst hs; exact inv_destroy h ht (Or.inl ⟨rfl, rfl⟩)
    | dDestroyed v pos =>
      simp only [stepPc, Option.some.injEq] at hs; subst hs; exact inv_release h ht (Or.inl rfl)
    | sStart =>
      simp only [stepPc, Option.some.injEq] at hs; subst hs
      exact inv_setPc h ht rfl rfl rfl rfl (by simp [isD]) (fun _ => h.modeS _ _ ht rfl)
    | sLoaded pos =>
      simp only [PcInv] at hpc
      subst hpc
      simp only [stepPc] at hs
      split at hs
      · simp only [Option.some.injEq] at hs; subst hs
        exact inv_setPc h ht trivial rfl rfl rfl (by simp [isD]) (by simp [isS])
      · rename_i he
        simp only [Option.some.injEq] at hs; subst hs
        obtain ⟨a, b, c⟩ := head_ready h (by omega)
        rcases c with c | ⟨i, pi, c1, c2⟩
        · -- becomes the holder of the head cell
          have hinv := h
          obtain ⟨geo, len, le, le2, cells, pcs, uniqE, uniqD, modeD, modeS, gotOk, gotN, gotH, gotA, bad⟩ := h
          have hh : ∀ (f : Pc α → Option Nat) (p : Nat), Held s f p →
              f (.sLoaded s.deqPos) = none → Held (s.setPc t (.sReady s.deqPos)) f p :=
            fun f p hf hn => held_set ht rfl (fun e => by rw [hn] at e; simp at e) hf
          refine ⟨geo, len, le, le2, ?_, ?_, ?_, ?_, ?_, ?_, gotOk, gotN, ?_, ?_, bad⟩
          · intro q h1 h2
            exact cellInv_frame (cells q h1 h2) rfl rfl rfl rfl (fun _ _ h => h) (fun _ h => hh _ _ h rfl)
              (fun _ h => hh _ _ h rfl) (fun _ h => hh _ _ h rfl)
          · intro i x hx
            rcases get_set hx with ⟨_, rfl⟩ | ⟨_, hx⟩
            · exact ⟨rfl, a, b, c⟩
            · exact pcs i x hx
          · exact uniq_set ht uniqE (fun p hp => by simp [holdsE] at hp)
          · exact uniq_set ht uniqD (fun p hp => by simp [holdsD] at hp)
          · exact forall_set modeD (by simp [isD])
          · exact forall_set modeS (fun _ => modeS _ _ ht rfl)
          · intro i x p hx hp
            rcases get_set hx with ⟨rfl, rfl⟩ | ⟨_, hx⟩
            · simp [holdsD] at hp
            · exact gotH i x p hx hp
          · intro p hp
            rcases gotA p hp with h | h
            · exact Or.inl h
            · exact Or.inr (hh _ _ h rfl)
        · exfalso
          have e1 := h.modeS _ _ ht rfl
          have e2 := h.modeS i pi c1 (by cases pi <;> simp [holdsS] at c2 <;> rfl)
          rw [e1] at e2
          simp only [Option.some.injEq] at e2
          subst e2
          rw [ht] at c1
          simp only [Option.some.injEq] at c1
          subst c1
          simp [holdsS] at c2
    | sReady pos =>
      simp only [stepPc] at hs
      obtain ⟨a, b, c, v, d, e⟩ := hpc
      rw [d] at hs
      simp only [Option.some.injEq] at hs; subst hs
      exact inv_setPc h ht ⟨a, b, c, d, e⟩ rfl rfl rfl (by simp [isD]) (fun _ => h.modeS _ _ ht rfl)
    | sMoved v pos =>
      simp only [stepPc, Option.some.injEq] at hs; subst hs; exact inv_destroy h ht (Or.inr ⟨rfl, rfl⟩)
    | sDestroyed v pos =>
      simp only [stepPc, Option.some.injEq] at hs; subst hs
      obtain ⟨a, b, c, d, e⟩ := hpc
      subst a
      exact inv_claimD h ht b c e (Or.inr ⟨rfl, rfl⟩)
    | sStored v pos =>
      simp only [stepPc, Option.some.injEq] at hs; subst hs; exact inv_release h ht (Or.inr rfl)

theorem replicate_get {n : Nat} {i : Nat} {pc : Pc α} (h : (List.replicate n (Pc.idle : Pc α))[i]? = some pc) :
    pc = .idle := by
  rw [List.getElem?_replicate] at h
  split at h
  · simpa using h.symm
  · simp at h

theorem inv_init {s : State α} (h : Init s) : Inv s := by
  obtain ⟨k, n, sc, hk, rfl⟩ := h
  refine ⟨⟨k, hk, rfl⟩, rfl, Nat.le_refl _, Nat.zero_le _, ?_, ?_, ?_, ?_, ?_, ?_, ?_, by simp, ?_, ?_, rfl⟩
  · intro q _ h2
    have hg : ∃ k', 1 ≤ k' ∧ (2 ^ k - 1) = 2 ^ k' - 1 := ⟨k, hk, rfl⟩
    have hc := cell_eq (s := { mask := 2 ^ k - 1, sc := sc, seq := fun i => i, th := List.replicate n .idle : State α }) hg q
    refine ⟨fun _ => Or.inl ⟨?_, rfl⟩, fun h => ?_⟩
    · simp only at hc ⊢
      rw [hc]; exact Nat.mod_eq_of_lt (by simpa using h2)
    · simp only [State.cap] at h h2; omega
  · intro i pc hi; rw [replicate_get hi]; exact trivial
  · intro i j pi pj p hi _ h1; rw [replicate_get hi] at h1; simp [holdsE] at h1
  · intro i j pi pj p hi _ h1; rw [replicate_get hi] at h1; simp [holdsD] at h1
  · intro i pc hi h1; rw [replicate_get hi] at h1; simp [isD] at h1
  · intro i pc hi h1; rw [replicate_get hi] at h1; simp [isS] at h1
  · simp
  · intro i pc p hi h1; rw [replicate_get hi] at h1; simp [holdsD] at h1
  · intro p hp; simp at hp

theorem inv_reach {s : State α} (h : Reachable Init step s) : Inv s :=
  Reachable.invariant Inv (fun _ hi => inv_init hi) (fun _ _ _ hI hs => inv_step hI hs) h

end Verif.Mpmc
