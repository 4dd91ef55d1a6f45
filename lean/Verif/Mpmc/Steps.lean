import Verif.Mpmc.Lemmas
namespace Verif.Mpmc
open Verif.Common
variable {α : Type}

theorem uniq_set {f : Pc α → Option Nat} {l : List (Pc α)} {t : Nat} {pc pc' : Pc α}
    (ht : l[t]? = some pc)
    (hu : ∀ (i j : Nat) (pi pj : Pc α) (p : Nat), l[i]? = some pi → l[j]? = some pj → f pi = some p →
      f pj = some p → i = j)
    (hn : ∀ p, f pc' = some p → f pc = some p ∨
      ∀ (k : Nat) (pk : Pc α), l[k]? = some pk → f pk ≠ some p) :
    ∀ (i j : Nat) (pi pj : Pc α) (p : Nat), (l.set t pc')[i]? = some pi → (l.set t pc')[j]? = some pj →
      f pi = some p → f pj = some p → i = j := by
  intro i j pi pj p hi hj h1 h2
  rcases get_set hi with ⟨e1, e2⟩ | ⟨_, hi'⟩ <;> rcases get_set hj with ⟨e3, e4⟩ | ⟨_, hj'⟩
  · omega
  · subst e1 e2
    rcases hn p h1 with h | h
    · exact hu _ _ _ _ p ht hj' h h2
    · exact absurd h2 (h _ _ hj')
  · subst e3 e4
    rcases hn p h2 with h | h
    · exact hu _ _ _ _ p hi' ht h1 h
    · exact absurd h1 (h _ _ hi')
  · exact hu _ _ _ _ p hi' hj' h1 h2

theorem forall_set {P : Nat → Pc α → Prop} {l : List (Pc α)} {t : Nat} {pc' : Pc α}
    (h : ∀ (i : Nat) (y : Pc α), l[i]? = some y → P i y) (hn : P t pc') :
    ∀ (i : Nat) (y : Pc α), (l.set t pc')[i]? = some y → P i y := by
  intro i y hy
  rcases get_set hy with ⟨rfl, rfl⟩ | ⟨_, hy⟩
  · exact hn
  · exact h i y hy

theorem cellInv_frame {s s' : State α} {q : Nat} (h : CellInv s q) (hm : s'.mask = s.mask)
    (hD : s'.deqPos = s.deqPos) (hseq : s'.seq (s.cell q) = s.seq (s.cell q))
    (hval : s'.val (s.cell q) = s.val (s.cell q))
    (henq : ∀ (p : Nat) (v : α), s.enq[p]? = some v → s'.enq[p]? = some v)
    (hhD : s.cap ≤ q → Held s holdsD (q - s.cap) → Held s' holdsD (q - s.cap))
    (hhE : s.cap ≤ q → Held s holdsE (q - s.cap) → Held s' holdsE (q - s.cap))
    (hhS : s.cap ≤ q → Held s holdsS (q - s.cap) → Held s' holdsS (q - s.cap)) : CellInv s' q := by
  have hc : s'.cell q = s.cell q := by simp [State.cell, hm]
  have hcap : s'.cap = s.cap := by simp [State.cap, hm]
  unfold CellInv at h ⊢
  rw [hc, hcap, hseq, hval, hD]
  refine ⟨fun hq => ?_, fun hq => ?_⟩
  · rcases h.1 hq with h | ⟨h1, h2, h3⟩
    · exact Or.inl h
    · exact Or.inr ⟨h1, h2, hhD h1 h3⟩
  · have hle : s.cap ≤ q := by omega
    rcases h.2 hq with ⟨h1, h2⟩ | ⟨h1, ⟨v, h2, h3⟩ | ⟨h2, h3⟩⟩
    · exact Or.inl ⟨h1, hhE hle h2⟩
    · exact Or.inr ⟨h1, Or.inl ⟨v, h2, henq _ _ h3⟩⟩
    · exact Or.inr ⟨h1, Or.inr ⟨h2, hhS hle h3⟩⟩

/-- A step that only moves a program counter. -/
theorem inv_setPc {s : State α} {t : Nat} {pc pc' : Pc α} {ev : Event α} (h : Inv s)
    (ht : s.th[t]? = some pc) (hpc : PcInv s pc') (hE : holdsE pc' = holdsE pc)
    (hD : holdsD pc' = holdsD pc) (hS : holdsS pc' = holdsS pc)
    (hmD : isD pc' = true → s.sc = none) (hmS : isS pc' = true → s.sc = some t) :
    Inv (s.setPc t pc' ev) := by
  have held : ∀ f : Pc α → Option Nat, f pc' = f pc → ∀ p, Held s f p → Held (s.setPc t pc' ev) f p :=
    fun f hf p => held_set ht rfl (fun e => by rw [hf]; exact e)
  obtain ⟨geo, len, le, le2, cells, pcs, uniqE, uniqD, modeD, modeS, gotOk, gotN, gotH, gotA, bad⟩ := h
  refine ⟨geo, len, le, le2, ?_, ?_, ?_, ?_, ?_, ?_, gotOk, gotN, ?_, ?_, bad⟩
  · intro q h1 h2
    exact cellInv_frame (cells q h1 h2) rfl rfl rfl rfl (fun _ _ h => h) (fun _ => held _ hD _)
      (fun _ => held _ hE _) (fun _ => held _ hS _)
  · intro i x hx
    rcases get_set hx with ⟨_, rfl⟩ | ⟨_, hx⟩
    · exact hpc
    · exact pcs i x hx
  · exact uniq_set ht uniqE (fun p hp => Or.inl (hE ▸ hp))
  · exact uniq_set ht uniqD (fun p hp => Or.inl (hD ▸ hp))
  · exact forall_set modeD hmD
  · exact forall_set modeS hmS
  · intro i x p hx hp
    rcases get_set hx with ⟨rfl, rfl⟩ | ⟨_, hx⟩
    · exact gotH _ _ p ht (hD ▸ hp)
    · exact gotH i x p hx hp
  · intro p hp
    rcases gotA p hp with h | h
    · exact Or.inl h
    · exact Or.inr (held _ hD _ h)

/-- The enqueue CAS (98). -/
theorem inv_claimE {s : State α} {t : Nat} {x : α} {pos : Nat} (h : Inv s)
    (ht : s.th[t]? = some (.eReady x pos)) (hp : s.enqPos = pos) :
    Inv { s.setPc t (.eClaimed x pos) with enqPos := pos + 1, enq := s.enq ++ [x] } := by
  obtain ⟨geo, len, le, le2, cells, pcs, uniqE, uniqD, modeD, modeS, gotOk, gotN, gotH, gotA, bad⟩ := h
  have hcap2 := cap_ge geo
  subst hp
  have hpc := pcs t _ ht
  simp only [PcInv] at hpc
  -- the cell is free for this position
  have hcell := cells s.enqPos (Nat.le_refl _) (by omega)
  have hfree : s.enqPos < s.deqPos + s.cap ∧ s.seq (s.cell s.enqPos) = s.enqPos ∧
      s.val (s.cell s.enqPos) = none := by
    rcases Nat.lt_or_ge s.enqPos (s.deqPos + s.cap) with hq | hq
    · rcases hcell.1 hq with h | ⟨h1, h2, _⟩
      · exact ⟨hq, h⟩
      · omega
    · rcases hcell.2 hq with h | h
      · have := h.1; omega
      · have := h.1; omega
  obtain ⟨hlt, hseq, hval⟩ := hfree
  have henq : ∀ (p : Nat) (v : α), s.enq[p]? = some v → (s.enq ++ [x])[p]? = some v := by
    intro p v hv
    rw [List.getElem?_append_left (lt_of_get hv)]; exact hv
  have hheld : ∀ f : Pc α → Option Nat, f (.eReady x s.enqPos) = none → ∀ p, Held s f p →
      Held { s.setPc t (.eClaimed x s.enqPos) with enqPos := s.enqPos + 1, enq := s.enq ++ [x] } f p := by
    intro f hf p hh
    exact held_set ht (by rfl) (fun e => by rw [hf] at e; simp at e) hh
  refine ⟨geo, ?_, ?_, ?_, ?_, ?_, ?_, ?_, ?_, ?_, ?_, gotN, ?_, ?_, bad⟩
  · simp [len]
  · simp only [State.setPc]; omega
  · simp only [State.cap, State.setPc] at hlt ⊢; omega
  · intro q h1 h2
    simp only [State.setPc] at h1 h2
    rcases Nat.lt_or_ge q (s.enqPos + s.cap) with hq | hq
    · exact cellInv_frame (cells q (by omega) hq) rfl rfl rfl rfl henq
        (fun _ => hheld _ rfl _) (fun _ => hheld _ rfl _) (fun _ => hheld _ rfl _)
    · have : q = s.enqPos + s.cap := by simp only [State.cap] at h2 hq ⊢; omega
      subst this
      unfold CellInv
      have hc : ∀ p, State.cell { s.setPc t (.eClaimed x s.enqPos) with enqPos := s.enqPos + 1, enq := s.enq ++ [x] } p
        = s.cell p := fun _ => rfl
      have hcap : State.cap { s.setPc t (.eClaimed x s.enqPos) with enqPos := s.enqPos + 1, enq := s.enq ++ [x] }
        = s.cap := rfl
      rw [hc, hcap, cell_add geo]
      refine ⟨fun hq => ?_, fun _ => Or.inl ⟨?_, ?_⟩⟩
      · simp only [State.setPc] at hq; omega
      · simp only [State.setPc]; rw [hseq]; omega
      · refine ⟨t, _, List.getElem?_set_self (lt_of_get ht), ?_⟩
        simp [holdsE]
  · intro i pc hi
    rcases get_set hi with ⟨rfl, rfl⟩ | ⟨hne, hi⟩
    · simp only [PcInv]
      refine ⟨le, by simp, hseq, hval, ?_⟩
      simp [← len]
    · have hpi := pcs i pc hi
      refine pc_frame hpi rfl (by simp [State.setPc]) (Nat.le_refl _) (fun _ => Nat.le_refl _) (fun _ _ => ⟨rfl, rfl⟩) henq
        (fun p hp => ?_) (fun p hp => ?_) (fun _ => rfl)
      · cases pc <;> simp [holdsE] at hp <;> subst hp <;> simp only [PcInv] at hpi <;> exact hpi.1
      · have hw := owns_window (p := p) hpi le2 le (by
          unfold owns
          cases pc <;> simp [holdsD] at hp <;> simp [holdsE, holdsD, hp])
        have hs : s.seq (s.cell p) = p + 1 := by
          cases pc <;> simp [holdsD] at hp <;> subst hp <;> simp only [PcInv] at hpi <;> exact hpi.2.2.1
        have : s.enqPos ≠ p + s.cap := by
          intro e
          rw [e, cell_add geo, hs] at hseq; omega
        simp only [State.setPc]; omega
  · refine uniq_set ht uniqE (fun p hp => Or.inr (fun k pk hk e => ?_))
    simp only [holdsE, Option.some.injEq] at hp
    subst hp
    have := owns_window (p := s.enqPos) (pcs k pk hk) le2 le (by simp [owns, e])
    omega
  · exact uniq_set ht uniqD (fun p hp => by simp [holdsD] at hp)
  · exact forall_set modeD (fun h => by simp [isD] at h)
  · exact forall_set modeS (fun h => by simp [isS] at h)
  · intro e he
    exact ⟨(gotOk e he).1, henq _ _ (gotOk e he).2⟩
  · intro i y p hy hp
    rcases get_set hy with ⟨rfl, rfl⟩ | ⟨_, hy⟩
    · simp [holdsD] at hp
    · exact gotH i y p hy hp
  · intro p hp
    rcases gotA p hp with h | h
    · exact Or.inl h
    · exact Or.inr (hheld _ rfl _ h)

theorem owns_cases {pc : Pc α} {p : Nat} (h : owns pc = some p) :
    holdsE pc = some p ∨ holdsD pc = some p ∨ (holdsS pc = some p ∧ isS pc = true) := by
  cases pc <;> simp [owns, holdsE, holdsD, holdsS] at h <;> subst h <;> simp [holdsE, holdsD, holdsS, isS]

theorem holdsE_inv {s : State α} {pc : Pc α} {p : Nat} (h : PcInv s pc) (he : holdsE pc = some p) :
    s.deqPos ≤ p ∧ p < s.enqPos ∧ s.seq (s.cell p) = p := by
  cases pc <;> simp [holdsE] at he <;> subst he <;> simp only [PcInv] at h <;>
    exact ⟨h.1, h.2.1, h.2.2.1⟩

theorem holdsD_inv {s : State α} {pc : Pc α} {p : Nat} (h : PcInv s pc) (he : holdsD pc = some p) :
    p < s.deqPos ∧ s.enqPos ≤ p + s.cap ∧ s.seq (s.cell p) = p + 1 := by
  cases pc <;> simp [holdsD] at he <;> subst he <;> simp only [PcInv] at h <;>
    exact ⟨h.1, h.2.1, h.2.2.1⟩

theorem holdsS_inv {s : State α} {pc : Pc α} {p : Nat} (h : PcInv s pc) (he : holdsS pc = some p) :
    p = s.deqPos ∧ p < s.enqPos ∧ s.seq (s.cell p) = p + 1 := by
  cases pc <;> simp [holdsS] at he <;> subst he <;> simp only [PcInv] at h <;>
    exact ⟨h.1, h.2.1, h.2.2.1⟩

/-- Different threads own different positions. -/
theorem own_ne {s : State α} (h : Inv s) {i j : Nat} {pi pj : Pc α} {p p' : Nat} (hij : i ≠ j)
    (hi : s.th[i]? = some pi) (hj : s.th[j]? = some pj) (h1 : owns pi = some p) (h2 : owns pj = some p') :
    p ≠ p' := by
  rintro rfl
  have ii := h.pcs i pi hi
  have jj := h.pcs j pj hj
  rcases owns_cases h1 with a | a | ⟨a, a'⟩ <;> rcases owns_cases h2 with b | b | ⟨b, b'⟩
  · exact hij (h.uniqE _ _ _ _ p hi hj a b)
  · have := holdsE_inv ii a; have := holdsD_inv jj b; omega
  · have := holdsE_inv ii a; have := holdsS_inv jj b; omega
  · have := holdsD_inv ii a; have := holdsE_inv jj b; omega
  · exact hij (h.uniqD _ _ _ _ p hi hj a b)
  · have := holdsD_inv ii a; have := holdsS_inv jj b; omega
  · have := holdsS_inv ii a; have := holdsE_inv jj b; omega
  · have := holdsS_inv ii a; have := holdsD_inv jj b; omega
  · have e1 := h.modeS i pi hi a'
    have e2 := h.modeS j pj hj b'
    rw [e1] at e2; simp only [Option.some.injEq] at e2; exact hij e2

/-- Different threads own different cells. -/
theorem own_cell_ne {s : State α} (h : Inv s) {i j : Nat} {pi pj : Pc α} {p p' : Nat} (hij : i ≠ j)
    (hi : s.th[i]? = some pi) (hj : s.th[j]? = some pj) (h1 : owns pi = some p) (h2 : owns pj = some p') :
    s.cell p ≠ s.cell p' := by
  have w1 := owns_window (h.pcs i pi hi) h.le2 h.le h1
  have w2 := owns_window (h.pcs j pj hj) h.le2 h.le h2
  exact cell_ne h.geo (own_ne h hij hi hj h1 h2) (by omega) (by omega)

/-- The next-round position of an owned position, and the cells of all other next-round positions. -/
theorem window_cell {s : State α} (h : Inv s) {p q : Nat} (hp : p < s.enqPos) (hp2 : s.enqPos ≤ p + s.cap)
    (h1 : s.enqPos ≤ q) (h2 : q < s.enqPos + s.cap) : q = p + s.cap ∨ s.cell q ≠ s.cell p := by
  by_cases e : q = p + s.cap
  · exact Or.inl e
  · right
    rw [← cell_add h.geo p]
    exact cell_ne h.geo e (by omega) (by omega)

/-- Constructing the element (105): the storage was raw. -/
theorem inv_buildE {s : State α} {t : Nat} {x : α} {pos : Nat} (h : Inv s)
    (ht : s.th[t]? = some (.eClaimed x pos)) :
    Inv { s.setPc t (.eBuilt x pos) with val := upd s.val (s.cell pos) (some x),
                                         bad := s.bad || (s.val (s.cell pos)).isSome } := by
  have hinv := h
  obtain ⟨geo, len, le, le2, cells, pcs, uniqE, uniqD, modeD, modeS, gotOk, gotN, gotH, gotA, bad⟩ := h
  have hpc := pcs t _ ht
  simp only [PcInv] at hpc
  obtain ⟨a1, a2, a3, a4, a5⟩ := hpc
  have hheld : ∀ f : Pc α → Option Nat, f (.eBuilt x pos) = f (.eClaimed x pos) → ∀ p, Held s f p →
      Held { s.setPc t (.eBuilt x pos) with val := upd s.val (s.cell pos) (some x),
                                            bad := s.bad || (s.val (s.cell pos)).isSome } f p :=
    fun f hf p => held_set ht (by rfl) (fun e => by rw [hf]; exact e)
  refine ⟨geo, len, le, le2, ?_, ?_, ?_, ?_, ?_, ?_, gotOk, gotN, ?_, ?_, ?_⟩
  · intro q h1 h2
    rcases window_cell hinv a2 (by omega) h1 h2 with e | e
    · have hc := cells q h1 h2
      subst e
      refine ⟨fun hq => ?_, fun hq => Or.inl ⟨?_, ?_⟩⟩
      · simp only [State.setPc, State.cap] at hq; omega
      · have : s.seq (s.cell (pos + s.cap)) = pos := by rw [cell_add geo]; exact a3
        simpa [State.setPc, State.cell, State.cap] using this
      · exact ⟨t, _, List.getElem?_set_self (lt_of_get ht), by simp [holdsE, State.cap, State.setPc]⟩
    · exact cellInv_frame (cells q h1 h2) rfl rfl rfl (by simp only; rw [upd_ne _ _ e]) (fun _ _ h => h)
        (fun _ => hheld _ rfl _) (fun _ => hheld _ rfl _) (fun _ => hheld _ rfl _)
  · refine fun i pc hi => ?_
    rcases get_set hi with ⟨rfl, rfl⟩ | ⟨hne, hi'⟩
    · exact ⟨a1, a2, a3, upd_same _ _ _, a5⟩
    · refine pc_frame (pcs i pc hi') rfl (Nat.le_refl _) (Nat.le_refl _) (fun _ => Nat.le_refl _) (fun p hp => ⟨rfl, ?_⟩)
        (fun _ _ h => h) (fun p hp => (holdsE_inv (pcs i pc hi') hp).1)
        (fun p hp => (holdsD_inv (pcs i pc hi') hp).2.1) (fun _ => rfl)
      simp only
      rw [upd_ne]
      exact own_cell_ne hinv hne hi' ht hp rfl
  · exact uniq_set ht uniqE (fun p hp => Or.inl hp)
  · exact uniq_set ht uniqD (fun p hp => by simp [holdsD] at hp)
  · exact forall_set modeD (fun h => by simp [isD] at h)
  · exact forall_set modeS (fun h => by simp [isS] at h)
  · intro i y p hy hp
    rcases get_set hy with ⟨rfl, rfl⟩ | ⟨_, hy⟩
    · simp [holdsD] at hp
    · exact gotH i y p hy hp
  · intro p hp
    rcases gotA p hp with h | h
    · exact Or.inl h
    · exact Or.inr (hheld _ rfl _ h)
  · simp [bad, a4]

/-- Publishing the element (106). -/
theorem inv_publishE {s : State α} {t : Nat} {x : α} {pos : Nat} (h : Inv s)
    (ht : s.th[t]? = some (.eBuilt x pos)) :
    Inv { s.setPc t .idle .enqOk with seq := upd s.seq (s.cell pos) (pos + 1) } := by
  have hinv := h
  obtain ⟨geo, len, le, le2, cells, pcs, uniqE, uniqD, modeD, modeS, gotOk, gotN, gotH, gotA, bad⟩ := h
  have hpc := pcs t _ ht
  simp only [PcInv] at hpc
  obtain ⟨a1, a2, a3, a4, a5⟩ := hpc
  have hheld : ∀ (f : Pc α → Option Nat) (p : Nat), f (.eBuilt x pos) ≠ some p → Held s f p →
      Held { s.setPc t .idle .enqOk with seq := upd s.seq (s.cell pos) (pos + 1) } f p :=
    fun f p hf => held_set ht (by rfl) (fun e => absurd e hf)
  refine ⟨geo, len, le, le2, ?_, ?_, ?_, ?_, ?_, ?_, gotOk, gotN, ?_, ?_, bad⟩
  · intro q h1 h2
    rcases window_cell hinv a2 (by omega) h1 h2 with e | e
    · subst e
      refine ⟨fun hq => ?_, fun hq => Or.inr ⟨?_, Or.inl ⟨x, ?_, ?_⟩⟩⟩
      · simp only [State.setPc, State.cap] at hq; omega
      · have : upd s.seq (s.cell pos) (pos + 1) (s.cell (pos + s.cap)) = pos + 1 := by
          rw [cell_add geo]; simp
        simpa [State.setPc, State.cell, State.cap] using this
      · have : s.val (s.cell (pos + s.cap)) = some x := by rw [cell_add geo]; exact a4
        simpa [State.setPc, State.cell, State.cap] using this
      · simpa [State.setPc, State.cell, State.cap] using a5
    · exact cellInv_frame (cells q h1 h2) rfl rfl (by simp only; rw [upd_ne _ _ e]) rfl (fun _ _ h => h)
        (fun _ => hheld _ _ (by simp [holdsD]))
        (fun hle => hheld _ _ (by
          simp only [holdsE, ne_eq, Option.some.injEq]
          intro c
          exact e (by rw [show q = pos + s.cap by omega, cell_add geo])))
        (fun _ => hheld _ _ (by simp [holdsS]))
  · refine fun i pc hi => ?_
    rcases get_set hi with ⟨rfl, rfl⟩ | ⟨hne, hi'⟩
    · exact trivial
    · refine pc_frame (pcs i pc hi') rfl (Nat.le_refl _) (Nat.le_refl _) (fun c => ?_) (fun p hp => ⟨?_, rfl⟩)
        (fun _ _ h => h) (fun p hp => (holdsE_inv (pcs i pc hi') hp).1)
        (fun p hp => (holdsD_inv (pcs i pc hi') hp).2.1) (fun _ => rfl)
      · by_cases e : c = s.cell pos
        · subst e; simp only [upd_same]; omega
        · simp only; rw [upd_ne _ _ e]; exact Nat.le_refl _
      · simp only
        rw [upd_ne]
        exact own_cell_ne hinv hne hi' ht hp rfl
  · exact uniq_set ht uniqE (fun p hp => by simp [holdsE] at hp)
  · exact uniq_set ht uniqD (fun p hp => by simp [holdsD] at hp)
  · exact forall_set modeD (fun h => by simp [isD] at h)
  · exact forall_set modeS (fun h => by simp [isS] at h)
  · intro i y p hy hp
    rcases get_set hy with ⟨rfl, rfl⟩ | ⟨_, hy⟩
    · simp [holdsD] at hp
    · exact gotH i y p hy hp
  · intro p hp
    rcases gotA p hp with h | h
    · exact Or.inl h
    · exact Or.inr (hheld _ _ (by simp [holdsD]) h)

/-- A dequeue claims position `deqPos` (120, and 151 in the single-consumer version). -/
theorem inv_claimD {s : State α} {t : Nat} {pc pc' : Pc α} {v : α} (h : Inv s)
    (ht : s.th[t]? = some pc)
    (hpc : s.deqPos < s.enqPos) (hseq : s.seq (s.cell s.deqPos) = s.deqPos + 1)
    (hval : s.enq[s.deqPos]? = some v)
    (hnew : (pc = .dReady s.deqPos ∧ pc' = .dClaimed s.deqPos ∧ s.val (s.cell s.deqPos) = some v) ∨
      (pc = .sDestroyed v s.deqPos ∧ pc' = .sStored v s.deqPos)) :
    Inv { s.setPc t pc' with deqPos := s.deqPos + 1 } := by
  have hinv := h
  obtain ⟨geo, len, le, le2, cells, pcs, uniqE, uniqD, modeD, modeS, gotOk, gotN, gotH, gotA, bad⟩ := h
  have hcap2 := cap_ge geo
  have hdn : holdsD pc' = some s.deqPos := by rcases hnew with ⟨_, rfl, _⟩ | ⟨_, rfl⟩ <;> rfl
  have hen : holdsE pc' = none := by rcases hnew with ⟨_, rfl, _⟩ | ⟨_, rfl⟩ <;> rfl
  have heo : holdsE pc = none := by rcases hnew with ⟨rfl, _, _⟩ | ⟨rfl, _⟩ <;> rfl
  have hdo : holdsD pc = none := by rcases hnew with ⟨rfl, _, _⟩ | ⟨rfl, _⟩ <;> rfl
  have hso : ∀ p, holdsS pc = some p → p = s.deqPos := by
    intro p hp; rcases hnew with ⟨rfl, _, _⟩ | ⟨rfl, _⟩ <;> simp [holdsS] at hp; exact hp.symm
  have hheld : ∀ (f : Pc α → Option Nat) (p : Nat), f pc ≠ some p → Held s f p →
      Held { s.setPc t pc' with deqPos := s.deqPos + 1 } f p :=
    fun f p hf => held_set ht (by rfl) (fun e => absurd e hf)
  have hself : Held { s.setPc t pc' with deqPos := s.deqPos + 1 } holdsD s.deqPos :=
    ⟨t, _, List.getElem?_set_self (lt_of_get ht), hdn⟩
  refine ⟨geo, len, by simp only [State.setPc]; omega, by simp only [State.setPc, State.cap] at le2 ⊢; omega,
    ?_, ?_, ?_, ?_, ?_, ?_, ?_, gotN, ?_, ?_, bad⟩
  · intro q h1 h2
    rcases window_cell hinv hpc (by omega) h1 h2 with e | e
    · subst e
      refine ⟨fun hq => Or.inr ⟨?_, ?_, ?_⟩, fun hq => ?_⟩
      · simp only [State.setPc, State.cap]; omega
      · have : s.seq (s.cell (s.deqPos + s.cap)) = s.deqPos + 1 := by rw [cell_add geo]; exact hseq
        simpa [State.setPc, State.cell, State.cap] using this
      · simpa [State.setPc, State.cap] using hself
      · simp only [State.setPc, State.cap] at hq; omega
    · have hc := cells q h1 h2
      have hq' : q ≠ s.deqPos + s.cap := fun c => e (by rw [c, cell_add geo])
      unfold CellInv at hc ⊢
      refine ⟨fun hq => ?_, fun hq => ?_⟩
      · simp only [State.setPc, State.cap] at hq hq'
        rcases hc.1 (by simp only [State.cap]; omega) with h | ⟨b1, b2, b3⟩
        · exact Or.inl h
        · exact Or.inr ⟨b1, b2, hheld _ _ (by rw [hdo]; simp) b3⟩
      · simp only [State.setPc, State.cap] at hq hq'
        rcases hc.2 (by simp only [State.cap]; omega) with ⟨b1, b2⟩ | ⟨b1, b2 | ⟨b2, b3⟩⟩
        · exact Or.inl ⟨b1, hheld _ _ (by rw [heo]; simp) b2⟩
        · exact Or.inr ⟨b1, Or.inl b2⟩
        · exfalso; simp only [State.cap] at b2; omega
  · refine fun i pci hi => ?_
    rcases get_set hi with ⟨rfl, rfl⟩ | ⟨hne, hi'⟩
    · rcases hnew with ⟨rfl, rfl, hv⟩ | ⟨rfl, rfl⟩
      · exact ⟨by simp, by simp only [State.setPc, State.cap] at le2 ⊢; omega, hseq, v, hv, hval⟩
      · have := pcs _ _ ht
        simp only [PcInv] at this
        exact ⟨by simp, by simp only [State.setPc, State.cap] at le2 ⊢; omega, hseq, this.2.2.2.1, hval⟩
    · refine pc_frame (pcs i pci hi') rfl (Nat.le_refl _) (by simp [State.setPc]) (fun _ => Nat.le_refl _)
        (fun p hp => ⟨rfl, rfl⟩) (fun _ _ h => h) (fun p hp => ?_)
        (fun p hp => (holdsD_inv (pcs i pci hi') hp).2.1) (fun hS => ?_)
      · have := holdsE_inv (pcs i pci hi') hp
        have hne2 : p ≠ s.deqPos := by rintro rfl; omega
        simp only; omega
      · exfalso
        have e1 := modeS i pci hi' hS
        rcases hnew with ⟨rfl, _, _⟩ | ⟨rfl, _⟩
        · have := modeD _ _ ht rfl; rw [this] at e1; simp at e1
        · have := modeS _ _ ht rfl; rw [this] at e1; simp only [Option.some.injEq] at e1; exact hne e1.symm
  · exact uniq_set ht uniqE (fun p hp => by rw [hen] at hp; simp at hp)
  · refine uniq_set ht uniqD (fun p hp => Or.inr (fun k pk hk e => ?_))
    rw [hdn] at hp
    simp only [Option.some.injEq] at hp
    have := holdsD_inv (pcs k pk hk) e
    omega
  · refine forall_set modeD (fun h => ?_)
    rcases hnew with ⟨rfl, rfl, _⟩ | ⟨rfl, rfl⟩
    · exact modeD _ _ ht rfl
    · simp [isD] at h
  · refine forall_set modeS (fun h => ?_)
    rcases hnew with ⟨rfl, rfl, _⟩ | ⟨rfl, rfl⟩
    · simp [isS] at h
    · exact modeS _ _ ht rfl
  · intro e he
    have := gotOk e he
    exact ⟨by simp only [State.setPc]; omega, this.2⟩
  · intro i y p hy hp
    rcases get_set hy with ⟨rfl, rfl⟩ | ⟨_, hy'⟩
    · rw [hdn] at hp
      simp only [Option.some.injEq] at hp
      subst hp
      intro hm
      obtain ⟨e, he, h1⟩ := List.mem_map.mp hm
      have := (gotOk e he).1
      omega
    · exact gotH i y p hy' hp
  · intro p hp
    simp only [State.setPc] at hp
    by_cases e : p = s.deqPos
    · subst e; exact Or.inr hself
    · rcases gotA p (by omega) with h | h
      · exact Or.inl h
      · exact Or.inr (hheld _ _ (by rw [hdo]; simp) h)

/-- Destroying the moved-from element (129, 149). -/
theorem inv_destroy {s : State α} {t : Nat} {pc pc' : Pc α} {v : α} {pos : Nat} (h : Inv s)
    (ht : s.th[t]? = some pc)
    (hnew : (pc = .dMoved v pos ∧ pc' = .dDestroyed v pos) ∨ (pc = .sMoved v pos ∧ pc' = .sDestroyed v pos)) :
    Inv { s.setPc t pc' with val := upd s.val (s.cell pos) none,
                             bad := s.bad || (s.val (s.cell pos)).isNone } := by
  have hinv := h
  obtain ⟨geo, len, le, le2, cells, pcs, uniqE, uniqD, modeD, modeS, gotOk, gotN, gotH, gotA, bad⟩ := h
  have hcap2 := cap_ge geo
  have hown : owns pc = some pos := by rcases hnew with ⟨rfl, _⟩ | ⟨rfl, _⟩ <;> rfl
  have hw := owns_window (pcs t _ ht) le2 le hown
  have hsv : s.seq (s.cell pos) = pos + 1 ∧ s.val (s.cell pos) = some v ∧ s.enq[pos]? = some v := by
    have := pcs _ _ ht
    rcases hnew with ⟨rfl, rfl⟩ | ⟨rfl, rfl⟩ <;> simp only [PcInv] at this <;>
      exact ⟨this.2.2.1, this.2.2.2.1, this.2.2.2.2⟩
  have hE : holdsE pc' = holdsE pc := by rcases hnew with ⟨rfl, rfl⟩ | ⟨rfl, rfl⟩ <;> rfl
  have hD : holdsD pc' = holdsD pc := by rcases hnew with ⟨rfl, rfl⟩ | ⟨rfl, rfl⟩ <;> rfl
  have hS : holdsS pc' = holdsS pc := by rcases hnew with ⟨rfl, rfl⟩ | ⟨rfl, rfl⟩ <;> rfl
  have hheld : ∀ f : Pc α → Option Nat, f pc' = f pc → ∀ p, Held s f p →
      Held { s.setPc t pc' with val := upd s.val (s.cell pos) none,
                                bad := s.bad || (s.val (s.cell pos)).isNone } f p :=
    fun f hf p => held_set ht (by rfl) (fun e => by rw [hf]; exact e)
  refine ⟨geo, len, le, le2, ?_, ?_, ?_, ?_, ?_, ?_, gotOk, gotN, ?_, ?_, ?_⟩
  · intro q h1 h2
    rcases window_cell hinv hw.1 hw.2 h1 h2 with e | e
    · have hseq' : s.seq (s.cell (pos + s.cap)) = pos + 1 := by rw [cell_add geo]; exact hsv.1
      subst e
      rcases hnew with ⟨rfl, rfl⟩ | ⟨rfl, rfl⟩
      · have hp := pcs _ _ ht
        simp only [PcInv] at hp
        refine ⟨fun hq => Or.inr ⟨?_, ?_, ?_⟩, fun hq => ?_⟩
        · simp only [State.setPc, State.cap]; omega
        · simpa [State.setPc, State.cell, State.cap] using hseq'
        · exact ⟨t, _, List.getElem?_set_self (lt_of_get ht), by simp [holdsD, State.cap, State.setPc]⟩
        · simp only [State.setPc, State.cap] at hq; omega
      · have hp := pcs _ _ ht
        simp only [PcInv] at hp
        refine ⟨fun hq => ?_, fun hq => Or.inr ⟨?_, Or.inr ⟨?_, ?_⟩⟩⟩
        · simp only [State.setPc, State.cap] at hq; omega
        · simpa [State.setPc, State.cell, State.cap] using hseq'
        · simpa [State.setPc, State.cap] using hp.1
        · exact ⟨t, _, List.getElem?_set_self (lt_of_get ht), by simp [holdsS, State.cap, State.setPc]⟩
    · exact cellInv_frame (cells q h1 h2) rfl rfl rfl (by simp only; rw [upd_ne _ _ e]) (fun _ _ h => h)
        (fun _ => hheld _ hD _) (fun _ => hheld _ hE _) (fun _ => hheld _ hS _)
  · refine fun i pci hi => ?_
    rcases get_set hi with ⟨rfl, rfl⟩ | ⟨hne, hi'⟩
    · have hp := pcs _ _ ht
      rcases hnew with ⟨rfl, rfl⟩ | ⟨rfl, rfl⟩
      · exact ⟨hp.1, hp.2.1, hp.2.2.1, upd_same _ _ _, hp.2.2.2.2⟩
      · exact ⟨hp.1, hp.2.1, hp.2.2.1, upd_same _ _ _, hp.2.2.2.2⟩
    · refine pc_frame (pcs i pci hi') rfl (Nat.le_refl _) (Nat.le_refl _) (fun _ => Nat.le_refl _) (fun p hp => ⟨rfl, ?_⟩)
        (fun _ _ h => h) (fun p hp => (holdsE_inv (pcs i pci hi') hp).1)
        (fun p hp => (holdsD_inv (pcs i pci hi') hp).2.1) (fun _ => rfl)
      simp only
      rw [upd_ne]
      exact own_cell_ne hinv hne hi' ht hp hown
  · exact uniq_set ht uniqE (fun p hp => Or.inl (hE ▸ hp))
  · exact uniq_set ht uniqD (fun p hp => Or.inl (hD ▸ hp))
  · refine forall_set modeD (fun h => ?_)
    rcases hnew with ⟨rfl, rfl⟩ | ⟨rfl, rfl⟩
    · exact modeD _ _ ht rfl
    · simp [isD] at h
  · refine forall_set modeS (fun h => ?_)
    rcases hnew with ⟨rfl, rfl⟩ | ⟨rfl, rfl⟩
    · simp [isS] at h
    · exact modeS _ _ ht rfl
  · intro i y p hy hp
    rcases get_set hy with ⟨rfl, rfl⟩ | ⟨_, hy'⟩
    · exact gotH _ _ p ht (hD ▸ hp)
    · exact gotH i y p hy' hp
  · intro p hp
    rcases gotA p hp with h | h
    · exact Or.inl h
    · exact Or.inr (hheld _ hD _ h)
  · simp [bad, hsv.2.1]

/-- Releasing the cell (132, 154). -/
theorem inv_release {s : State α} {t : Nat} {pc : Pc α} {v : α} {pos : Nat} (h : Inv s)
    (ht : s.th[t]? = some pc) (hnew : pc = .dDestroyed v pos ∨ pc = .sStored v pos) :
    Inv { s.setPc t .idle (.deqOk v) with seq := upd s.seq (s.cell pos) (pos + s.mask + 1),
                                          got := s.got ++ [(pos, v)] } := by
  have hinv := h
  obtain ⟨geo, len, le, le2, cells, pcs, uniqE, uniqD, modeD, modeS, gotOk, gotN, gotH, gotA, bad⟩ := h
  have hcap2 := cap_ge geo
  have hown : owns pc = some pos := by rcases hnew with rfl | rfl <;> rfl
  have hhd : holdsD pc = some pos := by rcases hnew with rfl | rfl <;> rfl
  have hw := owns_window (pcs t _ ht) le2 le hown
  have hp : pos < s.deqPos ∧ s.enqPos ≤ pos + s.cap ∧ s.seq (s.cell pos) = pos + 1 ∧
      s.val (s.cell pos) = none ∧ s.enq[pos]? = some v := by
    have := pcs _ _ ht
    rcases hnew with rfl | rfl <;> exact this
  have hheld : ∀ (f : Pc α → Option Nat) (p : Nat), f pc ≠ some p → Held s f p →
      Held { s.setPc t .idle (.deqOk v) with seq := upd s.seq (s.cell pos) (pos + s.mask + 1),
                                             got := s.got ++ [(pos, v)] } f p :=
    fun f p hf => held_set ht (by rfl) (fun e => absurd e hf)
  have hcapm : pos + s.mask + 1 = pos + s.cap := by simp only [State.cap]; omega
  have hE : holdsE pc = none := by rcases hnew with rfl | rfl <;> rfl
  have hS : holdsS pc = none := by rcases hnew with rfl | rfl <;> rfl
  refine ⟨geo, len, le, le2, ?_, ?_, ?_, ?_, ?_, ?_, ?_, ?_, ?_, ?_, bad⟩
  · intro q h1 h2
    rcases window_cell hinv hw.1 hw.2 h1 h2 with e | e
    · subst e
      refine ⟨fun hq => Or.inl ⟨?_, ?_⟩, fun hq => ?_⟩
      · have : upd s.seq (s.cell pos) (pos + s.mask + 1) (s.cell (pos + s.cap)) = pos + s.cap := by
          rw [cell_add geo]; simp [hcapm]
        simpa [State.setPc, State.cell] using this
      · have : s.val (s.cell (pos + s.cap)) = none := by rw [cell_add geo]; exact hp.2.2.2.1
        simpa [State.setPc, State.cell] using this
      · simp only [State.setPc, State.cap] at hq; omega
    · exact cellInv_frame (cells q h1 h2) rfl rfl (by simp only; rw [upd_ne _ _ e]) rfl (fun _ _ h => h)
        (fun hle => hheld _ _ (by
          rw [hhd]
          simp only [ne_eq, Option.some.injEq]
          intro c
          exact e (by rw [show q = pos + s.cap by omega, cell_add geo])))
        (fun _ => hheld _ _ (by rw [hE]; simp)) (fun _ => hheld _ _ (by rw [hS]; simp))
  · refine fun i pci hi => ?_
    rcases get_set hi with ⟨rfl, rfl⟩ | ⟨hne, hi'⟩
    · exact trivial
    · refine pc_frame (pcs i pci hi') rfl (Nat.le_refl _) (Nat.le_refl _) (fun c => ?_) (fun p hp => ⟨?_, rfl⟩)
        (fun _ _ h => h) (fun p hp => (holdsE_inv (pcs i pci hi') hp).1)
        (fun p hp => (holdsD_inv (pcs i pci hi') hp).2.1) (fun _ => rfl)
      · by_cases e : c = s.cell pos
        · subst e; simp only [upd_same]; omega
        · simp only; rw [upd_ne _ _ e]; exact Nat.le_refl _
      · simp only
        rw [upd_ne]
        exact own_cell_ne hinv hne hi' ht hp hown
  · exact uniq_set ht uniqE (fun p hp => by simp [holdsE] at hp)
  · exact uniq_set ht uniqD (fun p hp => by simp [holdsD] at hp)
  · exact forall_set modeD (fun h => by simp [isD] at h)
  · exact forall_set modeS (fun h => by simp [isS] at h)
  · intro e he
    rcases List.mem_append.mp he with h | h
    · exact gotOk e h
    · simp only [List.mem_singleton] at h; subst h; exact ⟨hp.1, hp.2.2.2.2⟩
  · simp only [List.map_append, List.map_cons, List.map_nil]
    rw [List.nodup_append]
    refine ⟨gotN, by simp, ?_⟩
    intro a ha b hb
    simp only [List.mem_singleton] at hb
    subst hb
    rintro rfl
    exact gotH t pc _ ht hhd ha
  · intro i y p hy hpy
    rcases get_set hy with ⟨rfl, rfl⟩ | ⟨hne, hy'⟩
    · simp [holdsD] at hpy
    · simp only [List.map_append, List.map_cons, List.map_nil, List.mem_append, List.mem_singleton, not_or]
      refine ⟨gotH i y p hy' hpy, ?_⟩
      rintro rfl
      exact hne (uniqD _ _ _ _ p hy' ht hpy hhd)
  · intro p hpp
    simp only [List.map_append, List.map_cons, List.map_nil, List.mem_append, List.mem_singleton]
    by_cases e : p = pos
    · exact Or.inl (Or.inr e)
    · rcases gotA p hpp with h | h
      · exact Or.inl (Or.inl h)
      · exact Or.inr (hheld _ _ (by rw [hhd]; simp only [ne_eq, Option.some.injEq]; omega) h)

end Verif.Mpmc
