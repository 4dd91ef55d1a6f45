import Verif.Cuckoo.Compact
import Verif.Common.Run
/-!
# The table against the dictionary
-/
namespace Verif.Cuckoo

/-- The table holds what the dictionary holds. -/
structure R (t : Table) (d : Dict) (L : List Slot) : Prop where
  rep : Rep t L
  emptySet : t.emptySet = d.emptyKey.isSome
  empty : t.empty = d.emptyKey.getD 0
  size : t.size = d.size
  len : L.length = d.size
  get : ∀ k v, d.get k = some v ↔ ⟨k, v⟩ ∈ L
  bare : d.emptyKey = none → L = []

theorem R.get_none {t : Table} {d : Dict} {L : List Slot} (h : R t d L) {k : Nat} (hk : d.get k = none) :
    k ∉ L.map Slot.key := by
  intro hm
  obtain ⟨⟨k', v⟩, hs, rfl⟩ := List.mem_map.1 hm
  have := (h.get k' v).2 hs
  simp only at hk
  rw [hk] at this
  cases this

/-- The bucket count of a table with the same entries may change. -/
theorem R.same {t t' : Table} {d : Dict} {L : List Slot} (h : R t d L) (hR : Rep t' L)
    (he : t'.empty = t.empty) (hs : t'.emptySet = t.emptySet) (hz : t'.size = t.size) : R t' d L :=
  ⟨hR, hs.trans h.emptySet, he.trans h.empty, hz.trans h.size, h.len, h.get, h.bare⟩

theorem Rep.blank {t : Table} (h : 2 ≤ t.cnt) (hb : ∀ b i, (t.buf b i).key = t.empty) : Rep t [] := by
  refine ⟨h, ?_, ?_, ?_, List.nodup_nil⟩
  · intro b i _ _ hn
    exact absurd (hb b i) hn
  · intro s hs
    cases hs
  · intro b i b' i' _ _ _ _ hn
    exact absurd (hb b i) hn

theorem init_ok {g0 : Nat → Nat} {t t' : Table} {want : Nat} (hw : 2 ≤ want) (h : init g0 t want = some t') :
    Rep t' [] ∧ t'.empty = t.empty ∧ t'.emptySet = t.emptySet ∧ t'.size = t.size ∧ t'.cnt % 2 = 1 ∧
      want ≤ t'.cnt := by
  unfold init at h
  cases hp : getPrime want with
  | none =>
    rw [hp] at h
    cases h
  | some n =>
    rw [hp] at h
    simp only [Option.some.injEq] at h
    subst h
    obtain ⟨h1, h2, _⟩ := getPrime_some hp
    exact ⟨Rep.allocate (by omega), rfl, rfl, rfl, h2, h1⟩

theorem init_total (g0 : Nat → Nat) (t : Table) (want : Nat) : ∃ t', init g0 t want = some t' := by
  obtain ⟨p, hp⟩ := getPrime_isSome want
  exact ⟨_, by unfold init; rw [hp]⟩

theorem create_ok {g0 : Nat → Nat} {c : Nat} {t : Table} (h : create g0 c = some t) :
    R t Dict.new [] ∧ t.cnt % 2 = 1 := by
  unfold create at h
  have hm : minBuckets = 16 := rfl
  obtain ⟨a1, a2, a3, a4, a5, _⟩ := init_ok (by omega) h
  refine ⟨⟨a1, a3, a2, a4, rfl, ?_, fun _ => rfl⟩, a5⟩
  intro k v
  constructor
  · intro e
    cases e
  · intro e
    cases e

theorem reserve_ok {g0 : Nat → Nat} {f c : Nat} {t t' : Table} {d : Dict} {L : List Slot} (h : R t d L)
    (hr : reserve f g0 t c = some t') : R t' d L := by
  unfold reserve at hr
  split at hr
  · simp only [Option.some.injEq] at hr
    subst hr
    exact h
  · rename_i hc
    split at hr
    · rename_i hz
      have hcap : capacity t = t.cnt * 4 := rfl
      have h2 := h.rep.cnt2
      have hb : bucketLen = 4 := rfl
      have hL : L = [] := by
        have := h.len
        have := h.size
        exact List.length_eq_zero_iff.1 (by omega)
      subst hL
      obtain ⟨a1, a2, a3, a4, _, _⟩ := init_ok (by rw [hb]; omega) hr
      exact h.same a1 a2 a3 a4
    · obtain ⟨a1, a2, _⟩ := grow_ok h.rep hr
      exact h.same a2 a1.empty a1.emptySet a1.size

/-- One call: the same answer, unless Compact fails. -/
theorem step_ok {g0 : Nat → Nat} {f : Nat} {t t' : Table} {d d' : Dict} {L : List Slot} {op : Op}
    {o o' : Obs} (h : R t d L) (hs : step g0 f t op = some (o, t')) (hd : dictStep d op = some (o', d'))
    (hf : o ≠ .compacted false) : o = o' ∧ ∃ L', R t' d' L' := by
  cases op with
  | setEmpty k =>
    simp only [step, setEmptyKey] at hs
    simp only [dictStep] at hd
    split at hd
    · rename_i hn
      have hL := h.bare hn
      subst hL
      simp only [Option.some.injEq, Prod.mk.injEq] at hd
      obtain ⟨rfl, rfl⟩ := hd
      have hes : t.emptySet = false := by rw [h.emptySet, hn]; rfl
      rw [hes] at hs
      simp only [Bool.false_eq_true, if_false, Option.some.injEq, Prod.mk.injEq] at hs
      obtain ⟨rfl, rfl⟩ := hs
      exact ⟨rfl, [], Rep.blank h.rep.cnt2 (fun _ _ => rfl), rfl, rfl, h.size, h.len, h.get, fun _ => rfl⟩
    · cases hd
  | insert k v =>
    simp only [dictStep] at hd
    cases hE : d.emptyKey with
    | none =>
      rw [hE] at hd
      cases hd
    | some e =>
      rw [hE] at hd
      simp only at hd
      split at hd
      · cases hd
      · rename_i hke
        have hte : t.empty = e := by rw [h.empty, hE]; rfl
        cases hg : d.get k with
        | some w =>
          rw [hg] at hd
          simp only [Option.some.injEq, Prod.mk.injEq] at hd
          obtain ⟨rfl, rfl⟩ := hd
          obtain ⟨x, h1, h2⟩ := insert_old (f := f) h.rep ((h.get k w).1 hg) v
          simp only [step] at hs
          rw [h1] at hs
          simp only [Option.some.injEq, Prod.mk.injEq, Option.map_some, h2] at hs
          obtain ⟨rfl, rfl⟩ := hs
          exact ⟨rfl, L, h⟩
        | none =>
          rw [hg] at hd
          simp only [Option.some.injEq, Prod.mk.injEq] at hd
          obtain ⟨rfl, rfl⟩ := hd
          have hnot := h.get_none hg
          simp only [step] at hs
          cases hi : insert f t k v with
          | none =>
            rw [hi] at hs
            cases hs
          | some r =>
            obtain ⟨⟨x, b⟩, t1⟩ := r
            rw [hi] at hs
            simp only [Option.some.injEq, Prod.mk.injEq] at hs
            obtain ⟨rfl, rfl⟩ := hs
            obtain ⟨a1, a2, a3, a4, a5, a6⟩ := insert_new h.rep (by rw [hte]; exact hke) hnot hi
            rw [a1, a3]
            refine ⟨rfl, ⟨k, v⟩ :: L, a2, ?_, ?_, ?_, ?_, ?_, ?_⟩
            · rw [a5, h.emptySet, hE]
            · rw [a4, h.empty, hE]
            · rw [a6, h.size]
            · simp only [List.length_cons, h.len]
            · intro k' v'
              simp only
              by_cases hk : k' = k
              · subst hk
                simp only [if_true, Option.some.injEq, List.mem_cons, Slot.mk.injEq, true_and]
                constructor
                · intro e1
                  exact Or.inl e1.symm
                · rintro (e1 | e1)
                  · exact e1.symm
                  · exact absurd (List.mem_map_of_mem (f := Slot.key) e1) hnot
              · rw [if_neg hk, h.get]
                simp [hk]
            · intro e1
              cases e1
  | find k =>
    simp only [dictStep] at hd
    split at hd
    · cases hd
    · rename_i hk
      simp only [Option.some.injEq, Prod.mk.injEq] at hd
      obtain ⟨rfl, rfl⟩ := hd
      simp only [step, Option.some.injEq, Prod.mk.injEq] at hs
      obtain ⟨rfl, rfl⟩ := hs
      refine ⟨?_, L, h⟩
      cases hg : d.get k with
      | none =>
        rw [find_not_mem h.rep (by rw [h.empty]; exact hk) (h.get_none hg)]
        rfl
      | some v =>
        obtain ⟨x, h1, h2⟩ := find_mem h.rep ((h.get k v).1 hg)
        simp only at h1
        rw [h1]
        simp only [Option.map_some, h2]
  | reserve c =>
    simp only [dictStep, Option.some.injEq, Prod.mk.injEq] at hd
    obtain ⟨rfl, rfl⟩ := hd
    simp only [step] at hs
    cases hr : reserve f g0 t c with
    | none =>
      rw [hr] at hs
      cases hs
    | some t1 =>
      rw [hr] at hs
      simp only [Option.some.injEq, Prod.mk.injEq] at hs
      obtain ⟨rfl, rfl⟩ := hs
      exact ⟨rfl, L, reserve_ok h hr⟩
  | setGrowth g =>
    simp only [dictStep, Option.some.injEq, Prod.mk.injEq] at hd
    obtain ⟨rfl, rfl⟩ := hd
    simp only [step, Option.some.injEq, Prod.mk.injEq] at hs
    obtain ⟨rfl, rfl⟩ := hs
    exact ⟨rfl, L, h.same (h.rep.congr rfl rfl rfl) rfl rfl rfl⟩
  | clear =>
    simp only [dictStep, Option.some.injEq, Prod.mk.injEq] at hd
    obtain ⟨rfl, rfl⟩ := hd
    simp only [step, Option.some.injEq, Prod.mk.injEq] at hs
    obtain ⟨rfl, rfl⟩ := hs
    refine ⟨rfl, [], Rep.blank h.rep.cnt2 (fun _ _ => rfl), h.emptySet, h.empty, rfl, rfl, ?_, fun _ => rfl⟩
    intro k v
    constructor
    · intro e
      cases e
    · intro e
      cases e
  | compact r =>
    simp only [dictStep, Option.some.injEq, Prod.mk.injEq] at hd
    obtain ⟨rfl, rfl⟩ := hd
    simp only [step] at hs
    obtain ⟨ok, t1, h1, h2, h3, _⟩ := compact_ok h.rep (r t.size)
    rw [h1] at hs
    simp only [Option.some.injEq, Prod.mk.injEq] at hs
    obtain ⟨rfl, rfl⟩ := hs
    cases ok with
    | false => exact absurd rfl hf
    | true => exact ⟨rfl, L, h.same h3 h2.empty h2.emptySet h2.size⟩
  | size =>
    simp only [dictStep, Option.some.injEq, Prod.mk.injEq] at hd
    obtain ⟨rfl, rfl⟩ := hd
    simp only [step, Option.some.injEq, Prod.mk.injEq] at hs
    obtain ⟨rfl, rfl⟩ := hs
    exact ⟨by rw [h.size], L, h⟩

/-! ## The bucket count is odd -/

theorem growLoop_odd (old : List Slot) (low : Nat) : ∀ (f : Nat) (t t' : Table),
    2 ≤ t.cnt → ((used t.empty old).map Slot.key).Nodup → growLoop old low f t = some t' → t'.cnt % 2 = 1 := by
  intro f
  induction f with
  | zero =>
    intro t t' _ _ h
    cases h
  | succ f ih =>
    intro t t' hc hn h
    simp only [growLoop] at h
    cases hp : getPrime (max (t.growth t.cnt) low) with
    | none =>
      rw [hp] at h
      cases h
    | some n =>
      rw [hp] at h
      simp only at h
      split at h
      · rename_i hlt
        cases hca : copyAll (shiftsLimit n * 2) old (allocate t n) with
        | mk t1 ok =>
          rw [hca] at h
          obtain ⟨k1, _⟩ := copyAll_ok _ old (allocate t n) [] (Rep.allocate (by omega)) (by
            rw [List.append_nil]
            exact hn) t1 ok hca
          have e1 := k1.cnt
          change t1.cnt = n at e1
          have e2 := k1.empty
          change t1.empty = t.empty at e2
          cases ok with
          | true =>
            simp only [Option.some.injEq] at h
            subst h
            rw [e1]
            exact (getPrime_some hp).2.1
          | false =>
            simp only at h
            exact ih t1 t' (by omega) (by rw [e2]; exact hn) h
      · cases h

theorem grow_odd {f low : Nat} {t t' : Table} {L : List Slot} (hR : Rep t L) (h : grow f t low = some t') :
    t'.cnt % 2 = 1 := by
  unfold grow at h
  cases hg : growLoop (slotsOf t.buf t.cnt) low f t with
  | none =>
    rw [hg] at h
    cases h
  | some t1 =>
    rw [hg] at h
    simp only [Option.some.injEq] at h
    subst h
    have := growLoop_odd _ low f t t1 hR.cnt2 (((slotsOf_used hR).map _).nodup_iff.2 hR.nodup) hg
    unfold setPVal
    split <;> exact this

theorem insertLoop_odd (gf : Nat) : ∀ (f : Nat) (t : Table) (grew : Bool) (L : List Slot), Rep t L →
    Pend t L → t.cnt % 2 = 1 → ∀ t' d g, insertLoop gf f t grew = some (t', d, g) →
      t'.cnt % 2 = 1 ∧ t.cnt ≤ t'.cnt := by
  intro f
  induction f with
  | zero =>
    intro t grew L _ _ _ t' d g h
    cases h
  | succ f ih =>
    intro t grew L hR hP ho t' d g h
    simp only [insertLoop] at h
    cases hr : roll (shiftsLimit t.cnt) t (id0 t.cnt t.pkey) (id1 t.cnt t.pkey) with
    | mk t1 o =>
      rw [hr] at h
      obtain ⟨k1, _, _, k3⟩ := roll_ok hR hP hr
      cases o with
      | some d1 =>
        simp only [Option.some.injEq, Prod.mk.injEq] at h
        obtain ⟨rfl, _⟩ := h
        rw [k1.cnt]
        exact ⟨ho, Nat.le_refl _⟩
      | none =>
        simp only at h
        obtain ⟨⟨L1, hR1, hP1, _⟩, _, _⟩ := k3 rfl
        cases hg : grow gf t1 0 with
        | none =>
          rw [hg] at h
          cases h
        | some t2 =>
          rw [hg] at h
          simp only at h
          obtain ⟨g1, g2, g3⟩ := grow_ok hR1 hg
          have hpk : t2.pkey = t1.pkey := congrArg Slot.key g3
          obtain ⟨a1, a2⟩ := ih t2 true L1 g2 ⟨by rw [hpk, g1.empty]; exact hP1.1, by
            rw [hpk]; exact hP1.2⟩ (grow_odd hR1 hg) t' d g h
          have := g1.cnt
          have := k1.cnt
          exact ⟨a1, by omega⟩

theorem ctz_odd {n : Nat} (h : n % 2 = 1) : ∀ f, ctz f n = 0 := by
  intro f
  cases f with
  | zero => rfl
  | succ f =>
    unfold ctz
    rw [if_pos h]

theorem shiftsLimit_odd {n : Nat} (h : n % 2 = 1) : shiftsLimit n = 0 := by
  unfold shiftsLimit
  rw [ctz_odd h, Nat.zero_mul]

theorem insert_odd {f : Nat} {t t' : Table} {L : List Slot} {k v : Nat} {r : Option Nat × Bool}
    (hR : Rep t L) (hk : k ≠ t.empty) (ho : t.cnt % 2 = 1) (h : insert f t k v = some (r, t')) :
    t'.cnt % 2 = 1 := by
  unfold insert at h
  cases hf : find t k with
  | some d =>
    rw [hf] at h
    simp only [Option.some.injEq, Prod.mk.injEq] at h
    rw [← h.2]
    exact ho
  | none =>
    rw [hf] at h
    simp only at h
    have hnot : k ∉ L.map Slot.key := by
      intro hm
      obtain ⟨s, hs, rfl⟩ := List.mem_map.1 hm
      obtain ⟨d, h1, _⟩ := find_mem hR hs
      rw [hf] at h1
      cases h1
    have hsame := setPVal_same t ⟨k, v⟩
    have hcur := cur_setPVal t ⟨k, v⟩
    have hbuf := setPVal_buf t k v
    simp only at hsame hcur
    generalize setPVal { t with pkey := k } v = t1 at *
    have hpk : t1.pkey = k := congrArg Slot.key hcur
    cases hl : insertLoop f f t1 false with
    | none =>
      rw [hl] at h
      cases h
    | some x =>
      obtain ⟨t2, d, g⟩ := x
      rw [hl] at h
      simp only [Option.some.injEq, Prod.mk.injEq] at h
      obtain ⟨_, rfl⟩ := h
      exact (insertLoop_odd f f t1 false L (hR.congr hbuf hsame.cnt hsame.empty)
        ⟨by rw [hpk, hsame.empty]; exact hk, by rw [hpk]; exact hnot⟩ (by rw [hsame.cnt]; exact ho)
        t2 d g hl).1

theorem step_odd {g0 : Nat → Nat} {f : Nat} {t t' : Table} {d d' : Dict} {L : List Slot} {op : Op}
    {o o' : Obs} (h : R t d L) (hs : step g0 f t op = some (o, t')) (hd : dictStep d op = some (o', d'))
    (ho : t.cnt % 2 = 1) : t'.cnt % 2 = 1 := by
  cases op with
  | setEmpty k =>
    simp only [step, setEmptyKey] at hs
    split at hs
    · rename_i x hx
      split at hx
      · cases hx
      · simp only [Option.some.injEq] at hx
        simp only [Option.some.injEq, Prod.mk.injEq] at hs
        rw [← hs.2, ← hx]
        exact ho
    · cases hs
  | insert k v =>
    have hk : k ≠ t.empty := by
      intro e
      simp only [dictStep] at hd
      cases hE : d.emptyKey with
      | none =>
        rw [hE] at hd
        cases hd
      | some x =>
        rw [hE] at hd
        have := h.empty
        rw [hE] at this
        simp only [e, this, Option.getD_some, if_true] at hd
        cases hd
    simp only [step] at hs
    cases hi : insert f t k v with
    | none =>
      rw [hi] at hs
      cases hs
    | some r =>
      obtain ⟨⟨x, b⟩, t1⟩ := r
      rw [hi] at hs
      simp only [Option.some.injEq, Prod.mk.injEq] at hs
      rw [← hs.2]
      exact insert_odd h.rep hk ho hi
  | find k =>
    simp only [step, Option.some.injEq, Prod.mk.injEq] at hs
    rw [← hs.2]
    exact ho
  | reserve c =>
    simp only [step] at hs
    cases hr : reserve f g0 t c with
    | none =>
      rw [hr] at hs
      cases hs
    | some t1 =>
      rw [hr] at hs
      simp only [Option.some.injEq, Prod.mk.injEq] at hs
      rw [← hs.2]
      unfold reserve at hr
      split at hr
      · simp only [Option.some.injEq] at hr
        rw [← hr]
        exact ho
      · rename_i hc
        split at hr
        · have hcap : capacity t = t.cnt * 4 := rfl
          have h2 := h.rep.cnt2
          have hb : bucketLen = 4 := rfl
          exact (init_ok (by rw [hb]; omega) hr).2.2.2.2.1
        · exact grow_odd h.rep hr
  | setGrowth g =>
    simp only [step, Option.some.injEq, Prod.mk.injEq] at hs
    rw [← hs.2]
    exact ho
  | clear =>
    simp only [step, Option.some.injEq, Prod.mk.injEq] at hs
    rw [← hs.2]
    exact ho
  | compact r =>
    simp only [step] at hs
    obtain ⟨ok, t1, h1, _, _, h4⟩ := compact_ok h.rep (r t.size)
    rw [h1] at hs
    simp only [Option.some.injEq, Prod.mk.injEq] at hs
    rw [← hs.2]
    rcases h4 with ⟨rfl, _⟩ | ⟨n, hp, hm⟩
    · exact ho
    · exact tries_odd 10 n (getPrime_some hp).2.1 _ hm
  | size =>
    simp only [step, Option.some.injEq, Prod.mk.injEq] at hs
    rw [← hs.2]
    exact ho

theorem run_ok {g0 : Nat → Nat} {f : Nat} : ∀ (ops : List Op) (t t' : Table) (d d' : Dict) (L : List Slot)
    (os os' : List Obs), R t d L → Common.run (step g0 f) t ops = some (os, t') →
    Common.run dictStep d ops = some (os', d') → Obs.compacted false ∉ os → os = os' ∧ (∃ L', R t' d' L') ∧ (t.cnt % 2 = 1 → t'.cnt % 2 = 1) := by
  intro ops
  induction ops with
  | nil =>
    intro t t' d d' L os os' h hr hd _
    simp only [Common.run, Option.some.injEq, Prod.mk.injEq] at hr hd
    obtain ⟨rfl, rfl⟩ := hr
    obtain ⟨rfl, rfl⟩ := hd
    exact ⟨rfl, ⟨L, h⟩, fun e => e⟩
  | cons op ops ih =>
    intro t t' d d' L os os' h hr hd hf
    simp only [Common.run] at hr hd
    cases h1 : step g0 f t op with
    | none =>
      rw [h1] at hr
      cases hr
    | some p =>
      obtain ⟨o, t1⟩ := p
      rw [h1] at hr
      cases h2 : dictStep d op with
      | none =>
        rw [h2] at hd
        cases hd
      | some q =>
        obtain ⟨o', d1⟩ := q
        rw [h2] at hd
        simp only at hr hd
        cases h3 : Common.run (step g0 f) t1 ops with
        | none =>
          rw [h3] at hr
          cases hr
        | some p2 =>
          obtain ⟨os1, t2⟩ := p2
          rw [h3] at hr
          cases h4 : Common.run dictStep d1 ops with
          | none =>
            rw [h4] at hd
            cases hd
          | some q2 =>
            obtain ⟨os2, d2⟩ := q2
            rw [h4] at hd
            simp only [Option.some.injEq, Prod.mk.injEq] at hr hd
            obtain ⟨rfl, rfl⟩ := hr
            obtain ⟨rfl, rfl⟩ := hd
            simp only [List.mem_cons, not_or] at hf
            obtain ⟨e1, L1, hR1⟩ := step_ok h h1 h2 (fun e => hf.1 e.symm)
            obtain ⟨e2, hR2, e3⟩ := ih t1 t2 d1 d2 L1 os1 os2 hR1 h3 h4 hf.2
            exact ⟨by rw [e1, e2], hR2, fun e => e3 (step_odd h h1 h2 e)⟩

end Verif.Cuckoo
