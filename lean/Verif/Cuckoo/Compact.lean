import Verif.Cuckoo.Shift
import Verif.Cuckoo.Prime
/-!
# Compaction
-/
namespace Verif.Cuckoo

/-- An entry that was kept apart: its first bucket is full and its key is not the empty key. -/
def Apart (t : Table) (ps : List Slot) : Prop := ∀ p ∈ ps, p.key ≠ t.empty ∧ Full t (id0 t.cnt p.key)

theorem Apart.mono {t t' : Table} {ps : List Slot} (h : Apart t ps) (hs : Same t t')
    (hf : ∀ b, Full t b → Full t' b) : Apart t' ps := by
  intro p hp
  refine ⟨by rw [hs.empty]; exact (h p hp).1, ?_⟩
  rw [hs.cnt]
  exact hf _ (h p hp).2

/-- Copying keeps every entry: in the table or apart. -/
theorem copyKeep_ok (limit : Nat) : ∀ (ss : List Slot) (t : Table) (L ps : List Slot), Rep t L →
    Apart t ps → ((used t.empty ss ++ (L ++ ps)).map Slot.key).Nodup →
    ∀ t' ps', copyKeep limit ss t ps = (t', ps') → Same t t' ∧ Apart t' ps' ∧
      ∃ L', Rep t' L' ∧ (L' ++ ps').Perm (used t.empty ss ++ (L ++ ps)) := by
  intro ss
  induction ss with
  | nil =>
    intro t L ps hR hA _ t' ps' h
    simp only [copyKeep, Prod.mk.injEq] at h
    obtain ⟨rfl, rfl⟩ := h
    exact ⟨Same.refl _, hA, L, hR, List.Perm.refl _⟩
  | cons s ss ih =>
    intro t L ps hR hA hn t' ps' h
    simp only [copyKeep] at h
    by_cases he : s.key = t.empty
    · rw [if_pos he] at h
      rw [used_cons_empty he] at hn ⊢
      obtain ⟨a1, a2, a3⟩ := ih { t with pkey := s.key } L ps (hR.congr rfl rfl rfl) hA hn t' ps' h
      exact ⟨⟨a1.cnt, a1.empty, a1.emptySet, a1.size, a1.growth⟩, a2, a3⟩
    · rw [if_neg he] at h
      rw [used_cons he] at hn ⊢
      have hnot : s.key ∉ L.map Slot.key := by
        intro hm
        simp only [List.cons_append, List.map_cons, List.nodup_cons, List.map_append, List.mem_append,
          not_or] at hn
        exact hn.1.2.1 hm
      cases hc : copyOne t s limit with
      | mk t1 o =>
        rw [hc] at h
        obtain ⟨k1, km, k2, k3⟩ := copyOne_ok hR he hnot hc
        cases o with
        | some d =>
          simp only at h
          have hp : (used t.empty ss ++ (s :: L ++ ps)).Perm (s :: used t.empty ss ++ (L ++ ps)) :=
            List.perm_middle
          obtain ⟨a1, a2, L', a3, a4⟩ := ih t1 (s :: L) ps (k2 d rfl) (hA.mono k1 km) (by
            rw [k1.empty]
            exact (hp.map _).nodup_iff.2 hn) t' ps' h
          rw [k1.empty] at a4
          exact ⟨k1.trans a1, a2, L', a3, a4.trans hp⟩
        | none =>
          simp only at h
          obtain ⟨⟨L1, r1, r2, r3⟩, r4, _⟩ := k3 rfl
          have hp : (used t.empty ss ++ (L1 ++ (ps ++ [cur t1]))).Perm
              (s :: used t.empty ss ++ (L ++ ps)) := by
            have e1 : (L1 ++ (ps ++ [cur t1])).Perm (cur t1 :: L1 ++ ps) := by
              rw [← List.append_assoc]
              exact List.perm_append_singleton _ _
            have e2 : (L1 ++ (ps ++ [cur t1])).Perm (s :: L ++ ps) := e1.trans (r3.append_right ps)
            exact (e2.append_left _).trans List.perm_middle
          obtain ⟨a1, a2, L', a3, a4⟩ := ih t1 L1 (ps ++ [cur t1]) r1 (by
            intro p hp2
            rcases List.mem_append.1 hp2 with hp2 | hp2
            · exact hA.mono k1 km p hp2
            · rw [List.mem_singleton.1 hp2]
              exact ⟨r2.1, r4⟩) (by
            rw [k1.empty]
            exact (hp.map _).nodup_iff.2 hn) t' ps' h
          rw [k1.empty] at a4
          exact ⟨k1.trans a1, a2, L', a3, a4.trans hp⟩

/-- What an attempt to place `tot` leaves: all of it, or a strict part. -/
def Placed (t : Table) (tot : List Slot) (ok : Bool) : Prop :=
  if ok then Rep t tot else ∃ L lost, lost ≠ [] ∧ Rep t L ∧ (L ++ lost).Perm tot

theorem Placed.perm {t : Table} {tot tot' : List Slot} {ok : Bool} (h : Placed t tot ok)
    (hp : tot.Perm tot') : Placed t tot' ok := by
  unfold Placed at *
  cases ok with
  | true => exact Rep.perm h hp
  | false =>
    obtain ⟨L, lost, a, b, c⟩ := h
    exact ⟨L, lost, a, b, c.trans hp⟩

theorem problemLoop_ok : ∀ (ps : List Slot) (t : Table) (info : Info) (L : List Slot), Rep t L →
    Clean t info → Apart t ps → ((L ++ ps).map Slot.key).Nodup →
    ∃ ok t', problemLoop ps t info = some (ok, t') ∧ Same t t' ∧ Placed t' (L ++ ps) ok := by
  intro ps
  induction ps with
  | nil =>
    intro t info L hR _ _ _
    refine ⟨true, t, rfl, Same.refl _, ?_⟩
    rw [List.append_nil]
    exact hR
  | cons s ss ih =>
    intro t info L hR hC hA hn
    simp only [problemLoop]
    obtain ⟨hk, hfull⟩ := hA s List.mem_cons_self
    have hpm : (L ++ s :: ss).Perm (s :: L ++ ss) := List.perm_middle
    have hn' := (hpm.map Slot.key).nodup_iff.1 hn
    have hnot : s.key ∉ L.map Slot.key := by
      intro hm
      simp only [List.cons_append, List.map_cons, List.nodup_cons, List.map_append, List.mem_append,
        not_or] at hn'
      exact hn'.1.1 hm
    have hsame := setPVal_same t s
    have hcur := cur_setPVal t s
    have hbuf := setPVal_buf t s.key s.val
    generalize setPVal { t with pkey := s.key } s.val = t1 at *
    have hpk : t1.pkey = s.key := congrArg Slot.key hcur
    have hfm : ∀ b, Full t b → Full t1 b := by
      intro b hb i hi
      rw [hbuf, hsame.empty]
      exact hb i hi
    have hR1 : Rep t1 L := hR.congr hbuf hsame.cnt hsame.empty
    have hP1 : Pend t1 L := ⟨by rw [hpk, hsame.empty]; exact hk, by rw [hpk]; exact hnot⟩
    have hsh := shift_ok hR1 hP1 ⟨hC.cleared, fun x hx => hfm _ (hC.flag x hx)⟩ (by
      rw [hpk, hsame.cnt]
      exact hfm _ hfull)
    rw [hpk, hcur] at hsh
    cases hr : shiftExhaustive t1 info (id0 t1.cnt s.key) with
    | crash =>
      rw [hr] at hsh
      exact hsh.elim
    | found t2 info2 =>
      rw [hr] at hsh
      obtain ⟨b1, b2, b3, b4⟩ := hsh
      simp only
      obtain ⟨ok, t', c1, c2, c3⟩ := ih t2 info2 (s :: L) b1 b4 (by
        have hA' : Apart t ss := fun p hp => hA p (List.mem_cons_of_mem _ hp)
        exact (hA'.mono hsame hfm).mono b2 b3) hn'
      exact ⟨ok, t', c1, hsame.trans (b2.trans c2), c3.perm hpm.symm⟩
    | no t2 info2 =>
      rw [hr] at hsh
      obtain ⟨⟨L', d1, d2, d3⟩, b2⟩ := hsh
      simp only
      refine ⟨false, t2, rfl, hsame.trans b2, L', cur t2 :: ss, by simp, d1, ?_⟩
      exact List.perm_middle.trans ((d3.append_right ss).trans hpm.symm)

/-- The bucket counts that the tries of Compact use. -/
def tries : Nat → Nat → List Nat
  | 0, _ => []
  | k + 1, n =>
    n :: match getPrime (n + 2) with
      | none => []
      | some n' => tries k n'

theorem tries_odd : ∀ (k n : Nat), n % 2 = 1 → ∀ m ∈ tries k n, m % 2 = 1 := by
  intro k
  induction k with
  | zero =>
    intro n _ m hm
    cases hm
  | succ k ih =>
    intro n hn m hm
    simp only [tries, List.mem_cons] at hm
    rcases hm with rfl | hm
    · exact hn
    · cases hp : getPrime (n + 2) with
      | none =>
        rw [hp] at hm
        cases hm
      | some n' =>
        rw [hp] at hm
        exact ih n' (getPrime_some hp).2.1 m hm

theorem compactLoop_ok (old : List Slot) (tot : List Slot) : ∀ (k : Nat) (t : Table) (n : Nat), 2 ≤ n →
    (used t.empty old).Perm tot → (tot.map Slot.key).Nodup → (k = 0 → Placed t tot false) →
    ∃ ok t', compactLoop old k t n = some (ok, t') ∧ Kept t t' ∧ Placed t' tot ok ∧
      (t'.cnt ∈ tries k n ∨ k = 0 ∧ t' = t) := by
  intro k
  induction k with
  | zero =>
    intro t n _ _ _ h
    exact ⟨false, t, rfl, ⟨rfl, rfl, rfl, rfl⟩, h rfl, Or.inr ⟨rfl, rfl⟩⟩
  | succ k ih =>
    intro t n hn hu hnod _
    simp only [compactLoop]
    cases hc : copyKeep (shiftsLimit n * 2) old (allocate t n) [] with
    | mk t1 ps =>
      simp only
      obtain ⟨a1, a2, L1, a3, a4⟩ := copyKeep_ok _ old (allocate t n) [] [] (Rep.allocate hn)
        (by intro p hp; cases hp) (by
          rw [List.append_nil, List.append_nil]
          exact (hu.map _).nodup_iff.2 hnod) t1 ps hc
      rw [List.append_nil, List.append_nil] at a4
      have a5 : (L1 ++ ps).Perm tot := a4.trans hu
      obtain ⟨ok, t2, b1, b2, b3⟩ := problemLoop_ok ps t1 (fun _ => BState.init) L1 a3
        ⟨fun x => ⟨rfl, fun _ _ => rfl⟩, by
          intro x hx
          rcases hx with e | e <;> cases e⟩ a2 ((a5.map _).nodup_iff.2 hnod)
      unfold insertProblematic
      rw [b1]
      have hk : Kept t t2 := ⟨b2.empty.trans a1.empty, b2.emptySet.trans a1.emptySet,
        b2.size.trans a1.size, b2.growth.trans a1.growth⟩
      have hcn : t2.cnt ∈ tries (k + 1) n := by
        have e := b2.cnt.trans a1.cnt
        change t2.cnt = n at e
        rw [e]
        exact List.mem_cons_self
      cases ok with
      | true => exact ⟨true, t2, rfl, hk, b3.perm a5, Or.inl hcn⟩
      | false =>
        simp only
        obtain ⟨n', hp⟩ := getPrime_isSome (n + 2)
        rw [hp]
        simp only
        have hge := (getPrime_some hp).1
        obtain ⟨ok, t', c1, c2, c3, c4⟩ := ih t2 n' (by omega) (by rw [hk.empty]; exact hu) hnod
          (fun _ => b3.perm a5)
        refine ⟨ok, t', c1, ⟨c2.empty.trans hk.empty, c2.emptySet.trans hk.emptySet,
          c2.size.trans hk.size, c2.growth.trans hk.growth⟩, c3, ?_⟩
        rcases c4 with c4 | ⟨_, rfl⟩
        · refine Or.inl ?_
          simp only [tries, hp]
          exact List.mem_cons_of_mem _ c4
        · exact Or.inl hcn

/-- Compact ends, passes its checks, and keeps all entries or a strict part of them. -/
theorem compact_ok {t : Table} {L : List Slot} (hR : Rep t L) (want : Nat) :
    ∃ ok t', compact t want = some (ok, t') ∧ Kept t t' ∧ Placed t' L ok ∧
      (t' = t ∧ ok = true ∧ t.cnt < 128 ∨
        ∃ n, getPrime (max minBuckets (1 + want / bucketLen)) = some n ∧ t'.cnt ∈ tries 10 n) := by
  unfold compact
  by_cases hc : t.cnt < 128
  · rw [if_pos hc]
    exact ⟨true, t, rfl, ⟨rfl, rfl, rfl, rfl⟩, hR, Or.inl ⟨rfl, rfl, hc⟩⟩
  · rw [if_neg hc]
    obtain ⟨n, hp⟩ := getPrime_isSome (max minBuckets (1 + want / bucketLen))
    rw [hp]
    have hge := (getPrime_some hp).1
    have : minBuckets = 16 := rfl
    obtain ⟨ok, t', a1, a2, a3, a4⟩ :=
      compactLoop_ok _ L 10 t n (by omega) (slotsOf_used hR) hR.nodup (by intro e; cases e)
    refine ⟨ok, t', a1, a2, a3, Or.inr ⟨n, rfl, ?_⟩⟩
    rcases a4 with a4 | ⟨e, _⟩
    · exact a4
    · cases e

end Verif.Cuckoo
