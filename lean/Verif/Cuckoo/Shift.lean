import Verif.Cuckoo.Clean
/-!
# The exhaustive search ends, keeps every entry, and fails no check
-/
namespace Verif.Cuckoo

/-! ## A measure that decreases -/

def total (w : Nat → Nat) : Nat → Nat
  | 0 => 0
  | n + 1 => total w n + w n

theorem total_le {w w' : Nat → Nat} : ∀ n, (∀ x, x < n → w' x ≤ w x) → total w' n ≤ total w n := by
  intro n
  induction n with
  | zero => intro _; exact Nat.le_refl _
  | succ n ih =>
    intro h
    have h1 := ih (fun x hx => h x (by omega))
    have h2 := h n (by omega)
    simp only [total]
    omega

theorem total_lt {w w' : Nat → Nat} : ∀ n, (∀ x, x < n → w' x ≤ w x) → (∃ x, x < n ∧ w' x < w x) →
    total w' n < total w n := by
  intro n
  induction n with
  | zero =>
    rintro _ ⟨x, hx, _⟩
    omega
  | succ n ih =>
    rintro h ⟨x, hx, hlt⟩
    simp only [total]
    have h2 := h n (by omega)
    by_cases hxn : x = n
    · have h1 := total_le n (fun y hy => h y (by omega))
      rw [hxn] at hlt
      omega
    · have h1 := ih (fun y hy => h y (by omega)) ⟨x, by omega, hlt⟩
      omega

theorem total_const {w : Nat → Nat} {c : Nat} : ∀ n, (∀ x, x < n → w x ≤ c) → total w n ≤ c * n := by
  intro n
  induction n with
  | zero => intro _; exact Nat.le_refl _
  | succ n ih =>
    intro h
    have h1 := ih (fun x hx => h x (by omega))
    have h2 := h n (by omega)
    simp only [total, Nat.mul_succ]
    omega

def weight (info : Info) (stack : List Nat) (x : Nat) : Nat :=
  if (info x).explored then 2 * numKids (info x) + (if x ∈ stack then 1 else 0)
  else if x ∈ stack then 11 else 12

theorem weight_le (info : Info) (stack : List Nat) (x : Nat) : weight info stack x ≤ 12 := by
  have := numKids_le (info x)
  unfold weight
  split
  · split <;> omega
  · split <;> omega

theorem weight_expl {info : Info} {stack : List Nat} {x : Nat} (h : (info x).explored = true) :
    weight info stack x = 2 * numKids (info x) + (if x ∈ stack then 1 else 0) := by
  unfold weight
  rw [if_pos h]

theorem weight_in {info : Info} {stack : List Nat} {x : Nat} (h : (info x).explored = false)
    (hx : x ∈ stack) : weight info stack x = 11 := by
  unfold weight
  rw [h, if_neg (by decide), if_pos hx]

theorem weight_out {info : Info} {stack : List Nat} {x : Nat} (h : (info x).explored = false)
    (hx : x ∉ stack) : weight info stack x = 12 := by
  unfold weight
  rw [h, if_neg (by decide), if_neg hx]

theorem weight_congr {info info' : Info} {stack stack' : List Nat} {x : Nat} (h : info' x = info x)
    (hx : x ∈ stack' ↔ x ∈ stack) : weight info' stack' x = weight info stack x := by
  unfold weight
  rw [h]
  simp only [hx]

/-! ## The end of a successful search -/

theorem Fresh.done {bid p0 : Nat} {tot : List Slot} {t : Table} {info info1 : Info} {v : Nat}
    {rest : List Nat} {mask : Nat → Bool} {k e vc : Nat} (h : Fresh bid p0 tot t info v rest)
    (he : (info v).explored = false) (hm : Marked t v info info1 mask) (hk4 : k < 4)
    (hkm : mask k = false) (hfe : firstEmpty t (tgt t v k) = some e) {t1 : Table} {info' : Info}
    (ht1 : t1 = insertInto (swapPending t v k) (tgt t v k) e)
    (hi : info' = if (List.range bucketLen).any mask then setInfo info1 v (setExplored (info1 v) mask)
        else info1) :
    Rep t1 tot ∧ Same t t1 ∧ (∀ b, Full t b → Full t1 b) ∧
      Clean t1 (cleanUp ⟨t1, info', v :: rest, vc⟩) := by
  obtain ⟨core, arr, work, start⟩ := h
  have h2 := work.cnt2
  have hnod := List.nodup_cons.1 core.nodup
  have hfull : Full t v := core.flag v (Or.inr (Or.inl (core.visStack v List.mem_cons_self)))
  have hhome := arr.home start
  obtain ⟨hw, hh⟩ := work.swap (i := k) hk4 hfull hhome
  obtain ⟨he4, hek⟩ := firstEmpty_some hfe
  have hutv : tgt t v k ≠ v := nextBucket_ne h2
  obtain ⟨L, hR, hP, hp⟩ := hw.ex
  have hek2 : ((swapPending t v k).buf (tgt t v k) e).key = (swapPending t v k).empty := by
    rw [buf_swap, put_apply, if_neg (fun c => hutv c.1)]
    exact hek
  have hrep : Rep t1 tot := by
    rw [ht1]
    exact (hR.insertInto hP he4 hek2 (nextBucket_home _ _ _)).perm hp
  have hsame : Same t t1 := by
    rw [ht1]
    exact (swapPending_same _ _ _).trans (insertInto_same _ _ _)
  have hmono : ∀ b, Full t b → Full t1 b := by
    intro b hb
    rw [ht1]
    exact (hb.swap work.pne).insertInto hP.1
  have hustack : tgt t v k ∉ v :: rest := by
    intro hc
    have := core.flag _ (Or.inr (Or.inl (core.visStack _ hc))) e he4
    exact this hek
  have htgt : ∀ w j, w ∈ v :: rest → ¬ (w = v ∧ j = k) → tgt t1 w j = tgt t w j := by
    intro w j hw hne
    unfold tgt
    have : t1.buf w j = t.buf w j := by
      rw [ht1, buf_insert, put_apply, if_neg, buf_swap, put_apply, if_neg hne]
      rintro ⟨e1, _⟩
      exact hustack (e1 ▸ hw)
    rw [this, hsame.cnt]
  have hkv := core.unexp v he
  -- the states after the search
  have hkids : ∀ x, x ≠ v → (info' x).kids = (info x).kids := by
    intro x hx
    rw [hi]
    split
    · rw [setInfo_ne _ _ hx]
      exact hm.kids x
    · exact hm.kids x
  have hkidsv : ∀ j, j < 4 → (info' v).kids j = mask j := by
    intro j hj
    rw [hi]
    split
    · rw [setInfo_same]
      unfold setExplored
      simp only [hm.kids v, hkv j hj, Bool.false_or]
    · rename_i hany
      rw [hm.kids v, hkv j hj]
      cases hc : mask j with
      | false => rfl
      | true =>
        exact absurd (List.any_eq_true.2 ⟨j, List.mem_range.2 hj, hc⟩) hany
  have hvis : ∀ x, (info' x).visited = (info1 x).visited := by
    intro x
    rw [hi]
    split
    · rw [setInfo_apply]
      split
      · rename_i e2; rw [e2]; rfl
      · rfl
    · rfl
  have hflags : Flags t1 info' := by
    intro x hx
    refine hmono x ?_
    have hx' : (x = v) ∨ (info x).explored = true ∨ (info1 x).full = true := by
      by_cases hxv : x = v
      · exact Or.inl hxv
      · right
        rw [hi] at hx
        split at hx
        · rw [setInfo_ne _ _ hxv, hm.expl] at hx
          exact hx
        · rw [hm.expl] at hx
          exact hx
    rcases hx' with a | a | a
    · rw [a]
      exact hfull
    · exact core.flag x (Or.inl a)
    · exact hm.full x a
  have hfk : ∀ x, x ≠ v → firstKid (info' x) = firstKid (info x) := by
    intro x hx
    unfold firstKid
    rw [hkids x hx]
  refine ⟨hrep, hsame, hmono, ?_⟩
  unfold cleanUp
  simp only
  split
  · refine cleanStack_ok hrep.cnt2 _ _ core.nodup ?_ ?_ ?_ hflags
    · -- tidy
      refine ⟨?_, ?_⟩
      · intro j hj hjk
        rw [hkidsv j hj] at hjk
        have hne : ¬ (v = v ∧ j = k) := by
          rintro ⟨_, rfl⟩
          rw [hkm] at hjk
          cases hjk
        rw [htgt v j List.mem_cons_self hne]
        left
        intro hc
        have h1 := core.visStack _ (List.mem_cons_of_mem _ hc)
        rw [(hm.new j hjk).2.1] at h1
        cases h1
      · cases rest with
        | nil => trivial
        | cons w r =>
          obtain ⟨c, a1, a2, a3, a4⟩ := arr
          have hwv : ∀ x ∈ w :: r, x ≠ v := fun x hx e2 => hnod.1 (e2 ▸ hx)
          refine Arr.tidy (bid := bid) (p0 := p0) hrep.cnt2 r w c ?_ ?_ ?_
          · rw [hfk w (hwv w List.mem_cons_self)]
            exact a1
          · have hb : ∀ x ∈ w :: r, ∀ j, t1.buf x j = t.buf x j := by
              intro x hx j
              rw [ht1, buf_insert, put_apply, if_neg, buf_swap, put_apply, if_neg]
              · rintro ⟨e1, _⟩
                exact hwv x hx e1
              · rintro ⟨e1, _⟩
                exact hustack (e1 ▸ List.mem_cons_of_mem _ hx)
            rw [hb w List.mem_cons_self]
            refine Arr.congr (t := t) (t' := t1) (info := info) hsame.cnt r w _ a4 ?_
            intro x hx
            exact ⟨hfk x (hwv x (List.mem_cons_of_mem _ hx)), hb x (List.mem_cons_of_mem _ hx)⟩
          · intro x hx j hj hjk hne
            have hxv := hwv x hx
            rw [hkids x hxv] at hjk
            rw [hfk x hxv] at hne
            have hlive : Live info (v :: w :: r) (w :: r) x j :=
              ⟨List.mem_cons_of_mem _ hx, hj, hjk, fun c2 => hne c2.2⟩
            rw [htgt x j (List.mem_cons_of_mem _ hx) (fun c2 => hxv c2.1)]
            have := (core.kid x j hlive).2.2
            exact fun c2 => this (List.mem_cons_of_mem _ c2)
    · intro x hx
      rw [hvis] at hx
      rcases (hm.vis x).1 hx with a | ⟨j, a, b⟩
      · rcases core.visOnly x a with e2 | ⟨w, j, hl, e2⟩
        · exact Or.inl e2
        · right
          have hwv : w ≠ v := by
            rintro rfl
            have := hl.2.2.1
            rw [hkv j hl.2.1] at this
            cases this
          refine ⟨w, j, hl.1, hl.2.1, ?_, ?_⟩
          · rw [hkids w hwv]
            exact hl.2.2.1
          · rw [htgt w j hl.1 (fun c2 => hwv c2.1)]
            exact e2
      · right
        have hj := (hm.new j a).1
        refine ⟨v, j, List.mem_cons_self, hj, by rw [hkidsv j hj]; exact a, ?_⟩
        rw [htgt v j List.mem_cons_self]
        · exact b
        · rintro ⟨_, rfl⟩
          rw [hkm] at a
          cases a
    · intro x j hj hjk
      by_cases hxv : x = v
      · rw [hxv]
        exact List.mem_cons_self
      · rw [hkids x hxv] at hjk
        cases hx : (info x).explored with
        | false =>
          rw [core.unexp x hx j hj] at hjk
          cases hjk
        | true =>
          rcases core.expl x hx with e2 | e2
          · exact e2
          · rw [e2.2 j hj] at hjk
            cases hjk
  · exact sweep_ok hflags

/-! ## The loop -/

/-- The states of the loop. -/
def Good (bid p0 : Nat) (tot : List Slot) (d : Dfs) : Prop :=
  match d.stack with
  | [] => Work d.t tot
  | v :: rest => Fresh bid p0 tot d.t d.info v rest ∨ Back bid p0 tot d.t d.info v rest

/-- What the search promises. -/
def ShiftSpec (t : Table) (tot : List Slot) : Shift → Prop
  | .found t1 info => Rep t1 tot ∧ Same t t1 ∧ (∀ b, Full t b → Full t1 b) ∧ Clean t1 info
  | .no t1 _ => Work t1 tot ∧ Same t t1
  | .crash => False

def TurnSpec (bid p0 : Nat) (tot : List Slot) (t : Table) (m : Nat) : Turn → Prop
  | .found d => Rep d.t tot ∧ Same t d.t ∧ (∀ b, Full t b → Full d.t b) ∧ Clean d.t (cleanUp d)
  | .go d => Good bid p0 tot d ∧ Same t d.t ∧ (∀ b, Full t b → Full d.t b) ∧
      total (weight d.info d.stack) d.t.cnt < m
  | .crash => False

/-- Going on from an explored bucket. -/
theorem advance_ok {bid p0 : Nat} {tot : List Slot} {d : Dfs} {v : Nat} {rest : List Nat}
    (h : Fresh bid p0 tot d.t d.info v rest ∨ Back bid p0 tot d.t d.info v rest)
    (he : (d.info v).explored = true) (hs : d.stack = v :: rest) :
    TurnSpec bid p0 tot d.t (total (weight d.info d.stack) d.t.cnt) (advance bid p0 d v rest) := by
  unfold advance
  cases hk : firstKid (d.info v) with
  | none =>
    have hf : Fresh bid p0 tot d.t d.info v rest := by
      rcases h with h | h
      · exact h
      · obtain ⟨c, e, _⟩ := h.arr
        rw [hk] at e
        cases e
    obtain ⟨p1, p2, p3⟩ := hf.pop hk he
    simp only [p1, p2, if_true]
    refine ⟨?_, Same.refl _, fun _ hb => hb, ?_⟩
    · unfold Good
      simp only
      cases rest with
      | nil => exact hf.work
      | cons w r => exact Or.inr (p3 w r rfl)
    · have hnod := List.nodup_cons.1 hf.core.nodup
      have hz := numKids_zero.2 (firstKid_none hk)
      have hlt : weight (setInfo d.info v { d.info v with visited := false }) rest v <
          weight d.info d.stack v := by
        have e1 : weight (setInfo d.info v { d.info v with visited := false }) rest v = 0 := by
          rw [weight_expl (by rw [setInfo_same]; exact he), setInfo_same, if_neg hnod.1]
          have hz2 : numKids { d.info v with visited := false } = numKids (d.info v) := rfl
          rw [hz2, hz]
        rw [e1, weight_expl he, hs, if_pos List.mem_cons_self]
        omega
      refine total_lt _ ?_ ⟨v, hf.core.stackLt v List.mem_cons_self, hlt⟩
      intro x _
      by_cases hx : x = v
      · rw [hx]
        exact Nat.le_of_lt hlt
      · refine Nat.le_of_eq (weight_congr (setInfo_ne _ _ hx) ?_)
        rw [hs]
        simp [hx]
  | some c =>
    obtain ⟨hc4, hck⟩ := firstKid_some hk
    simp only
    have hundo : Back bid p0 tot d.t d.info v rest →
        TurnSpec bid p0 tot d.t (total (weight d.info d.stack) d.t.cnt)
          (.go { d with t := swapPending d.t v c, info := setInfo d.info v (removeKid (d.info v) c) }) := by
      intro hb
      obtain ⟨u1, u2, u3⟩ := hb.undo hk
      refine ⟨?_, swapPending_same _ _ _, fun b hf => hf.swap hb.work.pne, ?_⟩
      · unfold Good
        simp only [hs]
        exact Or.inl u1
      · have hz := numKids_remove hc4 hck
        have hlt : weight (setInfo d.info v (removeKid (d.info v) c)) d.stack v <
            weight d.info d.stack v := by
          rw [weight_expl (by rw [setInfo_same]; exact he), weight_expl he, setInfo_same]
          omega
        refine total_lt _ ?_ ⟨v, hb.core.stackLt v List.mem_cons_self, hlt⟩
        intro x _
        by_cases hx : x = v
        · rw [hx]
          exact Nat.le_of_lt hlt
        · exact Nat.le_of_eq (weight_congr (setInfo_ne _ _ hx) Iff.rfl)
    rcases h with hf | hb
    · obtain ⟨u1, u2, u3, u4, u5⟩ := hf.push hk
      rw [if_neg u5]
      change TurnSpec _ _ _ _ _ (if (d.info (tgt d.t v c)).explored = true then _ else _)
      rw [if_neg (by rw [u2]; decide)]
      refine ⟨?_, swapPending_same _ _ _, fun b hfu => hfu.swap hf.work.pne, ?_⟩
      · unfold Good
        simp only
        exact Or.inl u1
      · have hlt : weight d.info (tgt d.t v c :: v :: rest) (tgt d.t v c) <
            weight d.info d.stack (tgt d.t v c) := by
          rw [weight_in u2 List.mem_cons_self, weight_out u2 (by rw [hs]; exact u3)]
          decide
        refine total_lt _ ?_ ⟨tgt d.t v c, u4, hlt⟩
        intro x _
        by_cases hx : x = tgt d.t v c
        · rw [hx]
          exact Nat.le_of_lt hlt
        · refine Nat.le_of_eq (weight_congr rfl ?_)
          rw [hs]
          change x ∈ tgt d.t v c :: v :: rest ↔ _
          rw [List.mem_cons]
          exact ⟨fun a => a.resolve_left hx, Or.inr⟩
    · obtain ⟨u1, u2, u3⟩ := hb.undo hk
      by_cases hsp : v = bid ∧ (swapPending d.t v c).pkey = p0
      · rw [if_pos hsp]
        exact hundo hb
      · rw [if_neg hsp]
        change TurnSpec _ _ _ _ _ (if (d.info (tgt d.t v c)).explored = true then _ else _)
        rw [if_pos (u3.resolve_left hsp)]
        exact hundo hb

theorem turnSpec_mono {bid p0 : Nat} {tot : List Slot} {t : Table} {m m' : Nat} {r : Turn} (hm : m' ≤ m)
    (h : TurnSpec bid p0 tot t m' r) : TurnSpec bid p0 tot t m r := by
  cases r with
  | found d => exact h
  | go d =>
    obtain ⟨a1, a2, a3, a4⟩ := h
    exact ⟨a1, a2, a3, by omega⟩
  | crash => exact h

theorem turn_ok {bid p0 : Nat} {tot : List Slot} {d : Dfs} {v : Nat} {rest : List Nat}
    (h : Fresh bid p0 tot d.t d.info v rest ∨ Back bid p0 tot d.t d.info v rest)
    (hs : d.stack = v :: rest) :
    TurnSpec bid p0 tot d.t (total (weight d.info d.stack) d.t.cnt) (turn bid p0 d v rest) := by
  unfold turn
  by_cases he : (d.info v).explored = true
  · rw [if_pos he]
    exact advance_ok h he hs
  · rw [if_neg he]
    have hf : Fresh bid p0 tot d.t d.info v rest := by
      rcases h with h | h
      · exact h
      · obtain ⟨c, e, _⟩ := h.arr
        exact absurd (h.undo e).2.1 he
    have he' : (d.info v).explored = false := by simpa using he
    have hx := explore_ok (t := d.t) (v := v) (info := d.info)
      (fun x hx => hf.core.flag x (Or.inr (Or.inr hx)))
    cases hr : explore d.t v d.info with
    | found t1 info' =>
      rw [hr] at hx
      obtain ⟨info1, mask, k, e, hm, hk4, hkm, hfe, ht1, hi⟩ := hx
      simp only
      have := hf.done (vc := d.vc) he' hm hk4 hkm hfe ht1 hi
      unfold TurnSpec
      simp only [hs]
      exact this
    | no info' =>
      rw [hr] at hx
      obtain ⟨info1, mask, hm, hi⟩ := hx
      simp only
      have hf' := hf.explored he' hm
      rw [← hi] at hf'
      have hev : (info' v).explored = true := by
        rw [hi, setInfo_same]
        rfl
      have := advance_ok (d := { d with info := info', vc := d.vc + numKids (info' v) })
        (Or.inl hf') hev hs
      refine turnSpec_mono ?_ this
      simp only
      refine total_le _ ?_
      intro x _
      unfold weight
      by_cases hxv : x = v
      · rw [hxv, hev, he', hs]
        have := numKids_le (info' v)
        simp only [if_true, List.mem_cons_self]
        simp
        omega
      · have e1 : (info' x).explored = (d.info x).explored := by
          rw [hi, setInfo_ne _ _ hxv]
          exact hm.expl x
        have e2 : numKids (info' x) = numKids (d.info x) := by
          unfold numKids
          rw [hi, setInfo_ne _ _ hxv, hm.kids x]
        rw [e1, e2]
        exact Nat.le_refl _

theorem shiftLoop_ok {bid p0 : Nat} {tot : List Slot} : ∀ (f : Nat) (d : Dfs), Good bid p0 tot d →
    total (weight d.info d.stack) d.t.cnt < f → ShiftSpec d.t tot (shiftLoop bid p0 f d) := by
  intro f
  induction f with
  | zero =>
    intro d _ h
    omega
  | succ f ih =>
    intro d hg hm
    unfold shiftLoop
    cases hs : d.stack with
    | nil =>
      unfold Good at hg
      rw [hs] at hg
      exact ⟨hg, Same.refl _⟩
    | cons v rest =>
      unfold Good at hg
      rw [hs] at hg
      simp only at hg ⊢
      have ht := turn_ok hg hs
      cases hr : turn bid p0 d v rest with
      | found d1 =>
        rw [hr] at ht
        exact ht
      | crash =>
        rw [hr] at ht
        exact ht.elim
      | go d1 =>
        rw [hr] at ht
        obtain ⟨a1, a2, a3, a4⟩ := ht
        simp only
        have := ih d1 a1 (by omega)
        cases hl : shiftLoop bid p0 f d1 with
        | found t1 info =>
          rw [hl] at this
          obtain ⟨b1, b2, b3, b4⟩ := this
          exact ⟨b1, a2.trans b2, fun b hb => b3 b (a3 b hb), b4⟩
        | no t1 info =>
          rw [hl] at this
          exact ⟨this.1, a2.trans this.2⟩
        | crash =>
          rw [hl] at this
          exact this.elim

/-- ShiftExhaustive ends, passes its checks, and moves entries without losing any. -/
theorem shift_ok {t : Table} {L : List Slot} {info : Info} (hR : Rep t L) (hP : Pend t L)
    (hc : Clean t info) (hf : Full t (id0 t.cnt t.pkey)) :
    ShiftSpec t (cur t :: L) (shiftExhaustive t info (id0 t.cnt t.pkey)) := by
  unfold shiftExhaustive
  have hlt := id0_lt hR.cnt2 t.pkey
  generalize hb : id0 t.cnt t.pkey = bid at *
  have hvis : ∀ x, (setInfo info bid { info bid with visited := true } x).visited = true → x = bid := by
    intro x hx
    rw [setInfo_apply] at hx
    split at hx
    · assumption
    · rw [(hc.cleared x).1] at hx
      cases hx
  have hkids : ∀ x k, k < 4 → (setInfo info bid { info bid with visited := true } x).kids k = false := by
    intro x k hk
    rw [setInfo_apply]
    split
    · exact (hc.cleared bid).2 k hk
    · exact (hc.cleared x).2 k hk
  have hne : ∀ x, x ≠ bid → setInfo info bid { info bid with visited := true } x = info x :=
    fun x hx => setInfo_ne _ _ hx
  have hvb : (setInfo info bid { info bid with visited := true } bid).visited = true := by
    rw [setInfo_same]
  generalize setInfo info bid { info bid with visited := true } = info1 at *
  have hnl : ∀ sw v k, ¬ Live info1 [bid] sw v k := by
    rintro sw v k ⟨_, a2, a3, _⟩
    rw [hkids v k a2] at a3
    cases a3
  refine shiftLoop_ok (shiftFuel t.cnt) (Dfs.mk t info1 [bid] 1) ?_ ?_
  · refine Or.inl ⟨⟨?_, ?_, ?_, ?_, ?_, ?_, ?_, ?_, ?_⟩, ⟨rfl, rfl⟩, ⟨L, hR, hP, List.Perm.refl _⟩, hb.symm⟩
    · simp
    · intro v hv
      rw [List.mem_singleton.1 hv]
      exact hlt
    · intro v hv
      rw [List.mem_singleton.1 hv]
      exact hvb
    · intro x hx
      exact Or.inl (List.mem_singleton.2 (hvis x hx))
    · intro x hx
      by_cases hxb : x = bid
      · exact Or.inl (List.mem_singleton.2 hxb)
      · right
        refine ⟨?_, hkids x⟩
        change (info1 x).visited = false
        rw [hne x hxb]
        exact (hc.cleared x).1
    · intro x _
      exact hkids x
    · intro v k hl
      exact absurd hl (hnl _ v k)
    · intro v k v' k' hl
      exact absurd hl (hnl _ v k)
    · intro x hx
      by_cases hxb : x = bid
      · rw [hxb]
        exact hf
      · change (info1 x).explored = true ∨ (info1 x).visited = true ∨ (info1 x).full = true at hx
        rw [hne x hxb] at hx
        rcases hx with a | a | a
        · exact hc.flag x (Or.inl a)
        · rw [(hc.cleared x).1] at a
          cases a
        · exact hc.flag x (Or.inr a)
  · have h1 := total_const (w := weight info1 [bid]) t.cnt (fun x _ => weight_le _ _ x)
    change total (weight info1 [bid]) t.cnt < shiftFuel t.cnt
    unfold shiftFuel
    omega

end Verif.Cuckoo
