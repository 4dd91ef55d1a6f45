import Verif.Metrics.Inv
/-! Sums over the threads, and `Iterate` while calls run. -/
namespace Verif.Metrics
open Verif.Common

/-- The amount of an increment. -/
def amt : Op → Int
  | .inc v => v
  | .set _ => 0

def addedK (h : Str → Nat) (hist : List (Nat × List Str × Op)) (k : Nat) : Int :=
  ((hist.filter fun e => key h e.2.1 == k).map fun e => amt e.2.2).sum

def IncOnly (hist : List (Nat × List Str × Op)) : Prop := ∀ e ∈ hist, ∃ v : Int, 0 ≤ v ∧ e.2.2 = .inc v

theorem outcome_inc : ∀ (ops : List Op) (a : Int), (∀ o ∈ ops, ∃ v : Int, 0 ≤ v ∧ o = .inc v) →
    ops.foldl Op.app a = a + (ops.map amt).sum
  | [], a, _ => by simp
  | o :: ops, a, h => by
    obtain ⟨v, _, rfl⟩ := h o (List.mem_cons_self ..)
    rw [List.foldl_cons, outcome_inc ops _ (fun o ho => h o (List.mem_cons_of_mem _ ho))]
    simp only [Op.app, List.map_cons, List.sum_cons, amt]
    omega

theorem sum_zero (l : List Nat) : (l.map fun _ => (0 : Int)).sum = 0 := by
  induction l with
  | nil => rfl
  | cons a l ih => simp only [List.map_cons, List.sum_cons, ih]; omega

theorem sum_one (n t : Nat) (v : Int) (ht : t < n) : ((List.range n).map fun u => if t = u then v else 0).sum = v := by
  induction n with
  | zero => omega
  | succ n ih =>
    rw [List.range_succ, List.map_append, List.sum_append]
    by_cases h : t = n
    · subst h
      have : ((List.range t).map fun u => if t = u then v else 0) = (List.range t).map fun _ => 0 := by
        apply List.map_congr_left
        intro u hu
        have := List.mem_range.1 hu
        rw [if_neg (by omega)]
      rw [this, sum_zero]
      simp
    · rw [ih (by omega)]
      simp [h]

theorem sum_add (l : List Nat) (f g : Nat → Int) : (l.map fun u => f u + g u).sum = (l.map f).sum + (l.map g).sum := by
  induction l with
  | nil => rfl
  | cons a l ih => simp only [List.map_cons, List.sum_cons, ih]; omega

theorem sum_ops (h : Str → Nat) (n k : Nat) : ∀ (hist : List (Nat × List Str × Op)), (∀ e ∈ hist, e.1 < n) →
    ((List.range n).map fun t => ((opsOf h hist t k).map amt).sum).sum = addedK h hist k
  | [], _ => by
    show ((List.range n).map fun _ => (0 : Int)).sum = 0
    exact sum_zero _
  | e :: hist, hh => by
    have ih := sum_ops h n k hist (fun e he => hh e (List.mem_cons_of_mem _ he))
    have he := hh e (List.mem_cons_self ..)
    by_cases hk : key h e.2.1 = k
    · have h1 : addedK h (e :: hist) k = amt e.2.2 + addedK h hist k := by
        unfold addedK
        rw [List.filter_cons_of_pos (by simp [hk])]; rfl
      rw [h1, ← ih, ← sum_one n e.1 (amt e.2.2) he, ← sum_add]
      congr 1
      apply List.map_congr_left
      intro t _
      unfold opsOf
      by_cases ht : e.1 = t
      · rw [List.filter_cons_of_pos (by simp [hk, ht]), if_pos ht]
        simp
      · rw [List.filter_cons_of_neg (by simp [ht]), if_neg ht]
        simp
    · have h1 : addedK h (e :: hist) k = addedK h hist k := by
        unfold addedK
        rw [List.filter_cons_of_neg (by simp [hk])]
      rw [h1, ← ih]
      congr 1
      apply List.map_congr_left
      intro t _
      unfold opsOf
      rw [List.filter_cons_of_neg (by simp [hk])]

theorem val_eq {h : Str → Nat} {s : S} (hi : Inv h s) {i t : Nat} {ls : List Str} (hv : s.vals[i]? = some ls) (ht : t < s.ts.length) :
    s.val t i = outcome (opsOf h s.hist t (key h ls)) := by
  unfold S.val
  have hx := List.getElem?_eq_getElem ht
  rw [hx, Option.bind_some]
  exact hi.vv t _ i ls hx hv

theorem seen_eq {h : Str → Nat} {s : S} (hi : Inv h s) (hc : IncOnly s.hist) {i : Nat} {ls : List Str} (hv : s.vals[i]? = some ls) :
    s.seen i = addedK h s.hist (key h ls) := by
  rw [← sum_ops h s.ts.length (key h ls) s.hist (fun e he => (hi.hk e he).2)]
  unfold S.seen
  congr 1
  apply List.map_congr_left
  intro t ht
  rw [val_eq hi hv (List.mem_range.1 ht), outcome, outcome_inc, Int.zero_add]
  intro o ho
  unfold opsOf at ho
  obtain ⟨e, he, rfl⟩ := List.mem_map.1 ho
  exact hc e (List.mem_filter.1 he).1

theorem addedK_eq {h : Str → Nat} {s : S} (hn : s.NoClash h) {i : Nat} {ls : List Str} (hv : s.vals[i]? = some ls)
    (hist : List (Nat × List Str × Op)) (hsub : ∀ e ∈ hist, e ∈ s.hist) : addedK h hist (key h ls) = added hist ls := by
  unfold addedK added
  have hf : (hist.filter fun e => key h e.2.1 == key h ls) = hist.filter fun e => e.2.1 == ls := by
    apply List.filter_congr
    intro e he
    by_cases hh : e.2.1 = ls
    · simp [hh]
    · have : key h e.2.1 ≠ key h ls := fun hk => hh (hn ls (List.mem_of_getElem? hv) e (hsub e he) hk.symm).symm
      exact (beq_eq_false_iff_ne.2 this).trans (beq_eq_false_iff_ne.2 hh).symm
  rw [hf]
  congr 1

/-- What `Iterate` has so far lies between what was added before it started and what was added until now. -/
structure InvI (h : Str → Nat) (s : S) : Prop where
  sums : ∀ i, s.it = some i → i.acc.length ≤ s.vals.length ∧ i.h0 ≤ s.hist.length ∧ i.todo.Nodup ∧ (∀ t ∈ i.todo, t < s.ts.length) ∧
    ∀ (j : Nat) (a : Int) (ls : List Str), i.acc[j]? = some a → s.vals[j]? = some ls →
      addedK h (s.hist.take i.h0) (key h ls) ≤ a + (i.todo.map fun t => s.val t j).sum ∧
      a + (i.todo.map fun t => s.val t j).sum ≤ addedK h s.hist (key h ls)

theorem combine_get : ∀ (a v : List Int) (j : Nat), (combine a v)[j]? = (a[j]?).map (· + (v[j]?).getD 0)
  | [], v, j => by simp [combine]
  | x :: a, [], j => by
    show (x :: a)[j]? = _
    cases (x :: a)[j]? <;> simp
  | x :: a, y :: v, 0 => by simp [combine]
  | x :: a, y :: v, j + 1 => by simpa [combine] using combine_get a v j

theorem combine_length : ∀ (a v : List Int), (combine a v).length = a.length
  | [], v => by simp [combine]
  | x :: a, [] => rfl
  | x :: a, y :: v => by simp [combine, combine_length a v]

theorem sum_bump : ∀ (l : List Nat) (f g : Nat → Int) (t : Nat) (d : Int), l.Nodup → 0 ≤ d → g t = f t + d → (∀ u, u ≠ t → g u = f u) →
    (l.map f).sum ≤ (l.map g).sum ∧ (l.map g).sum ≤ (l.map f).sum + d
  | [], f, g, t, d, _, hd, _, _ => by simpa using hd
  | u :: l, f, g, t, d, hn, hd, ht, ho => by
    rw [List.nodup_cons] at hn
    simp only [List.map_cons, List.sum_cons]
    by_cases hu : u = t
    · subst hu
      have : l.map g = l.map f := by
        apply List.map_congr_left
        intro w hw
        exact ho w (fun h => hn.1 (h ▸ hw))
      rw [this, ht]; omega
    · have := sum_bump l f g t d hn.2 hd ht ho
      rw [ho u hu]; omega

theorem sum_erase (l : List Nat) (f : Nat → Int) {t : Nat} (ht : t ∈ l) : ((l.erase t).map f).sum = (l.map f).sum - f t := by
  induction l with
  | nil => cases ht
  | cons u l ih =>
    by_cases hu : u = t
    · subst hu
      rw [List.erase_cons_head]
      simp only [List.map_cons, List.sum_cons]; omega
    · rw [List.erase_cons_tail (by simpa using hu)]
      simp only [List.map_cons, List.sum_cons]
      have ht' : t ∈ l := by
        rcases List.mem_cons.1 ht with h | h
        · exact absurd h.symm hu
        · exact h
      rw [ih ht']; omega

/-- A call that adds `d` for a label tuple. -/
theorem apply_sums {h : Str → Nat} {s : S} (hi : Inv h s) (hI : InvI h s) {t id : Nat} {x : T} {ls : List Str} {op : Op}
    (hx : s.ts[t]? = some x) (hl : x.lmap (key h ls) = some id) (hc : (s.apply t id ls op).Counter) :
    InvI h (s.apply t id ls op) := by
  obtain ⟨hg, hlt⟩ := hi.l t x hx _ _ hl
  have htl : t < s.ts.length := (List.getElem?_eq_some_iff.1 hx).1
  have hap : s.apply t id ls op = { s with
      ts := s.ts.set t { x with vec := x.vec.set id (op.app x.vec[id]) }, hist := s.hist ++ [(t, ls, op)] } := by
    unfold S.apply
    rw [hx]
    simp only
    rw [List.getElem?_eq_getElem hlt]
  rw [hap] at hc ⊢
  obtain ⟨d, hd, hop⟩ := hc (t, ls, op) (by simp)
  simp only at hop
  subst hop
  refine ⟨fun i hit => ?_⟩
  obtain ⟨h1, h2, h3, h4, h5⟩ := hI.sums i hit
  refine ⟨h1, ?_, h3, fun u hu => ?_, fun j a ls' hj hv => ?_⟩
  · show i.h0 ≤ (s.hist ++ [_]).length
    rw [List.length_append]; omega
  · show u < (s.ts.set t _).length
    rw [List.length_set]; exact h4 u hu
  · obtain ⟨h6, h7⟩ := h5 j a ls' hj hv
    show addedK h ((s.hist ++ [(t, ls, Op.inc d)]).take i.h0) (key h ls') ≤ a + _ ∧
      a + _ ≤ addedK h (s.hist ++ [(t, ls, Op.inc d)]) (key h ls')
    rw [List.take_append_of_le_length h2]
    have hk : addedK h (s.hist ++ [(t, ls, Op.inc d)]) (key h ls') =
        addedK h s.hist (key h ls') + (if key h ls = key h ls' then d else 0) := by
      unfold addedK
      rw [List.filter_append, List.map_append, List.sum_append]
      by_cases hc : key h ls = key h ls'
      · rw [if_pos hc, List.filter_cons_of_pos (by simp [hc])]; simp [amt]
      · rw [if_neg hc, List.filter_cons_of_neg (by simp [hc])]; simp
    have hid : j = id ↔ key h ls = key h ls' := by
      constructor
      · rintro rfl
        obtain ⟨l2, h1, h2⟩ := hi.g1 _ _ hg
        have hv' : s.vals[j]? = some ls' := hv
        rw [h1] at hv'; cases hv'; exact h2.symm
      · intro he
        have := hi.g2 j ls' hv
        rw [← he, hg] at this
        exact (Option.some.inj this).symm
    have hval : ∀ u, S.val { s with
          ts := s.ts.set t { x with vec := x.vec.set id (Op.app x.vec[id] (Op.inc d)) }, hist := s.hist ++ [(t, ls, Op.inc d)] } u j
        = s.val u j + (if u = t ∧ j = id then d else 0) := by
      intro u
      unfold S.val
      simp only
      rw [List.getElem?_set]
      by_cases hu : t = u
      · subst hu
        rw [if_pos rfl, if_pos htl, hx]
        simp only [Option.bind_some, true_and]
        rw [List.getElem?_set]
        by_cases hj : j = id
        · subst hj
          rw [if_pos rfl, if_pos hlt, if_pos rfl, List.getElem?_eq_getElem hlt]
          rfl
        · rw [if_neg (fun h => hj h.symm), if_neg hj]; omega
      · rw [if_neg hu, if_neg (fun h => hu h.1.symm)]; omega
    rw [hk]
    by_cases hj : j = id
    · rw [if_pos (hid.1 hj)]
      have := sum_bump i.todo (fun u => s.val u j) (fun u => S.val { s with
          ts := s.ts.set t { x with vec := x.vec.set id (Op.app x.vec[id] (Op.inc d)) }, hist := s.hist ++ [(t, ls, Op.inc d)] } u j)
        t d h3 hd (by rw [hval, if_pos ⟨rfl, hj⟩]) (fun u hu => by rw [hval, if_neg (fun h => hu h.1)]; omega)
      exact ⟨by omega, by omega⟩
    · rw [if_neg (fun h => hj (hid.2 h))]
      have : (i.todo.map fun u => S.val { s with
          ts := s.ts.set t { x with vec := x.vec.set id (Op.app x.vec[id] (Op.inc d)) }, hist := s.hist ++ [(t, ls, Op.inc d)] } u j)
          = i.todo.map fun u => s.val u j := by
        apply List.map_congr_left
        intro u _
        rw [hval, if_neg (fun h => hj h.2)]; omega
      rw [this]
      exact ⟨by omega, by omega⟩

theorem invI_step {h : Str → Nat} {s s' : S} {a : Act} (hi : Inv h s) (hI : InvI h s) (hc0 : s.Counter)
    (hs : step h s a = some s') (hl : s'.lost = false) (hc : s'.Counter) : InvI h s' := by
  cases a with
  | call t ls op =>
    simp only [step] at hs
    split at hs
    · cases hs
    · rename_i x hx
      split at hs
      · rename_i id hid
        cases hs
        exact apply_sums hi hI hx hid hc
      · cases hs
        exact ⟨fun i hit => hI.sums i hit⟩
  | fin i =>
    simp only [step] at hs
    split at hs
    · cases hs
    · rename_i p hp
      split at hs
      · cases hs
      · rename_i x hx
        cases hs
        rw [apply_lost] at hl
        have hi' : Inv h { s with pend := s.pend.eraseIdx i } := hi.other rfl rfl rfl rfl rfl
        obtain ⟨x', h1, h2, h3, h4, h5, h6, h7, h8⟩ := enter_spec hi' hx hl
        refine apply_sums h1 ⟨fun it hit => ?_⟩ h2 h3 hc
        rw [h5] at hit
        obtain ⟨g1, g2, g3, g4, g5⟩ := hI.sums it hit
        refine ⟨?_, by rw [h4]; exact g2, g3, fun u hu => by rw [h7]; exact g4 u hu, fun j a ls' hj hv => ?_⟩
        · have : s.vals.length ≤ _ := h8.length_le
          omega
        · have hjl : j < s.vals.length := by
            have := (List.getElem?_eq_some_iff.1 hj).1
            omega
          have hv' : s.vals[j]? = some ls' := by
            obtain ⟨suf, hsuf⟩ := h8
            have hsuf : s.vals ++ suf = _ := hsuf
            rw [← hsuf, List.getElem?_append_left hjl] at hv
            exact hv
          have := g5 j a ls' hj hv'
          rw [h4]
          simp only [h6]
          exact this
  | iter =>
    simp only [step] at hs
    split at hs
    · rename_i hn
      cases hs
      refine ⟨fun i hit => ?_⟩
      cases hit
      refine ⟨by simp, Nat.le_refl _, List.nodup_range, fun t ht => List.mem_range.1 ht, fun j a ls hj hv => ?_⟩
      have ha : a = 0 := by
        simp only [List.getElem?_replicate] at hj
        split at hj
        · cases hj; rfl
        · cases hj
      have := seen_eq hi hc0 hv
      show addedK h (s.hist.take s.hist.length) (key h ls) ≤ a + s.seen j ∧ a + s.seen j ≤ addedK h s.hist (key h ls)
      rw [List.take_length, this, ha]
      omega
    · cases hs
  | scan t =>
    simp only [step] at hs
    split at hs
    · rename_i it x hit hx
      split at hs
      · rename_i ht
        cases hs
        refine ⟨fun i hit' => ?_⟩
        cases hit'
        obtain ⟨g1, g2, g3, g4, g5⟩ := hI.sums it hit
        refine ⟨by simpa [combine_length] using g1, g2, g3.erase t, fun u hu => g4 u (List.mem_of_mem_erase hu), fun j a ls hj hv => ?_⟩
        simp only [combine_get] at hj
        cases hja : it.acc[j]? with
        | none => rw [hja] at hj; cases hj
        | some a0 =>
          rw [hja] at hj
          simp only [Option.map_some, Option.some.injEq] at hj
          have := g5 j a0 ls hja hv
          have hv : s.val t j = (x.vec[j]?).getD 0 := by
            unfold S.val
            rw [hx]; rfl
          show addedK h (s.hist.take it.h0) (key h ls) ≤ a + ((it.todo.erase t).map fun u => s.val u j).sum ∧ a + ((it.todo.erase t).map fun u => s.val u j).sum ≤ addedK h s.hist (key h ls)
          rw [sum_erase _ _ ht, hv, ← hj]
          exact ⟨by have := this.1; omega, by have := this.2; omega⟩
      · cases hs
    · cases hs
  | done =>
    simp only [step] at hs
    split at hs
    · split at hs
      · cases hs; exact ⟨fun i hit => (by cases hit)⟩
      · cases hs
    · cases hs

end Verif.Metrics
