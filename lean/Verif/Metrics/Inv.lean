import Verif.Metrics.Spec
/-! The tables of the threads and of the family agree while no table shrinks. -/
namespace Verif.Metrics
open Verif.Common

structure Inv (h : Str → Nat) (s : S) : Prop where
  g1 : ∀ k id, s.gmap k = some id → ∃ ls : List Str, s.vals[id]? = some ls ∧ key h ls = k
  g2 : ∀ (id : Nat) (ls : List Str), s.vals[id]? = some ls → s.gmap (key h ls) = some id
  l : ∀ (t : Nat) (x : T), s.ts[t]? = some x → ∀ k id, x.lmap k = some id → s.gmap k = some id ∧ id < x.vec.length
  v : ∀ (t : Nat) (x : T), s.ts[t]? = some x → x.vec.length ≤ s.vals.length
  hk : ∀ e ∈ s.hist, (∃ id, s.gmap (key h e.2.1) = some id) ∧ e.1 < s.ts.length
  vv : ∀ (t : Nat) (x : T) (id : Nat) (ls : List Str), s.ts[t]? = some x → s.vals[id]? = some ls →
    (x.vec[id]?).getD 0 = outcome (opsOf h s.hist t (key h ls))
  ok : s.bad = false

theorem resize_get (v : List Int) (n i : Nat) (hn : v.length ≤ n) : ((resize v n)[i]?).getD 0 = (v[i]?).getD 0 := by
  unfold resize
  rw [List.take_of_length_le hn, List.getElem?_append]
  split
  · rfl
  · rename_i h
    rw [List.getElem?_replicate, List.getElem?_eq_none (by omega)]
    split <;> rfl

theorem resize_length (v : List Int) (n : Nat) : (resize v n).length = n := by
  unfold resize
  rw [List.length_append, List.length_take, List.length_replicate]; omega

theorem opsOf_none {h : Str → Nat} {hist : List (Nat × List Str × Op)} {t k : Nat} (hn : ∀ e ∈ hist, key h e.2.1 ≠ k) :
    opsOf h hist t k = [] := by
  unfold opsOf
  rw [List.filter_eq_nil_iff.2]
  · rfl
  · intro e he
    simp [hn e he]

theorem inv_init (h : Str → Nat) (n : Nat) : Inv h (S.init n) := by
  have ht : ∀ (t : Nat) (x : T), (S.init n).ts[t]? = some x → x = ⟨fun _ => none, []⟩ := by
    intro t x hx
    simp only [S.init, List.getElem?_replicate] at hx
    split at hx
    · cases hx; rfl
    · cases hx
  refine ⟨fun k id h => (by cases h), fun id ls h => (by simp [S.init] at h), fun t x hx k id hk => ?_, fun t x hx => ?_,
    fun e he => (by cases he), fun t x id ls hx hl => (by simp [S.init] at hl), rfl⟩
  · rw [ht t x hx] at hk; cases hk
  · rw [ht t x hx]; exact Nat.zero_le _

/-- A call that found or made its place: the value there is changed. -/
theorem inv_apply {h : Str → Nat} {s : S} (hi : Inv h s) {t id : Nat} {x : T} {ls : List Str} (op : Op) (hx : s.ts[t]? = some x)
    (hl : x.lmap (key h ls) = some id) : Inv h (s.apply t id ls op) := by
  obtain ⟨hg, hlt⟩ := hi.l t x hx _ _ hl
  have htl : t < s.ts.length := (List.getElem?_eq_some_iff.1 hx).1
  unfold S.apply
  rw [hx]
  simp only
  rw [List.getElem?_eq_getElem hlt]
  have hget : ∀ (t' : Nat) (x' : T),
      (s.ts.set t { x with vec := x.vec.set id (op.app x.vec[id]) })[t']? = some x' →
      (t' = t ∧ x' = { x with vec := x.vec.set id (op.app x.vec[id]) }) ∨ (t' ≠ t ∧ s.ts[t']? = some x') := by
    intro t' x' h'
    rw [List.getElem?_set] at h'
    by_cases he : t = t'
    · rw [if_pos he, if_pos htl] at h'
      cases h'; exact .inl ⟨he.symm, rfl⟩
    · rw [if_neg he] at h'
      exact .inr ⟨fun h => he h.symm, h'⟩
  refine ⟨hi.g1, hi.g2, fun t' x' hx' k i hk => ?_, fun t' x' hx' => ?_, fun e he => ?_, fun t' x' i ls' hx' hv => ?_, hi.ok⟩
  · rcases hget t' x' hx' with ⟨rfl, rfl⟩ | ⟨_, h2⟩
    · have := hi.l t' x hx k i hk
      exact ⟨this.1, by simpa using this.2⟩
    · exact hi.l t' x' h2 k i hk
  · rcases hget t' x' hx' with ⟨rfl, rfl⟩ | ⟨_, h2⟩
    · have := hi.v t' x hx
      simpa using this
    · exact hi.v t' x' h2
  · rcases List.mem_append.1 he with he | he
    · have := hi.hk e he
      exact ⟨this.1, by simpa using this.2⟩
    · rw [List.mem_singleton.1 he]
      exact ⟨⟨id, hg⟩, by simpa using htl⟩
  · have hops : opsOf h (s.hist ++ [(t, ls, op)]) t' (key h ls')
        = opsOf h s.hist t' (key h ls') ++ (if t = t' ∧ key h ls = key h ls' then [op] else []) := by
      unfold opsOf
      rw [List.filter_append, List.map_append]
      congr 1
      by_cases hc : t = t' ∧ key h ls = key h ls'
      · rw [if_pos hc, List.filter_cons_of_pos (by simp [hc.1, hc.2])]; rfl
      · rw [if_neg hc, List.filter_cons_of_neg (by simpa using hc)]; rfl
    show _ = outcome (opsOf h (s.hist ++ [(t, ls, op)]) t' (key h ls'))
    rw [hops]
    have hid : i = id ↔ key h ls = key h ls' := by
      constructor
      · rintro rfl
        obtain ⟨l2, h1, h2⟩ := hi.g1 _ _ hg
        have hv' : s.vals[i]? = some ls' := hv
        rw [h1] at hv'; cases hv'; exact h2.symm
      · intro he
        have := hi.g2 i ls' hv
        rw [← he, hg] at this
        exact (Option.some.inj this).symm
    rcases hget t' x' hx' with ⟨rfl, rfl⟩ | ⟨hne, h2⟩
    · have hold := hi.vv t' x i ls' hx hv
      show ((x.vec.set id _)[i]?).getD 0 = _
      rw [List.getElem?_set]
      by_cases hii : i = id
      · subst hii
        rw [if_pos rfl, if_pos hlt, if_pos ⟨rfl, hid.1 rfl⟩]
        rw [List.getElem?_eq_getElem hlt] at hold
        simp only [Option.getD_some] at hold ⊢
        rw [hold]
        simp [outcome]
      · rw [if_neg (fun h => hii h.symm), if_neg (fun h => hii (hid.2 h.2)), List.append_nil]
        exact hold
    · rw [if_neg (fun h => hne h.1.symm), List.append_nil]
      exact hi.vv t' x' i ls' h2 hv

/-- Changes that the tables do not see. -/
theorem Inv.other {h : Str → Nat} {s s' : S} (hi : Inv h s) (h1 : s'.vals = s.vals) (h2 : s'.gmap = s.gmap) (h3 : s'.ts = s.ts)
    (h4 : s'.hist = s.hist) (h5 : s'.bad = s.bad) : Inv h s' := by
  cases s; cases s'
  simp only at h1 h2 h3 h4 h5
  subst h1 h2 h3 h4 h5
  exact ⟨hi.g1, hi.g2, hi.l, hi.v, hi.hk, hi.vv, hi.ok⟩

/-- A thread learns a label tuple that has number `id`. -/
theorem inv_learn {h : Str → Nat} {s s' : S} (hi : Inv h s) {t id k : Nat} {x : T} (hx : s.ts[t]? = some x)
    (h1 : s'.vals = s.vals) (h2 : s'.gmap = s.gmap) (h4 : s'.hist = s.hist) (h5 : s'.bad = s.bad)
    (h3 : s'.ts = s.ts.set t { lmap := upd x.lmap k (some id), vec := resize x.vec (id + 1) })
    (hg : s.gmap k = some id) (hle : x.vec.length ≤ id + 1) : Inv h s' := by
  have htl : t < s.ts.length := (List.getElem?_eq_some_iff.1 hx).1
  obtain ⟨lsid, hvid, _⟩ := hi.g1 _ _ hg
  have hidl : id < s.vals.length := (List.getElem?_eq_some_iff.1 hvid).1
  have hget : ∀ (t' : Nat) (x' : T), s'.ts[t']? = some x' →
      (t' = t ∧ x' = { lmap := upd x.lmap k (some id), vec := resize x.vec (id + 1) }) ∨ (t' ≠ t ∧ s.ts[t']? = some x') := by
    intro t' x' h'
    rw [h3, List.getElem?_set] at h'
    by_cases he : t = t'
    · rw [if_pos he, if_pos htl] at h'
      cases h'; exact .inl ⟨he.symm, rfl⟩
    · rw [if_neg he] at h'
      exact .inr ⟨fun h => he h.symm, h'⟩
  refine ⟨by rw [h1, h2]; exact hi.g1, by rw [h1, h2]; exact hi.g2, fun t' x' hx' k' i hk => ?_, fun t' x' hx' => ?_, fun e he => ?_,
    fun t' x' i ls' hx' hv => ?_, by rw [h5]; exact hi.ok⟩
  · rw [h2]
    rcases hget t' x' hx' with ⟨rfl, rfl⟩ | ⟨_, h2⟩
    · simp only [upd] at hk
      simp only [resize_length]
      split at hk
      · rename_i hkk; cases hk; rw [hkk]; exact ⟨hg, by omega⟩
      · have := hi.l t' x hx k' i hk
        exact ⟨this.1, by omega⟩
    · exact hi.l t' x' h2 k' i hk
  · rw [h1]
    rcases hget t' x' hx' with ⟨rfl, rfl⟩ | ⟨_, h2⟩
    · simp only [resize_length]; omega
    · exact hi.v t' x' h2
  · rw [h4] at he
    rw [h2, h3, List.length_set]
    exact hi.hk e he
  · rw [h1] at hv
    rw [h4]
    rcases hget t' x' hx' with ⟨rfl, rfl⟩ | ⟨_, h2⟩
    · simp only [resize_get _ _ _ hle]
      exact hi.vv t' x i ls' hx hv
    · exact hi.vv t' x' i ls' h2 hv

/-- The family learns a label tuple. -/
theorem inv_new {h : Str → Nat} {s s' : S} (hi : Inv h s) {ls : List Str} (hn : s.gmap (key h ls) = none)
    (h1 : s'.vals = s.vals ++ [ls]) (h2 : s'.gmap = upd s.gmap (key h ls) (some s.vals.length)) (h4 : s'.hist = s.hist)
    (h5 : s'.bad = s.bad) (h3 : s'.ts = s.ts) : Inv h s' := by
  have hno : ∀ e ∈ s.hist, key h e.2.1 ≠ key h ls := by
    intro e he hh
    obtain ⟨⟨id, hid⟩, _⟩ := hi.hk e he
    rw [hh, hn] at hid; cases hid
  refine ⟨fun k id hk => ?_, fun id l2 hv => ?_, fun t' x' hx' k' i hk => ?_, fun t' x' hx' => ?_, fun e he => ?_,
    fun t' x' i ls' hx' hv => ?_, by rw [h5]; exact hi.ok⟩
  · rw [h2] at hk
    simp only [upd] at hk
    split at hk
    · rename_i hkk
      cases hk
      exact ⟨ls, by rw [h1, List.getElem?_append_right (Nat.le_refl _)]; simp, hkk.symm⟩
    · obtain ⟨l2, h6, h7⟩ := hi.g1 k id hk
      exact ⟨l2, by rw [h1, List.getElem?_append_left (List.getElem?_eq_some_iff.1 h6).1]; exact h6, h7⟩
  · rw [h1, List.getElem?_append] at hv
    rw [h2]
    simp only [upd]
    split at hv
    · have := hi.g2 id l2 hv
      rw [if_neg]
      · exact this
      · intro hh; rw [hh, hn] at this; cases this
    · rename_i hlt
      cases hd : id - s.vals.length with
      | zero =>
        rw [hd] at hv
        cases hv
        rw [if_pos rfl]
        congr 1; omega
      | succ d => rw [hd] at hv; simp at hv
  · rw [h3] at hx'
    obtain ⟨h6, h7⟩ := hi.l t' x' hx' k' i hk
    refine ⟨?_, h7⟩
    rw [h2]
    simp only [upd]
    rw [if_neg]
    · exact h6
    · intro hh; rw [hh, hn] at h6; cases h6
  · rw [h3] at hx'
    have := hi.v t' x' hx'
    rw [h1, List.length_append]; omega
  · rw [h4] at he
    obtain ⟨⟨id, hid⟩, hlt⟩ := hi.hk e he
    refine ⟨⟨id, ?_⟩, by rw [h3]; exact hlt⟩
    rw [h2]
    simp only [upd]
    rw [if_neg (hno e he)]
    exact hid
  · rw [h3] at hx'
    rw [h4]
    rw [h1, List.getElem?_append] at hv
    split at hv
    · exact hi.vv t' x' i ls' hx' hv
    · rename_i hlt
      have hlen := hi.v t' x' hx'
      rw [List.getElem?_eq_none (by omega)]
      cases hd : i - s.vals.length with
      | zero =>
        rw [hd] at hv
        cases hv
        rw [opsOf_none hno]; rfl
      | succ d => rw [hd] at hv; simp at hv

/-- `Emplace` and `resize`: what `enter` does to the tables. -/
theorem enter_spec {h : Str → Nat} {s : S} (hi : Inv h s) {t : Nat} {x : T} {ls : List Str} (hx : s.ts[t]? = some x)
    (hlost : (s.enter h t x ls).1.lost = false) :
    ∃ x', Inv h (s.enter h t x ls).1 ∧ (s.enter h t x ls).1.ts[t]? = some x' ∧ x'.lmap (key h ls) = some (s.enter h t x ls).2
      ∧ (s.enter h t x ls).1.hist = s.hist ∧ (s.enter h t x ls).1.it = s.it
      ∧ (∀ t' i, (s.enter h t x ls).1.val t' i = s.val t' i) ∧ (s.enter h t x ls).1.ts.length = s.ts.length
      ∧ s.vals <+: (s.enter h t x ls).1.vals := by
  have htl : t < s.ts.length := (List.getElem?_eq_some_iff.1 hx).1
  have hval : ∀ (s' : S) (f : Nat → Option Nat) (n : Nat), x.vec.length ≤ n → s'.ts = s.ts.set t ⟨f, resize x.vec n⟩ →
      ∀ t' i, s'.val t' i = s.val t' i := by
    intro s' f n hn hts t' i
    unfold S.val
    rw [hts, List.getElem?_set]
    by_cases he : t = t'
    · subst he
      rw [if_pos rfl, if_pos htl, hx]
      simp only [Option.bind_some]
      exact resize_get _ _ _ hn
    · rw [if_neg he]
  unfold S.enter at hlost ⊢
  change (match x.lmap (key h ls) with | some id => _ | none => _ : S × Nat).1.lost = false at hlost
  cases hl : x.lmap (key h ls) with
  | some id =>
    have hl' : x.lmap (h ls.flatten) = some id := hl
    simp only [hl']
    exact ⟨x, hi, hx, hl, by trivial, by trivial, by first | exact fun _ _ => trivial | exact fun _ _ => rfl, by trivial, by simp⟩
  | none =>
    have hl' : x.lmap (h ls.flatten) = none := hl
    rw [hl] at hlost
    simp only [hl']
    cases hg : s.gmap (key h ls) with
    | some id =>
      have hg' : s.gmap (h ls.flatten) = some id := hg
      simp only [hg', Bool.or_eq_false_iff, decide_eq_false_iff_not] at hlost
      simp only [hg']
      have hle : x.vec.length ≤ id + 1 := by omega
      refine ⟨⟨upd x.lmap (h ls.flatten) (some id), resize x.vec (id + 1)⟩, inv_learn hi hx rfl rfl rfl rfl rfl hg hle, ?_, ?_, by trivial, by trivial, hval _ _ _ hle rfl, by simp, by simp⟩
      · simp [htl]
      · exact if_pos rfl
    | none =>
      have hg' : s.gmap (h ls.flatten) = none := hg
      simp only [hg', Bool.or_eq_false_iff, decide_eq_false_iff_not] at hlost
      simp only [hg']
      have hle : x.vec.length ≤ s.vals.length + 1 := by omega
      have hn : Inv h { s with vals := s.vals ++ [ls], gmap := upd s.gmap (key h ls) (some s.vals.length) } :=
        inv_new hi hg rfl rfl rfl rfl rfl
      refine ⟨⟨upd x.lmap (h ls.flatten) (some s.vals.length), resize x.vec (s.vals.length + 1)⟩, inv_learn hn hx rfl rfl rfl rfl rfl (if_pos rfl) hle, ?_, ?_, by trivial, by trivial, hval _ _ _ hle rfl, by simp,
        by simp⟩
      · simp [htl]
      · exact if_pos rfl

theorem apply_lost (s : S) (t id : Nat) (ls : List Str) (op : Op) : (s.apply t id ls op).lost = s.lost := by
  unfold S.apply
  split
  · rfl
  · split <;> rfl

theorem inv_step {h : Str → Nat} {s s' : S} {a : Act} (hi : Inv h s) (hs : step h s a = some s') (hl : s'.lost = false) : Inv h s' := by
  cases a with
  | call t ls op =>
    simp only [step] at hs
    split at hs
    · cases hs
    · rename_i x hx
      split at hs
      · rename_i id hid
        cases hs
        exact inv_apply hi op hx hid
      · cases hs
        exact hi.other rfl rfl rfl rfl rfl
  | fin i =>
    simp only [step] at hs
    split at hs
    · cases hs
    · rename_i p hp
      split at hs
      · cases hs
      · rename_i x hx
        cases hs
        rw [apply_lost] at hl
        have hi' : Inv h { s with pend := s.pend.eraseIdx i } := hi.other rfl rfl rfl rfl rfl
        obtain ⟨x', h1, h2, h3, _⟩ := enter_spec hi' hx hl
        exact inv_apply h1 p.op h2 h3
  | iter =>
    simp only [step] at hs
    split at hs
    · cases hs; exact hi.other rfl rfl rfl rfl rfl
    · cases hs
  | scan t =>
    simp only [step] at hs
    split at hs
    · split at hs
      · cases hs; exact hi.other rfl rfl rfl rfl rfl
      · cases hs
    · cases hs
  | done =>
    simp only [step] at hs
    split at hs
    · split at hs
      · cases hs; exact hi.other rfl rfl rfl rfl rfl
      · cases hs
    · cases hs

end Verif.Metrics
