import Verif.Cuckoo.Moves
/-!
# The exhaustive search of Compact: its invariant

The stack is a path of full buckets from the first bucket of the key to insert. Every bucket of the
path but the last has given one of its entries to the next one and holds, in that slot, the entry it
was given itself. `Fresh`: the pending entry has just arrived at the top of the stack. `Back`: the
bucket above the top was abandoned, and the entry it was given is pending again.
-/
namespace Verif.Cuckoo

/-- The other bucket of the entry at an index of a bucket. -/
def tgt (t : Table) (v k : Nat) : Nat := nextBucket t.cnt v (t.buf v k).key

/-- `a` is the key that arrived at the top of the stack. -/
def Arr (t : Table) (info : Info) (bid p0 : Nat) : List Nat → Nat → Prop
  | [], _ => False
  | [v], a => v = bid ∧ a = p0
  | v :: w :: rest, a => ∃ c, firstKid (info w) = some c ∧ Home t.cnt w a ∧ nextBucket t.cnt w a = v ∧
      Arr t info bid p0 (w :: rest) (t.buf w c).key

/-- A child that is still to be visited: not the one through which the path goes on (`sw` lists the
buckets through which it does). -/
def Live (info : Info) (stack sw : List Nat) (v k : Nat) : Prop :=
  v ∈ stack ∧ k < 4 ∧ (info v).kids k = true ∧ ¬ (v ∈ sw ∧ firstKid (info v) = some k)

structure Core (t : Table) (info : Info) (stack sw : List Nat) : Prop where
  nodup : stack.Nodup
  stackLt : ∀ v ∈ stack, v < t.cnt
  visStack : ∀ v ∈ stack, (info v).visited = true
  visOnly : ∀ x, (info x).visited = true → x ∈ stack ∨ ∃ v k, Live info stack sw v k ∧ x = tgt t v k
  expl : ∀ x, (info x).explored = true →
    x ∈ stack ∨ ((info x).visited = false ∧ ∀ k, k < 4 → (info x).kids k = false)
  unexp : ∀ x, (info x).explored = false → ∀ k, k < 4 → (info x).kids k = false
  kid : ∀ v k, Live info stack sw v k →
    (info (tgt t v k)).visited = true ∧ (info (tgt t v k)).explored = false ∧ tgt t v k ∉ stack
  kidInj : ∀ v k v' k', Live info stack sw v k → Live info stack sw v' k' → tgt t v k = tgt t v' k' →
    v = v' ∧ k = k'
  flag : ∀ x, ((info x).explored = true ∨ (info x).visited = true ∨ (info x).full = true) → Full t x

theorem firstKid_some {s : BState} {c : Nat} (h : firstKid s = some c) : c < 4 ∧ s.kids c = true := by
  unfold firstKid at h
  exact ⟨List.mem_range.1 (List.mem_of_find?_eq_some h), List.find?_some h⟩

theorem firstKid_none {s : BState} (h : firstKid s = none) : ∀ k, k < 4 → s.kids k = false := by
  unfold firstKid at h
  intro k hk
  have := List.find?_eq_none.1 h k (List.mem_range.2 hk)
  simpa using this

theorem numKids_eq (s : BState) : numKids s = (if s.kids 0 then 1 else 0) + (if s.kids 1 then 1 else 0) +
    (if s.kids 2 then 1 else 0) + (if s.kids 3 then 1 else 0) := by
  unfold numKids
  rw [range4]
  cases h0 : s.kids 0 <;> cases h1 : s.kids 1 <;> cases h2 : s.kids 2 <;> cases h3 : s.kids 3 <;>
    simp [List.filter, h0, h1, h2, h3]

theorem numKids_zero {s : BState} : numKids s = 0 ↔ ∀ k, k < 4 → s.kids k = false := by
  rw [numKids_eq]
  constructor
  · intro h k hk
    have : k = 0 ∨ k = 1 ∨ k = 2 ∨ k = 3 := by omega
    rcases this with rfl | rfl | rfl | rfl
    · cases h0 : s.kids 0 <;> simp_all
    · cases h0 : s.kids 1 <;> simp_all
    · cases h0 : s.kids 2 <;> simp_all
    · cases h0 : s.kids 3 <;> simp_all
  · intro h
    simp [h 0 (by omega), h 1 (by omega), h 2 (by omega), h 3 (by omega)]

theorem numKids_le (s : BState) : numKids s ≤ 4 := by
  rw [numKids_eq]
  split <;> split <;> split <;> split <;> omega

theorem numKids_remove {s : BState} {c : Nat} (hc : c < 4) (h : s.kids c = true) :
    numKids (removeKid s c) + 1 = numKids s := by
  rw [numKids_eq, numKids_eq]
  unfold removeKid
  have : c = 0 ∨ c = 1 ∨ c = 2 ∨ c = 3 := by omega
  rcases this with rfl | rfl | rfl | rfl
  all_goals
    simp only [h]
    simp
    try omega

theorem unshiftable_iff {s : BState} : unshiftable s = true ↔
    s.explored = true ∧ s.visited = false ∧ ∀ k, k < 4 → s.kids k = false := by
  unfold unshiftable
  rw [← numKids_zero]
  simp [and_assoc]

theorem setInfo_same (f : Info) (b : Nat) (s : BState) : setInfo f b s b = s := by simp [setInfo]

theorem setInfo_ne (f : Info) {b b' : Nat} (s : BState) (h : b' ≠ b) : setInfo f b s b' = f b' := by
  simp [setInfo, h]

theorem setInfo_apply (f : Info) (b : Nat) (s : BState) (b' : Nat) :
    setInfo f b s b' = if b' = b then s else f b' := rfl

/-- The path below the top is not affected by changes at the top. -/
theorem Arr.congr {t t' : Table} {info info' : Info} {bid p0 : Nat} (hc : t'.cnt = t.cnt) :
    ∀ (rest : List Nat) (v a : Nat), Arr t info bid p0 (v :: rest) a →
      (∀ w ∈ rest, firstKid (info' w) = firstKid (info w) ∧ ∀ k, t'.buf w k = t.buf w k) → Arr t' info' bid p0 (v :: rest) a := by
  intro rest
  induction rest with
  | nil =>
    intro v a h _
    exact h
  | cons w rest ih =>
    intro v a h hsame
    obtain ⟨c, h1, h2, h3, h4⟩ := h
    refine ⟨c, ?_, ?_, ?_, ?_⟩
    · rw [(hsame w List.mem_cons_self).1]; exact h1
    · rw [hc]; exact h2
    · rw [hc]; exact h3
    · rw [(hsame w List.mem_cons_self).2 c]
      exact ih w _ h4 (fun x hx => hsame x (List.mem_cons_of_mem _ hx))

theorem Arr.home {t : Table} {info : Info} {bid p0 : Nat} {v a : Nat} {rest : List Nat}
    (h : Arr t info bid p0 (v :: rest) a) (hb : bid = id0 t.cnt p0) : Home t.cnt v a := by
  cases rest with
  | nil =>
    obtain ⟨rfl, rfl⟩ := h
    exact Or.inl hb
  | cons w rest =>
    obtain ⟨c, _, _, h3, _⟩ := h
    rw [← h3]
    exact nextBucket_home _ _ _

theorem Arr.bottom {t : Table} {info : Info} {bid p0 : Nat} : ∀ (rest : List Nat) (v a : Nat),
    Arr t info bid p0 (v :: rest) a → bid ∈ v :: rest := by
  intro rest
  induction rest with
  | nil =>
    intro v a h
    exact List.mem_singleton.2 h.1.symm
  | cons w rest ih =>
    intro v a h
    obtain ⟨c, _, _, _, h4⟩ := h
    exact List.mem_cons_of_mem _ (ih w _ h4)

theorem Arr.only {t : Table} {info : Info} {bid p0 : Nat} {rest : List Nat} {v a : Nat}
    (h : Arr t info bid p0 (v :: rest) a) (hn : (v :: rest).Nodup) (hv : v = bid) : rest = [] := by
  cases rest with
  | nil => rfl
  | cons w rest =>
    obtain ⟨c, _, _, _, h4⟩ := h
    have := Arr.bottom rest w _ h4
    rw [List.nodup_cons] at hn
    rw [← hv] at this
    exact absurd this hn.1

/-- What is known of the table during the search. -/
structure Work (t : Table) (total : List Slot) : Prop where
  ex : ∃ L', Rep t L' ∧ Pend t L' ∧ (cur t :: L').Perm total

structure Fresh (bid p0 : Nat) (total : List Slot) (t : Table) (info : Info) (v : Nat) (rest : List Nat) :
    Prop where
  core : Core t info (v :: rest) rest
  arr : Arr t info bid p0 (v :: rest) t.pkey
  work : Work t total
  start : bid = id0 t.cnt p0

structure Back (bid p0 : Nat) (total : List Slot) (t : Table) (info : Info) (v : Nat) (rest : List Nat) :
    Prop where
  core : Core t info (v :: rest) (v :: rest)
  arr : ∃ c, firstKid (info v) = some c ∧ Home t.cnt v t.pkey ∧
    Arr t info bid p0 (v :: rest) (t.buf v c).key
  work : Work t total
  start : bid = id0 t.cnt p0

theorem Work.swap {t : Table} {total : List Slot} (h : Work t total) {b i : Nat} (hi : i < 4)
    (hf : Full t b) (hb : Home t.cnt b t.pkey) :
    Work (swapPending t b i) total ∧ Home t.cnt b (swapPending t b i).pkey := by
  obtain ⟨L, hR, hP, hp⟩ := h.ex
  obtain ⟨L', h1, h2, h3, h4⟩ := hR.swap hP hi (hf i hi) hb
  exact ⟨⟨L', h1, h2, h3.trans hp⟩, h4⟩

theorem Work.cnt2 {t : Table} {total : List Slot} (h : Work t total) : 2 ≤ t.cnt := by
  obtain ⟨L, hR, _⟩ := h.ex
  exact hR.cnt2

theorem Work.pne {t : Table} {total : List Slot} (h : Work t total) : t.pkey ≠ t.empty := by
  obtain ⟨L, _, hP, _⟩ := h.ex
  exact hP.1

theorem Work.fresh {t : Table} {total : List Slot} (h : Work t total) {b i : Nat} (hb : b < t.cnt)
    (hi : i < 4) : (t.buf b i).key ≠ t.pkey := by
  obtain ⟨L, hR, hP, _⟩ := h.ex
  intro e
  have := (hR.sound b i hb hi (by rw [e]; exact hP.1)).1
  exact hP.2 (e ▸ List.mem_map_of_mem this)

theorem tgt_swap_ne {t : Table} {v c w k : Nat} (h : ¬ (w = v ∧ k = c)) :
    tgt (swapPending t v c) w k = tgt t w k := by
  unfold tgt
  have : (swapPending t v c).buf w k = t.buf w k := by
    rw [buf_swap, put_apply, if_neg h]
  rw [this]
  rfl

theorem tgt_swap (t : Table) (v c : Nat) :
    nextBucket (swapPending t v c).cnt v (swapPending t v c).pkey = tgt t v c := rfl

/-- Going on from an explored bucket to one of its children. -/
theorem Fresh.push {bid p0 : Nat} {total : List Slot} {t : Table} {info : Info} {v c : Nat}
    {rest : List Nat} (h : Fresh bid p0 total t info v rest) (hc : firstKid (info v) = some c) :
    Fresh bid p0 total (swapPending t v c) info (tgt t v c) (v :: rest) ∧
      (info (tgt t v c)).explored = false ∧ tgt t v c ∉ v :: rest ∧ tgt t v c < t.cnt ∧
      ¬ (v = bid ∧ (swapPending t v c).pkey = p0) := by
  obtain ⟨core, arr, work, start⟩ := h
  obtain ⟨hc4, hck⟩ := firstKid_some hc
  have hfull : Full t v := core.flag v (Or.inr (Or.inl (core.visStack v List.mem_cons_self)))
  have hhome := arr.home start
  obtain ⟨hw, hh⟩ := work.swap (i := c) hc4 hfull hhome
  have hnod := List.nodup_cons.1 core.nodup
  have hlive : Live info (v :: rest) rest v c :=
    ⟨List.mem_cons_self, hc4, hck, fun x => hnod.1 x.1⟩
  obtain ⟨k1, k2, k3⟩ := core.kid v c hlive
  have hlt : tgt t v c < t.cnt := nextBucket_lt work.cnt2 _ _
  have hliveSub : ∀ w k, Live info (tgt t v c :: v :: rest) (v :: rest) w k →
      Live info (v :: rest) rest w k ∧ ¬ (w = v ∧ k = c) := by
    intro w k ⟨l1, l2, l3, l4⟩
    have hw : w ∈ v :: rest := by
      rcases List.mem_cons.1 l1 with e | e
      · rw [e] at l3
        have := core.unexp _ k2 k l2
        rw [this] at l3
        cases l3
      · exact e
    refine ⟨⟨hw, l2, l3, fun x => l4 ⟨List.mem_cons_of_mem _ x.1, x.2⟩⟩, ?_⟩
    rintro ⟨rfl, rfl⟩
    exact l4 ⟨List.mem_cons_self, hc⟩
  have hliveSup : ∀ w k, Live info (v :: rest) rest w k → ¬ (w = v ∧ k = c) →
      Live info (tgt t v c :: v :: rest) (v :: rest) w k := by
    intro w k ⟨l1, l2, l3, l4⟩ hne
    refine ⟨List.mem_cons_of_mem _ l1, l2, l3, ?_⟩
    rintro ⟨m1, m2⟩
    rcases List.mem_cons.1 m1 with e | e
    · rw [e, hc] at m2
      cases m2
      exact hne ⟨e, rfl⟩
    · exact l4 ⟨e, m2⟩
  refine ⟨⟨⟨?_, ?_, ?_, ?_, ?_, ?_, ?_, ?_, ?_⟩, ?_, hw, start⟩, k2, k3, hlt, ?_⟩
  · exact List.nodup_cons.2 ⟨k3, core.nodup⟩
  · intro w hw
    rcases List.mem_cons.1 hw with e | e
    · rw [e]; exact hlt
    · exact core.stackLt w e
  · intro w hw
    rcases List.mem_cons.1 hw with e | e
    · rw [e]; exact k1
    · exact core.visStack w e
  · intro x hx
    rcases core.visOnly x hx with e | ⟨w, k, hl, e⟩
    · exact Or.inl (List.mem_cons_of_mem _ e)
    · by_cases hvc : w = v ∧ k = c
      · left
        rw [e, hvc.1, hvc.2]
        exact List.mem_cons_self
      · right
        exact ⟨w, k, hliveSup w k hl hvc, by rw [tgt_swap_ne hvc]; exact e⟩
  · intro x hx
    rcases core.expl x hx with e | e
    · exact Or.inl (List.mem_cons_of_mem _ e)
    · exact Or.inr e
  · exact core.unexp
  · intro w k hl
    obtain ⟨l1, l2⟩ := hliveSub w k hl
    rw [tgt_swap_ne l2]
    obtain ⟨m1, m2, m3⟩ := core.kid w k l1
    refine ⟨m1, m2, ?_⟩
    intro hm
    rcases List.mem_cons.1 hm with e | e
    · exact l2 (core.kidInj w k v c l1 hlive e)
    · exact m3 e
  · intro w k w' k' hl hl' e
    obtain ⟨l1, l2⟩ := hliveSub w k hl
    obtain ⟨l1', l2'⟩ := hliveSub w' k' hl'
    rw [tgt_swap_ne l2, tgt_swap_ne l2'] at e
    exact core.kidInj w k w' k' l1 l1' e
  · intro x hx
    exact (core.flag x hx).swap work.pne
  · refine ⟨c, hc, hh, rfl, ?_⟩
    have e1 : ((swapPending t v c).buf v c).key = t.pkey := by
      rw [buf_swap, put_same]
      rfl
    rw [e1]
    refine Arr.congr (t := t) (t' := swapPending t v c) rfl rest v t.pkey arr ?_
    intro w hw
    refine ⟨rfl, fun k => ?_⟩
    rw [buf_swap, put_apply, if_neg]
    rintro ⟨e, _⟩
    rw [e] at hw
    exact hnod.1 hw
  · rintro ⟨e1, e2⟩
    have hr := arr.only core.nodup e1
    subst hr
    obtain ⟨_, e3⟩ := arr
    have : (t.buf v c).key ≠ t.pkey := work.fresh (core.stackLt v List.mem_cons_self) hc4
    change (t.buf v c).key = p0 at e2
    rw [e2, e3] at this
    exact this rfl

/-- Giving up a bucket whose children have all been tried. -/
theorem Fresh.pop {bid p0 : Nat} {total : List Slot} {t : Table} {info : Info} {v : Nat}
    {rest : List Nat} (h : Fresh bid p0 total t info v rest) (hc : firstKid (info v) = none)
    (he : (info v).explored = true) :
    (info v).visited = true ∧ unshiftable { info v with visited := false } = true ∧
      (∀ w r, rest = w :: r →
        Back bid p0 total t (setInfo info v { info v with visited := false }) w r) := by
  obtain ⟨core, arr, work, start⟩ := h
  have hnk := firstKid_none hc
  have hvis := core.visStack v List.mem_cons_self
  refine ⟨hvis, unshiftable_iff.2 ⟨he, rfl, hnk⟩, ?_⟩
  rintro w r rfl
  have hnod := List.nodup_cons.1 core.nodup
  have hkids : ∀ x, (setInfo info v { info v with visited := false } x).kids = (info x).kids := by
    intro x
    rw [setInfo_apply]
    split
    · rename_i e; rw [e]
    · rfl
  have hfk : ∀ x, firstKid (setInfo info v { info v with visited := false } x) = firstKid (info x) := by
    intro x
    unfold firstKid
    rw [hkids]
  have hex : ∀ x, (setInfo info v { info v with visited := false } x).explored = (info x).explored := by
    intro x
    rw [setInfo_apply]
    split
    · rename_i e; rw [e]
    · rfl
  have hfl : ∀ x, (setInfo info v { info v with visited := false } x).full = (info x).full := by
    intro x
    rw [setInfo_apply]
    split
    · rename_i e; rw [e]
    · rfl
  have hvi : ∀ x, x ≠ v → (setInfo info v { info v with visited := false } x).visited = (info x).visited := by
    intro x hx
    rw [setInfo_ne _ _ hx]
  have hvv : (setInfo info v { info v with visited := false } v).visited = false := by
    rw [setInfo_same]
  have hlive : ∀ x k, Live (setInfo info v { info v with visited := false }) (w :: r) (w :: r) x k ↔
      Live info (v :: w :: r) (w :: r) x k := by
    intro x k
    unfold Live
    rw [hkids, hfk]
    constructor
    · rintro ⟨a1, a2, a3, a4⟩
      exact ⟨List.mem_cons_of_mem _ a1, a2, a3, a4⟩
    · rintro ⟨a1, a2, a3, a4⟩
      refine ⟨?_, a2, a3, a4⟩
      rcases List.mem_cons.1 a1 with e | e
      · rw [e, hnk k a2] at a3
        cases a3
      · exact e
  refine ⟨⟨hnod.2, ?_, ?_, ?_, ?_, ?_, ?_, ?_, ?_⟩, ?_, work, start⟩
  · intro x hx
    exact core.stackLt x (List.mem_cons_of_mem _ hx)
  · intro x hx
    rw [hvi x (fun e => hnod.1 (e ▸ hx))]
    exact core.visStack x (List.mem_cons_of_mem _ hx)
  · intro x hx
    have hxv : x ≠ v := by
      rintro rfl
      rw [hvv] at hx
      cases hx
    rw [hvi x hxv] at hx
    rcases core.visOnly x hx with e | ⟨y, k, hl, e⟩
    · rcases List.mem_cons.1 e with e | e
      · exact absurd e hxv
      · exact Or.inl e
    · exact Or.inr ⟨y, k, (hlive y k).2 hl, e⟩
  · intro x hx
    rw [hex] at hx
    rw [hkids]
    by_cases hxv : x = v
    · right
      rw [hxv]
      exact ⟨hvv, hnk⟩
    · rw [hvi x hxv]
      rcases core.expl x hx with e | e
      · rcases List.mem_cons.1 e with e | e
        · exact absurd e hxv
        · exact Or.inl e
      · exact Or.inr e
  · intro x hx
    rw [hex] at hx
    rw [hkids]
    exact core.unexp x hx
  · intro x k hl
    obtain ⟨m1, m2, m3⟩ := core.kid x k ((hlive x k).1 hl)
    have hne : tgt t x k ≠ v := fun e => m3 (by rw [e]; exact List.mem_cons_self)
    rw [hvi _ hne, hex]
    exact ⟨m1, m2, fun e => m3 (List.mem_cons_of_mem _ e)⟩
  · intro x k x' k' hl hl' e
    exact core.kidInj x k x' k' ((hlive x k).1 hl) ((hlive x' k').1 hl') e
  · intro x hx
    rw [hex, hfl] at hx
    by_cases hxv : x = v
    · rw [hxv]
      exact core.flag v (Or.inl he)
    · rw [hvi x hxv] at hx
      exact core.flag x hx
  · obtain ⟨c, a1, a2, a3, a4⟩ := arr
    refine ⟨c, by rw [hfk]; exact a1, a2, ?_⟩
    refine Arr.congr (t := t) (info := info) rfl r w _ a4 ?_
    intro x hx
    refine ⟨?_, fun _ => rfl⟩
    rw [setInfo_ne]
    rintro rfl
    exact hnod.1 (List.mem_cons_of_mem _ hx)

/-- Taking back the entry given to an abandoned bucket. -/
theorem Back.undo {bid p0 : Nat} {total : List Slot} {t : Table} {info : Info} {v c : Nat}
    {rest : List Nat} (h : Back bid p0 total t info v rest) (hc : firstKid (info v) = some c) :
    Fresh bid p0 total (swapPending t v c) (setInfo info v (removeKid (info v) c)) v rest ∧
      (info v).explored = true ∧
      ((v = bid ∧ (swapPending t v c).pkey = p0) ∨ (info (tgt t v c)).explored = true) := by
  obtain ⟨core, ⟨c', hc', hhome, arr⟩, work, start⟩ := h
  rw [hc] at hc'
  cases hc'
  obtain ⟨hc4, hck⟩ := firstKid_some hc
  have hfull : Full t v := core.flag v (Or.inr (Or.inl (core.visStack v List.mem_cons_self)))
  obtain ⟨hw, hh⟩ := work.swap (i := c) hc4 hfull hhome
  have hnod := List.nodup_cons.1 core.nodup
  have hexp : (info v).explored = true := by
    cases he : (info v).explored with
    | true => rfl
    | false =>
      have := core.unexp v he c hc4
      rw [hck] at this
      cases this
  have hne : ∀ x, x ≠ v → setInfo info v (removeKid (info v) c) x = info x := fun x hx => setInfo_ne _ _ hx
  have hvk : ∀ k, (setInfo info v (removeKid (info v) c) v).kids k = if k = c then false else (info v).kids k := by
    intro k
    rw [setInfo_same]
    rfl
  have hvis : ∀ x, (setInfo info v (removeKid (info v) c) x).visited = (info x).visited := by
    intro x
    rw [setInfo_apply]
    split
    · rename_i e; rw [e]; rfl
    · rfl
  have hex : ∀ x, (setInfo info v (removeKid (info v) c) x).explored = (info x).explored := by
    intro x
    rw [setInfo_apply]
    split
    · rename_i e; rw [e]; rfl
    · rfl
  have hfl : ∀ x, (setInfo info v (removeKid (info v) c) x).full = (info x).full := by
    intro x
    rw [setInfo_apply]
    split
    · rename_i e; rw [e]; rfl
    · rfl
  have hlive : ∀ x k, Live (setInfo info v (removeKid (info v) c)) (v :: rest) rest x k ↔
      Live info (v :: rest) (v :: rest) x k := by
    intro x k
    unfold Live
    by_cases hxv : x = v
    · subst hxv
      rw [hvk]
      constructor
      · rintro ⟨a1, a2, a3, a4⟩
        by_cases hkc : k = c
        · rw [if_pos hkc] at a3
          cases a3
        · rw [if_neg hkc] at a3
          refine ⟨a1, a2, a3, ?_⟩
          rintro ⟨_, b⟩
          rw [hc] at b
          cases b
          exact hkc rfl
      · rintro ⟨a1, a2, a3, a4⟩
        have hkc : k ≠ c := by
          rintro rfl
          exact a4 ⟨List.mem_cons_self, hc⟩
        rw [if_neg hkc]
        exact ⟨a1, a2, a3, fun b => hnod.1 b.1⟩
    · rw [hne x hxv]
      constructor
      · rintro ⟨a1, a2, a3, a4⟩
        refine ⟨a1, a2, a3, ?_⟩
        rintro ⟨b1, b2⟩
        rcases List.mem_cons.1 b1 with e | e
        · exact hxv e
        · exact a4 ⟨e, b2⟩
      · rintro ⟨a1, a2, a3, a4⟩
        exact ⟨a1, a2, a3, fun b => a4 ⟨List.mem_cons_of_mem _ b.1, b.2⟩⟩
  have hnvc : ∀ x k, Live info (v :: rest) (v :: rest) x k → ¬ (x = v ∧ k = c) := by
    rintro x k ⟨_, _, _, a4⟩ ⟨rfl, rfl⟩
    exact a4 ⟨List.mem_cons_self, hc⟩
  have harr : Arr (swapPending t v c) (setInfo info v (removeKid (info v) c)) bid p0 (v :: rest)
      (t.buf v c).key := by
    refine Arr.congr (t := t) (t' := swapPending t v c) (info := info) rfl rest v _ arr ?_
    intro x hx
    have hxv : x ≠ v := fun e => hnod.1 (e ▸ hx)
    refine ⟨by rw [hne x hxv], fun k => ?_⟩
    rw [buf_swap, put_apply, if_neg]
    rintro ⟨e, _⟩
    exact hxv e
  refine ⟨⟨⟨core.nodup, core.stackLt, ?_, ?_, ?_, ?_, ?_, ?_, ?_⟩, harr, hw, start⟩, hexp, ?_⟩
  · intro x hx
    rw [hvis]
    exact core.visStack x hx
  · intro x hx
    rw [hvis] at hx
    rcases core.visOnly x hx with e | ⟨y, k, hl, e⟩
    · exact Or.inl e
    · refine Or.inr ⟨y, k, (hlive y k).2 hl, ?_⟩
      rw [tgt_swap_ne (hnvc y k hl)]
      exact e
  · intro x hx
    rw [hex] at hx
    rcases core.expl x hx with e | e
    · exact Or.inl e
    · by_cases hxv : x = v
      · exact Or.inl (by rw [hxv]; exact List.mem_cons_self)
      · right
        rw [hne x hxv]
        exact e
  · intro x hx k hk
    rw [hex] at hx
    have := core.unexp x hx k hk
    by_cases hxv : x = v
    · rw [hxv, hexp] at hx
      cases hx
    · rw [hne x hxv]
      exact this
  · intro x k hl
    have hl' := (hlive x k).1 hl
    rw [tgt_swap_ne (hnvc x k hl'), hvis, hex]
    exact core.kid x k hl'
  · intro x k x' k' hl hl' e
    have h1 := (hlive x k).1 hl
    have h2 := (hlive x' k').1 hl'
    rw [tgt_swap_ne (hnvc x k h1), tgt_swap_ne (hnvc x' k' h2)] at e
    exact core.kidInj x k x' k' h1 h2 e
  · intro x hx
    rw [hex, hvis, hfl] at hx
    exact (core.flag x hx).swap work.pne
  · cases rest with
    | nil =>
      obtain ⟨e1, e2⟩ := arr
      exact Or.inl ⟨e1, e2⟩
    | cons w r =>
      obtain ⟨c2, a1, a2, a3, a4⟩ := arr
      right
      have : tgt t v c = w := by
        have := nextBucket_next work.cnt2 a2
        rw [a3] at this
        exact this
      rw [this]
      obtain ⟨hc24, hc2k⟩ := firstKid_some a1
      cases he : (info w).explored with
      | true => rfl
      | false =>
        have := core.unexp w he c2 hc24
        rw [hc2k] at this
        cases this

end Verif.Cuckoo
