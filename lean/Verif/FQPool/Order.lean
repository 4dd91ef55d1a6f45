import Verif.FQPool.Move
/-! What was enqueued at a worker, in order, is what it has run, then its batch, then its queue. -/
namespace Verif.FQPool
open Verif.Common

/-- The tasks of worker `k` in a log. -/
def ofW (l : List (Nat × Nat)) (k : Nat) : List Nat := (l.filter fun p => p.2 == k).map Prod.fst

theorem ofW_add_same (l : List (Nat × Nat)) (x k : Nat) : ofW (l ++ [(x, k)]) k = ofW l k ++ [x] := by simp [ofW]
theorem ofW_add_ne (l : List (Nat × Nat)) {x k j : Nat} (h : j ≠ k) : ofW (l ++ [(x, j)]) k = ofW l k := by
  simp [ofW, h]

/-- The task of a call that is not enqueued yet. -/
def CPc.held : CPc → Option Nat
  | .prep _ x _ => some x
  | .try_ _ _ x _ _ => some x
  | .sleep _ x _ _ => some x
  | _ => none

/-- The task of a call that is enqueued. -/
def CPc.placed : CPc → Option Nat
  | .ntf _ x _ => some x
  | .await x => some x
  | _ => none

structure InvA (s : S) : Prop where
  n : 0 < s.ws.length
  cap : 0 < s.cap
  ord : ∀ (k : Nat) (w : W), s.ws[k]? = some w → ofW s.acc k = ofW s.ran k ++ (w.pc.batch ++ w.q)
  len : ∀ (k : Nat) (w : W), s.ws[k]? = some w → w.q.length ≤ s.cap
  accK : ∀ p ∈ s.acc, p.2 < s.ws.length
  ranK : ∀ p ∈ s.ran, p.2 < s.ws.length
  idA : ∀ p ∈ s.acc, p.1 < s.cnt
  nd : (s.acc.map Prod.fst).Nodup
  held : ∀ (c : Nat) (pc : CPc) (x : Nat), s.cs[c]? = some pc → pc.held = some x → x < s.cnt ∧ x ∉ s.acc.map Prod.fst
  uniq : ∀ (c c' : Nat) (pc pc' : CPc) (x : Nat), s.cs[c]? = some pc → s.cs[c']? = some pc' → pc.held = some x → pc'.held = some x → c = c'
  put : ∀ (c : Nat) (pc : CPc) (x : Nat), s.cs[c]? = some pc → pc.placed = some x → x ∈ s.acc.map Prod.fst

theorem InvA.w {s : S} (hi : InvA s) {k} {w w' : W} (hw : s.ws[k]? = some w)
    (hb : w'.pc.batch ++ w'.q = w.pc.batch ++ w.q) (hl : w'.q.length ≤ s.cap) : InvA (s.setW k w') where
  n := by simp [S.setW, hi.n]
  cap := hi.cap
  ord := by
    intro j v hj
    rcases get_set hj with ⟨rfl, rfl⟩ | ⟨_, h⟩
    · rw [hb]; exact hi.ord _ _ hw
    · exact hi.ord _ _ h
  len := by
    intro j v hj
    rcases get_set hj with ⟨rfl, rfl⟩ | ⟨_, h⟩
    · exact hl
    · exact hi.len _ _ h
  accK := by simpa [S.setW] using hi.accK
  ranK := by simpa [S.setW] using hi.ranK
  idA := hi.idA
  nd := hi.nd
  held := hi.held
  uniq := hi.uniq
  put := hi.put

theorem InvA.c {s : S} (hi : InvA s) {c} {pc pc' : CPc} (hc : s.cs[c]? = some pc)
    (hh : ∀ x, pc'.held = some x → pc.held = some x) (hp : ∀ x, pc'.placed = some x → pc.placed = some x) :
    InvA (s.setC c pc') where
  n := hi.n
  cap := hi.cap
  ord := hi.ord
  len := hi.len
  accK := hi.accK
  ranK := hi.ranK
  idA := hi.idA
  nd := hi.nd
  held := by
    intro d v x hd hx
    rcases get_set hd with ⟨rfl, rfl⟩ | ⟨_, h⟩
    · exact hi.held _ _ _ hc (hh x hx)
    · exact hi.held _ _ _ h hx
  uniq := by
    intro d d' v v' x hd hd' hx hx'
    rcases get_set hd with ⟨rfl, rfl⟩ | ⟨_, h⟩ <;> rcases get_set hd' with ⟨rfl, rfl⟩ | ⟨_, h'⟩
    · rfl
    · exact hi.uniq _ _ _ _ _ hc h' (hh x hx) hx'
    · exact hi.uniq _ _ _ _ _ h hc hx (hh x hx')
    · exact hi.uniq _ _ _ _ _ h h' hx hx'
  put := by
    intro d v x hd hx
    rcases get_set hd with ⟨rfl, rfl⟩ | ⟨_, h⟩
    · exact hi.put _ _ _ hc (hp x hx)
    · exact hi.put _ _ _ h hx

theorem InvA.ph {s s' : S} (hi : InvA s) (h1 : s'.cap = s.cap) (h2 : s'.ws = s.ws) (h3 : s'.cs = s.cs) (h4 : s'.cnt = s.cnt)
    (h5 : s'.acc = s.acc) (h6 : s'.ran = s.ran) : InvA s' where
  n := by rw [h2]; exact hi.n
  cap := by rw [h1]; exact hi.cap
  ord := by rw [h2, h5, h6]; exact hi.ord
  len := by rw [h2, h1]; exact hi.len
  accK := by rw [h2, h5]; exact hi.accK
  ranK := by rw [h2, h6]; exact hi.ranK
  idA := by rw [h4, h5]; exact hi.idA
  nd := by rw [h5]; exact hi.nd
  held := by rw [h3, h4, h5]; exact hi.held
  uniq := by rw [h3]; exact hi.uniq
  put := by rw [h3, h5]; exact hi.put

/-- A new call. -/
theorem InvA.call {s s' : S} (hi : InvA s) {c} {pc' : CPc} (hh : pc'.held = some s.cnt)
    (hp : pc'.placed = none) (h1 : s'.cap = s.cap) (h2 : s'.ws = s.ws) (h3 : s'.cs = s.cs.set c pc')
    (h4 : s'.cnt = s.cnt + 1) (h5 : s'.acc = s.acc) (h6 : s'.ran = s.ran) : InvA s' where
  n := by rw [h2]; exact hi.n
  cap := by rw [h1]; exact hi.cap
  ord := by rw [h2, h5, h6]; exact hi.ord
  len := by rw [h2, h1]; exact hi.len
  accK := by rw [h2, h5]; exact hi.accK
  ranK := by rw [h2, h6]; exact hi.ranK
  idA := by rw [h4, h5]; exact fun p hp => Nat.lt_succ_of_lt (hi.idA p hp)
  nd := by rw [h5]; exact hi.nd
  held := by
    rw [h3, h4, h5]
    intro d v x hd hx
    rcases get_set hd with ⟨rfl, rfl⟩ | ⟨_, h⟩
    · rw [hh] at hx; cases hx
      refine ⟨Nat.lt_succ_self _, ?_⟩
      intro hm
      obtain ⟨p, hp1, hp2⟩ := List.mem_map.1 hm
      have := hi.idA p hp1
      omega
    · have := hi.held _ _ _ h hx
      exact ⟨Nat.lt_succ_of_lt this.1, this.2⟩
  uniq := by
    rw [h3]
    intro d d' v v' x hd hd' hx hx'
    rcases get_set hd with ⟨rfl, rfl⟩ | ⟨_, h⟩ <;> rcases get_set hd' with ⟨rfl, rfl⟩ | ⟨_, h'⟩
    · rfl
    · rw [hh] at hx; cases hx
      exact absurd (hi.held _ _ _ h' hx').1 (Nat.lt_irrefl _)
    · rw [hh] at hx'; cases hx'
      exact absurd (hi.held _ _ _ h hx).1 (Nat.lt_irrefl _)
    · exact hi.uniq _ _ _ _ _ h h' hx hx'
  put := by
    rw [h3, h5]
    intro d v x hd hx
    rcases get_set hd with ⟨rfl, rfl⟩ | ⟨_, h⟩
    · rw [hp] at hx; cases hx
    · exact hi.put _ _ _ h hx

theorem InvA.enq {s : S} (hi : InvA s) {c k i rest x e aw} {w : W} (hc : s.cs[c]? = some (.try_ k (i :: rest) x e aw))
    (hw : s.ws[i]? = some w) (hl : w.q.length < s.cap) :
    InvA { (s.setW i { w with q := w.q ++ [x] }).setC c (.ntf i x aw) with acc := s.acc ++ [(x, i)] } where
  n := by simp [S.setW, S.setC, hi.n]
  cap := hi.cap
  ord := by
    intro j v hj
    rcases get_set (show (s.ws.set i _)[j]? = some v from hj) with ⟨rfl, rfl⟩ | ⟨hne, h⟩
    · show ofW (s.acc ++ [(x, j)]) j = ofW s.ran j ++ (w.pc.batch ++ (w.q ++ [x]))
      rw [ofW_add_same, hi.ord _ _ hw]; simp
    · show ofW (s.acc ++ [(x, i)]) j = ofW s.ran j ++ (v.pc.batch ++ v.q)
      rw [ofW_add_ne _ (Ne.symm hne)]; exact hi.ord _ _ h
  len := by
    intro j v hj
    rcases get_set (show (s.ws.set i _)[j]? = some v from hj) with ⟨rfl, rfl⟩ | ⟨_, h⟩
    · show (w.q ++ [x]).length ≤ s.cap
      simp; omega
    · exact hi.len _ _ h
  accK := by
    intro p hp
    show p.2 < (s.ws.set i _).length
    rw [List.length_set]
    rcases List.mem_append.1 hp with h | h
    · exact hi.accK p h
    · simp at h; subst h; exact lt_of_get hw
  ranK := by
    intro p hp
    show p.2 < (s.ws.set i _).length
    rw [List.length_set]
    exact hi.ranK p hp
  idA := by
    intro p hp
    rcases List.mem_append.1 hp with h | h
    · exact hi.idA p h
    · simp at h; subst h; exact (hi.held _ _ _ hc rfl).1
  nd := by
    show ((s.acc ++ [(x, i)]).map Prod.fst).Nodup
    have h1 := (hi.held _ _ _ hc rfl).2
    rw [List.map_append, List.nodup_append]
    refine ⟨hi.nd, by simp, ?_⟩
    intro a ha b hb hab
    simp at hb; subst hb; subst hab; exact h1 ha
  held := by
    intro d v y hd hy
    rcases get_set (show (s.cs.set c _)[d]? = some v from hd) with ⟨rfl, rfl⟩ | ⟨hne, h⟩
    · cases hy
    · have h1 := hi.held _ _ _ h hy
      refine ⟨h1.1, ?_⟩
      show y ∉ (s.acc ++ [(x, i)]).map Prod.fst
      intro hm
      rw [List.map_append, List.mem_append] at hm
      rcases hm with hm | hm
      · exact h1.2 hm
      · simp at hm; subst hm
        exact hne (hi.uniq _ _ _ _ _ h hc hy rfl)
  uniq := by
    intro d d' v v' y hd hd' hx hx'
    rcases get_set (show (s.cs.set c _)[d]? = some v from hd) with ⟨rfl, rfl⟩ | ⟨_, h⟩
    · cases hx
    · rcases get_set (show (s.cs.set c _)[d']? = some v' from hd') with ⟨rfl, rfl⟩ | ⟨_, h'⟩
      · cases hx'
      · exact hi.uniq _ _ _ _ _ h h' hx hx'
  put := by
    intro d v y hd hy
    show y ∈ (s.acc ++ [(x, i)]).map Prod.fst
    rw [List.map_append, List.mem_append]
    rcases get_set (show (s.cs.set c _)[d]? = some v from hd) with ⟨rfl, rfl⟩ | ⟨_, h⟩
    · cases hy; right; simp
    · exact .inl (hi.put _ _ _ h hy)

theorem InvA.run {s : S} (hi : InvA s) {k} {w : W} {x ts} (hw : s.ws[k]? = some w) (hp : w.pc = .exec (x :: ts)) :
    InvA { s.setW k { w with pc := .exec ts } with ran := s.ran ++ [(x, k)] } where
  n := by simp [S.setW, hi.n]
  cap := hi.cap
  ord := by
    intro j v hj
    rcases get_set (show (s.ws.set k _)[j]? = some v from hj) with ⟨rfl, rfl⟩ | ⟨hne, h⟩
    · show ofW s.acc j = ofW (s.ran ++ [(x, j)]) j ++ (ts ++ w.q)
      rw [ofW_add_same, hi.ord _ _ hw, hp]; simp [WPc.batch]
    · show ofW s.acc j = ofW (s.ran ++ [(x, k)]) j ++ (v.pc.batch ++ v.q)
      rw [ofW_add_ne _ (Ne.symm hne)]; exact hi.ord _ _ h
  len := by
    intro j v hj
    rcases get_set (show (s.ws.set k _)[j]? = some v from hj) with ⟨rfl, rfl⟩ | ⟨_, h⟩
    · have := hi.len _ _ hw; exact this
    · exact hi.len _ _ h
  accK := by
    intro p hp
    show p.2 < (s.ws.set k _).length
    rw [List.length_set]; exact hi.accK p hp
  ranK := by
    intro p hp
    show p.2 < (s.ws.set k _).length
    rw [List.length_set]
    rcases List.mem_append.1 hp with h | h
    · exact hi.ranK p h
    · simp at h; subst h; exact lt_of_get hw
  idA := hi.idA
  nd := hi.nd
  held := hi.held
  uniq := hi.uniq
  put := hi.put

theorem invA_init {s : S} (h : Init s) : InvA s := by
  obtain ⟨n, cap, m, hn, hc, rfl⟩ := h
  have hw : ∀ (k : Nat) (w : W), (S.new n cap m).ws[k]? = some w → w = ⟨[], false, 0, 0, .try0⟩ := by
    intro k w hk
    exact List.eq_of_mem_replicate (List.mem_of_getElem? hk)
  have hcs : ∀ (k : Nat) (pc : CPc), (S.new n cap m).cs[k]? = some pc → pc = .idle := by
    intro k w hk
    exact List.eq_of_mem_replicate (List.mem_of_getElem? hk)
  refine ⟨by simpa [S.new] using hn, hc, ?_, ?_, by simp [S.new], by simp [S.new], by simp [S.new], by simp [S.new], ?_, ?_, ?_⟩
  · intro k w hk; rw [hw k w hk]; rfl
  · intro k w hk; rw [hw k w hk]; exact Nat.zero_le _
  · intro c pc x hk hx; rw [hcs c pc hk] at hx; cases hx
  · intro c c' pc pc' x hk _ hx; rw [hcs c pc hk] at hx; cases hx
  · intro c pc x hk hx; rw [hcs c pc hk] at hx; cases hx

theorem invA_mv {s s' : S} (hi : InvA s) (h : Mv s s') : InvA s' := by
  cases h with
  | add => exact hi.call rfl rfl rfl rfl rfl rfl rfl rfl
  | addTo => exact hi.call rfl rfl rfl rfl rfl rfl rfl rfl
  | prep hc => exact hi.c hc (fun _ h => h) (fun _ h => h)
  | enq hc hw hl => exact hi.enq hc hw hl
  | nxt hc => exact hi.c hc (fun _ h => h) (fun _ h => h)
  | slp hc => exact hi.c hc (fun _ h => h) (fun _ h => h)
  | retry hc => exact hi.c hc (fun _ h => h) (fun _ h => h)
  | @cntf c i x aw w hc hw =>
    refine (hi.w (w' := { w with pullE := w.pullE + 1 }) hw rfl (by have := hi.len _ _ hw; exact this)).c (c := c) hc ?_ ?_
    · intro y hy; cases aw <;> cases hy
    · intro y hy; cases aw <;> simp [added, CPc.placed] at hy ⊢; exact hy
  | wake hc => exact hi.c hc (fun _ h => h) (fun _ h => h)
  | done hc => exact hi.c hc (fun _ h => by cases h) (fun _ h => by cases h)
  | @take k w x q hw hq hp =>
    refine hi.w hw ?_ ?_
    · simp [WPc.batch, hq]
    · have := hi.len _ _ hw; rw [hq] at this; simp at this; show q.length ≤ s.cap; omega
  | empty0 hw hp => exact hi.w hw (by rw [hp]; rfl) (by have := hi.len _ _ hw; exact this)
  | empty1 hw hp => exact hi.w hw (by rw [hp]; rfl) (by have := hi.len _ _ hw; exact this)
  | exit hw hp =>
    refine hi.w hw ?_ (by have := hi.len _ _ hw; exact this)
    rcases hp with hp | ⟨e, hp⟩ <;> rw [hp] <;> rfl
  | stay hw hp => exact hi.w hw (by rw [hp]; rfl) (by have := hi.len _ _ hw; exact this)
  | wslp hw hp => exact hi.w hw (by rw [hp]; rfl) (by have := hi.len _ _ hw; exact this)
  | wprep hw hp => exact hi.w hw (by rw [hp]; rfl) (by have := hi.len _ _ hw; exact this)
  | wwake hw hp => exact hi.w hw (by rw [hp]; rfl) (by have := hi.len _ _ hw; exact this)
  | full hw hp => exact hi.w hw (by rw [hp]; rfl) (by have := hi.len _ _ hw; exact this)
  | wntf hw hp => exact hi.w hw (by rw [hp]; rfl) (by have := hi.len _ _ hw; exact this)
  | run hw hp => exact hi.run hw hp
  | again hw hp => exact hi.w hw (by rw [hp]; rfl) (by have := hi.len _ _ hw; exact this)
  | shutdown => exact hi.ph rfl rfl rfl rfl rfl rfl
  | @close k w _ hw => exact (hi.w (w' := { w with closed := true }) hw rfl (by have := hi.len _ _ hw; exact this)).ph rfl rfl rfl rfl rfl rfl
  | closed => exact hi.ph rfl rfl rfl rfl rfl rfl
  | @sntf k w _ hw => exact (hi.w (w' := { w with pullE := w.pullE + 1 }) hw rfl (by have := hi.len _ _ hw; exact this)).ph rfl rfl rfl rfl rfl rfl
  | join => exact hi.ph rfl rfl rfl rfl rfl rfl
  | down => exact hi.ph rfl rfl rfl rfl rfl rfl

theorem invA {s : S} (h : Reachable Init step s) : InvA s :=
  Reachable.invariant InvA (fun _ h => invA_init h) (fun _ _ _ hi h => invA_mv hi (step_mv h)) h

end Verif.FQPool
