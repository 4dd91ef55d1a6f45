import Verif.RegBuf.Spec
import Verif.SegmentPool.Lemmas
/-!
# The slices of a proactor are the segments of its pool
-/
namespace Verif.RegBuf
open Verif.SegmentPool (Pool)

/-- The slice of a segment. -/
def toSlice (b : Nat) (e : Nat × Nat) : Slice := { addr := b + e.1 * kAlign, len := e.2 * kAlign }

theorem toSlice_inj {b : Nat} {e f : Nat × Nat} (h : toSlice b e = toSlice b f) : e = f := by
  simp only [toSlice, kAlign, Slice.mk.injEq] at h
  obtain ⟨h1, h2⟩ := h
  exact Prod.ext (by omega) (by omega)

theorem map_erase_toSlice (b : Nat) (e : Nat × Nat) (l : List (Nat × Nat)) :
    (l.map (toSlice b)).erase (toSlice b e) = (l.erase e).map (toSlice b) := by
  induction l with
  | nil => rfl
  | cons a l ih =>
    by_cases h : a = e
    · subst h; simp
    · have h2 : toSlice b a ≠ toSlice b e := fun hh => h (toSlice_inj hh)
      rw [List.map_cons, List.erase_cons_tail (by simpa using h2),
        List.erase_cons_tail (by simpa using h), List.map_cons, ih]

theorem segCount_sane {size : Nat} (h : SaneSize size) :
    0 < segCount size ∧ u32 (segCount size) = segCount size ∧ size ≤ segCount size * 4096 ∧
      segCount size * 4096 < size + 4096 := by
  obtain ⟨h1, h2⟩ := h
  have e : segCount size = (size + 4095) / 4096 := by
    unfold segCount u64 kAlign
    rw [Nat.mod_eq_of_lt (by omega)]
    congr 1
  rw [e]
  have h5 : (size + 4095) / 4096 < 2 ^ 32 := by omega
  clear h2 e
  generalize hq : (size + 4095) / 4096 = q at h5 ⊢
  have h6 : 0 < q ∧ size ≤ q * 4096 ∧ q * 4096 < size + 4096 := by
    clear h5
    omega
  exact ⟨h6.1, Nat.mod_eq_of_lt h5, h6.2⟩

/-- Either nothing was registered, or the slices are the segments of the pool. -/
inductive Inv (s : Sys) : Prop where
  | none (hb : s.ur = Ur.new) (hl : s.live = [])
  | some (b : Nat) (L : List (Nat × Nat)) (hb : s.ur.backing = some b) (ha : b % 4096 = 0)
      (hL : s.live = L.map (toSlice b)) (hi : Verif.SegmentPool.Inv { pool := s.ur.segments, live := L })
      (hm : s.ur.mapped = s.ur.segments.size * 4096) (hp : 0 < s.ur.mapped)
      (hs : s.ur.segments.size ≤ 2 ^ 18)

theorem inv_new : Inv Sys.new := .none rfl rfl

theorem register_again {u : Ur} (h : 0 < u.mapped) (size : Nat) (map : Except Nat Nat) (err : Nat) :
    (u.register size map err).2 = u ∧ ((u.register size map err).1 ≠ 0 ∨ map = .error 0) := by
  unfold Ur.register
  by_cases hb : segCount size * kAlign = 0
  · simp [hb]
  · cases map with
    | error e =>
      simp only [hb, if_false]
      refine ⟨trivial, ?_⟩
      by_cases he : e = 0
      · right; rw [he]
      · left; exact he
    | ok a => simp [hb, kernelRegister, h]

theorem inv_step {s : Sys} (h : Inv s) (op : Op) (hp : pre s op) :
    ∃ o s', s.step op = some (o, s') ∧ Inv s' := by
  cases op with
  | register size map err =>
    refine ⟨_, _, rfl, ?_⟩
    cases h with
    | some b L hb ha hL hi hm hpos hs =>
      have e := (register_again hpos size map err).1
      rw [e]
      exact .some b L hb ha hL hi hm hpos hs
    | none hb hl =>
      rw [hb]
      by_cases h0 : segCount size * kAlign = 0
      · refine .none ?_ hl
        unfold Ur.register
        simp [h0]
      · cases map with
        | error e =>
          refine .none ?_ hl
          unfold Ur.register
          simp [h0]
        | ok a =>
          have ha : a % 4096 = 0 := hp a rfl
          by_cases hr : kernelRegister false (segCount size * kAlign) err = 0
          · have hle : segCount size * 4096 ≤ 2 ^ 30 := by
              unfold kernelRegister at hr
              simp only [Bool.false_eq_true, if_false] at hr
              by_cases hg : segCount size * kAlign > 2 ^ 30
              · rw [if_pos hg] at hr; cases hr
              · unfold kAlign at hg; omega
            have hdiv : segCount size * kAlign / kAlign = segCount size := by
              unfold kAlign; omega
            have hu : u32 (segCount size) = segCount size := by
              unfold u32; exact Nat.mod_eq_of_lt (by omega)
            have hg : (Ur.new.register size (.ok a) err).2 =
                { backing := some a, segments := { size := segCount size, taken := [] },
                  mapped := segCount size * kAlign } := by
              unfold Ur.register
              simp only [h0, if_false, Ur.new, Verif.SegmentPool.create, Nat.lt_irrefl, decide_false, hr,
                ne_eq, not_true_eq_false, Verif.SegmentPool.Pool.grow, hdiv, hu, Nat.zero_add]
              rw [Nat.mod_eq_of_lt (by omega)]
            rw [hg]
            refine .some a [] rfl ha ?_ (Verif.SegmentPool.inv_init _) rfl (Nat.pos_of_ne_zero h0) ?_
            · simpa using hl
            · dsimp only; omega
          · refine .none ?_ hl
            unfold Ur.register
            simp [h0, Ur.new, hr]
  | request size =>
    obtain ⟨h1, h2, h3, h4⟩ := segCount_sane hp
    cases h with
    | none hb hl =>
      refine ⟨.slice none, s, ?_, .none hb hl⟩
      simp only [Sys.step, hb, Ur.request, Ur.new]
      rw [show ({ ur := { backing := none, segments := Verif.SegmentPool.create 0, mapped := 0 }, live := s.live } : Sys) = s by
        cases s; cases hb; rfl]
    | some b L hb ha hL hi hm hpos hs =>
      cases hreq : s.ur.segments.request (segCount size) with
      | mk o p =>
        have hsz : p.size = s.ur.segments.size := by
          unfold Verif.SegmentPool.Pool.request at hreq
          split at hreq
          · split at hreq <;> (cases hreq; rfl)
          · split at hreq
            · cases hreq; rfl
            · dsimp only at hreq
              split at hreq <;> (cases hreq; rfl)
        cases o with
        | none =>
          have st : s.step (.request size) = some (.slice none, { s with ur := { s.ur with segments := p } }) := by
            simp only [Sys.step, Ur.request, hb, h2, hreq]
          refine ⟨_, _, st, .some b L hb ha hL ?_ ?_ hpos ?_⟩
          · refine Verif.SegmentPool.inv_request (o := none) hi h1 ?_
            simp only [Verif.SegmentPool.Sys.step, hreq]
          · dsimp only; rw [hsz]; exact hm
          · dsimp only; rw [hsz]; exact hs
        | some off =>
          have st : s.step (.request size) = some (.slice (some (toSlice b (off, segCount size))),
              { ur := { s.ur with segments := p }, live := toSlice b (off, segCount size) :: s.live }) := by
            simp only [Sys.step, Ur.request, hb, h2, hreq, toSlice]
          refine ⟨_, _, st, .some b ((off, segCount size) :: L) hb ha ?_ ?_ ?_ hpos ?_⟩
          · rw [hL]; rfl
          · refine Verif.SegmentPool.inv_request (o := some off) hi h1 ?_
            simp only [Verif.SegmentPool.Sys.step, hreq]
          · dsimp only; rw [hsz]; exact hm
          · dsimp only; rw [hsz]; exact hs
  | ret x =>
    cases h with
    | none hb hl =>
      have : x ∈ s.live := hp
      rw [hl] at this
      cases this
    | some b L hb ha hL hi hm hpos hs =>
      have hx : x ∈ s.live := hp
      rw [hL] at hx
      obtain ⟨seg, hseg, rfl⟩ := List.mem_map.mp hx
      obtain ⟨s', hst, hi'⟩ := Verif.SegmentPool.inv_ret hi hseg
      have hbd := hi.bound seg ((hi.live seg).mp hseg).1
      dsimp only at hbd
      have hoff : u32 (((toSlice b seg).addr - b) / kAlign) = seg.1 := by
        unfold toSlice u32 kAlign
        dsimp only
        rw [Nat.add_sub_cancel_left, Nat.mul_div_cancel _ (by decide)]
        exact Nat.mod_eq_of_lt (by omega)
      simp only [Verif.SegmentPool.Sys.step, Option.map_eq_some_iff, Prod.mk.injEq, true_and] at hst
      obtain ⟨p, hp2, rfl⟩ := hst
      have hsz : p.size = s.ur.segments.size := by
        unfold Verif.SegmentPool.Pool.ret at hp2
        split at hp2
        · cases hp2
        · dsimp only at hp2
          split at hp2
          · cases hp2
          · cases hp2; rfl
      have st : s.step (.ret (toSlice b seg)) = some (.done,
          { ur := { s.ur with segments := p }, live := s.live.erase (toSlice b seg) }) := by
        simp only [Sys.step, Ur.ret, hb, hoff, hp2, Option.map_some]
      refine ⟨_, _, st, .some b (L.erase seg) hb ha ?_ hi' ?_ hpos ?_⟩
      · rw [hL, map_erase_toSlice]
      · dsimp only; rw [hsz]; exact hm
      · dsimp only; rw [hsz]; exact hs

theorem inv_run (ops : List Op) : ∀ s, Inv s → Valid s ops →
    ∃ os s', Common.run Sys.step s ops = some (os, s') ∧ Inv s' := by
  induction ops with
  | nil => intro s h _; exact ⟨_, s, rfl, h⟩
  | cons op ops ih =>
    intro s h hv
    obtain ⟨o, s1, hs, h1⟩ := inv_step h op hv.1
    obtain ⟨os, s2, hr, h2⟩ := ih s1 h1 (hv.2 _ _ hs)
    exact ⟨o :: os, s2, by simp [Common.run, hs, hr], h2⟩

end Verif.RegBuf
