import Verif.BufRing.Spec

namespace Verif.BufRing

open Verif.Common (upd upd_same upd_ne)

/-- Storage offsets of `len` stream positions from `s`. -/
def from_ (c : Cfg) (s len : Nat) : List Nat := (List.range len).map fun i => (s + i) % (c.n * c.esize)

theorem from_add (c : Cfg) (s a b : Nat) : from_ c s (a + b) = from_ c s a ++ from_ c (s + a) b := by
  unfold from_
  rw [List.range_add, List.map_append, List.map_map]
  congr 1
  apply List.map_congr_left
  intro i _
  simp only [Function.comp_apply]
  rw [Nat.add_assoc]

theorem ring_addr {n e uh r : Nat} (hn : 0 < n) (hr : r < e) :
    (uh * e + r) % (n * e) = uh % n * e + r := by
  have h1 : uh = n * (uh / n) + uh % n := (Nat.div_add_mod uh n).symm
  have hm : uh % n < n := Nat.mod_lt _ hn
  generalize uh % n = m at *
  generalize uh / n = q at *
  have h3 : uh * e + r = m * e + r + n * e * q := by
    rw [h1, Nat.add_mul, Nat.mul_right_comm]; omega
  have h2 : m * e + r < n * e := by
    have : (m + 1) * e ≤ n * e := Nat.mul_le_mul_right e hm
    rw [Nat.add_mul, Nat.one_mul] at this
    omega
  rw [h3, Nat.add_mul_mod_self_left, Nat.mod_eq_of_lt h2]

theorem from_seg {c : Cfg} {uh off seg : Nat} (hn : 0 < c.n) (h : off + seg ≤ c.esize) :
    from_ c (uh * c.esize + off) seg = List.range' (uh % c.n * c.esize + off) seg := by
  rw [List.range'_eq_map_range]
  unfold from_
  apply List.map_congr_left
  intro i hi
  have := List.mem_range.1 hi
  rw [Nat.add_assoc, ring_addr hn (by omega), Nat.add_assoc]

theorem base_eq {c : Cfg} (h : Legal c) {b : Nat} (hb : b < c.n) : base c b = b * c.esize := by
  unfold base
  apply Nat.mod_eq_of_lt
  have h1 := h.fits
  have h2 : (b + 1) * c.esize ≤ c.n * c.esize := Nat.mul_le_mul_right _ hb
  rw [Nat.add_mul, Nat.one_mul] at h2
  have := h.epos
  omega

/-- The group is at buffer `uh` of the stream, `off` bytes into it. -/
structure GInv (c : Cfg) (g : G) (uh off : Nat) : Prop where
  head : g.head = uh % 65536
  tail : g.tail = (uh + c.n) % 65536
  goff : g.off = off
  olt : off < c.esize
  bufs : ∀ i, i < c.n → g.bufs i = i

theorem GInv.cur {c g uh off} (h : Legal c) (hg : GInv c g uh off) : g.cur c = uh % c.n := by
  unfold G.cur
  rw [hg.head, Nat.mod_mod_of_dvd _ h.dvd]
  exact hg.bufs _ (Nat.mod_lt _ h.npos)

theorem GInv.advance {c g uh off} (h : Legal c) (hg : GInv c g uh off) :
    GInv c (g.advance c) (uh + 1) 0 := by
  refine ⟨?_, ?_, rfl, h.epos, ?_⟩
  · simp only [G.advance, hg.head]; omega
  · simp only [G.advance, hg.tail]; omega
  · intro i hi
    simp only [G.advance]
    rw [hg.cur h, hg.tail, Nat.mod_mod_of_dvd _ h.dvd, Nat.add_mod_right]
    by_cases he : i = uh % c.n
    · subst he; rw [upd_same]
    · rw [upd_ne _ _ he]; exact hg.bufs i hi

theorem up_mul {c : Cfg} (h : 0 < c.esize) (k : Nat) : up c (k * c.esize) = k * c.esize := by
  unfold up
  have : (k * c.esize + c.esize - 1) / c.esize = k := by
    rw [Nat.add_sub_assoc h, Nat.mul_comm, Nat.mul_add_div h, Nat.div_eq_of_lt (by omega)]
    rfl
  rw [this]

theorem up_mid {c : Cfg} {k r : Nat} (h : 0 < r) (hr : r ≤ c.esize) :
    up c (k * c.esize + r) = (k + 1) * c.esize := by
  unfold up
  have : (k * c.esize + r + c.esize - 1) / c.esize = k + 1 := by
    have e : k * c.esize + r + c.esize - 1 = (k + 1) * c.esize + (r - 1) := by
      rw [Nat.add_mul, Nat.one_mul]; omega
    rw [e, Nat.mul_comm, Nat.mul_add_div (by omega), Nat.div_eq_of_lt (by omega)]
  rw [this]

/-- Where the group should be after `len` bytes from stream position `s`. -/
def endPos (c : Cfg) (s len : Nat) : Nat := if c.inc then s + len else up c (s + len)

/-- A slice lies inside one buffer of the group. -/
def InEntry (c : Cfg) (s : Slice) : Prop :=
  ∃ b, b < c.n ∧ b * c.esize ≤ s.addr ∧ s.addr + s.len ≤ (b + 1) * c.esize

theorem getPtr_ok {c g uh off} (h : Legal c) (hg : GInv c g uh off) (len : Nat) :
    getPtr c g (uh % c.n) len = some (⟨uh % c.n * c.esize + off,
      if len + off > c.esize then c.esize - off else len⟩, g) := by
  unfold getPtr
  rw [hg.cur h]
  simp only [ne_eq, not_true_eq_false, if_false, hg.cur h, if_true, hg.goff,
    base_eq h (Nat.mod_lt _ h.npos)]

theorem loop_ok {c : Cfg} (h : Legal c) : ∀ (fuel : Nat) (g : G) (uh off res : Nat) (incr : Bool),
    GInv c g uh off → res ≤ fuel → (c.inc = false → off = 0) →
    (c.inc = true → incr = false → res = 0 ∨ c.esize ≤ off + res) →
    ∃ ss g' uh' off', loop c fuel g res (uh % c.n) incr = some (ss, g') ∧ GInv c g' uh' off' ∧
      uh' * c.esize + off' = endPos c (uh * c.esize + off) res ∧ (c.inc = false → off' = 0) ∧
      handed ss = from_ c (uh * c.esize + off) res ∧ (∀ s ∈ ss, InEntry c s ∧ 0 < s.len) := by
  intro fuel
  induction fuel with
  | zero =>
    intro g uh off res incr hg hr hoff _
    have : res = 0 := by omega
    subst this
    refine ⟨[], g, uh, off, rfl, hg, ?_, hoff, by simp [handed, from_], by simp⟩
    unfold endPos
    split
    · rfl
    · rename_i hi
      have := hoff (by simpa using hi)
      subst this
      simp [up_mul h.epos]
  | succ fuel ih =>
    intro g uh off res incr hg hr hoff hincr
    by_cases h0 : res = 0
    · subst h0
      refine ⟨[], g, uh, off, by simp [loop], hg, ?_, hoff, by simp [handed, from_], by simp⟩
      unfold endPos
      split
      · rfl
      · rename_i hi
        have := hoff (by simpa using hi)
        subst this
        simp [up_mul h.epos]
    · have olt := hg.olt
      generalize hseg : (if res + off > c.esize then c.esize - off else res) = seg
      have hsp : 0 < seg ∧ seg ≤ res ∧ off + seg ≤ c.esize ∧ (off + seg < c.esize → seg = res) := by
        subst hseg; split <;> omega
      obtain ⟨s1, s2, s3, s4⟩ := hsp
      have hslice : InEntry c ⟨uh % c.n * c.esize + off, seg⟩ := by
        refine ⟨uh % c.n, Nat.mod_lt _ h.npos, Nat.le_add_right _ _, ?_⟩
        simp only
        rw [Nat.add_mul, Nat.one_mul]
        omega
      have hbytes := from_seg (c := c) (uh := uh) h.npos s3
      by_cases hstay : c.inc && incr && decide (off + seg < c.esize)
      · -- the buffer stays current
        simp only [Bool.and_eq_true, decide_eq_true_eq] at hstay
        obtain ⟨⟨hi, hinc⟩, hlt⟩ := hstay
        have hres := s4 hlt
        have hg2 : GInv c { g with off := g.off + seg } uh (off + seg) :=
          ⟨hg.head, hg.tail, by simp [hg.goff], hlt, hg.bufs⟩
        obtain ⟨ss, g', uh', off', e1, k1, k2, k3, k4, k5⟩ := ih { g with off := g.off + seg } uh (off + seg)
          (res - seg) true hg2 (by omega) (fun e => by rw [hi] at e; cases e) (fun _ e => nomatch e)
        refine ⟨⟨uh % c.n * c.esize + off, seg⟩ :: ss, g', uh', off', ?_, k1, ?_, k3, ?_, ?_⟩
        · unfold loop
          rw [if_neg h0, getPtr_ok h hg, hseg]
          simp only
          have ht : track c g seg (uh % c.n) incr = some (uh % c.n, { g with off := g.off + seg }) := by
            unfold track
            rw [hg.cur h, if_pos rfl, hg.goff]
            simp only [hi, hinc, hlt, Bool.and_self, decide_true, if_true]
          rw [ht]
          simp only
          rw [e1]
        · rw [k2]
          simp only [endPos, hi, if_true]
          omega
        · simp only [handed, List.flatMap_cons] at k4 ⊢
          rw [k4, ← hbytes, ← Nat.add_assoc, ← from_add]
          congr 1
          omega
        · intro s hs
          rcases List.mem_cons.1 hs with rfl | hs
          · exact ⟨hslice, s1⟩
          · exact k5 s hs
      · -- on to the next buffer
        have hg2 := hg.advance h
        obtain ⟨ss, g', uh', off', e1, k1, k2, k3, k4, k5⟩ := ih (g.advance c) (uh + 1) 0 (res - seg) true hg2
          (by omega) (fun _ => rfl) (fun _ e => nomatch e)
        -- the bytes end exactly at the end of the buffer, or this was the last segment
        have hcase : off + seg = c.esize ∨ (seg = res ∧ c.inc = false) := by
          by_cases hlt : off + seg < c.esize
          · right
            refine ⟨s4 hlt, ?_⟩
            cases hi : c.inc with
            | false => rfl
            | true =>
              exfalso
              cases hin : incr with
              | true => apply hstay; simp [hi, hin, hlt]
              | false =>
                rcases hincr hi hin with h1 | h1
                · exact h0 h1
                · have := s4 hlt; omega
          · left; omega
        have hrest : handed ss = from_ c (uh * c.esize + off + seg) (res - seg) := by
          rw [k4]
          rcases hcase with h1 | ⟨h1, _⟩
          · congr 1
            rw [Nat.add_mul, Nat.one_mul]; omega
          · rw [h1, Nat.sub_self]; simp [from_]
        refine ⟨⟨uh % c.n * c.esize + off, seg⟩ :: ss, g', uh', off', ?_, k1, ?_, k3, ?_, ?_⟩
        · unfold loop
          rw [if_neg h0, getPtr_ok h hg, hseg]
          simp only
          have ht : track c g seg (uh % c.n) incr = some ((uh + 1) % c.n, g.advance c) := by
            unfold track
            rw [hg.cur h, if_pos rfl, hg.goff, if_neg hstay]
            simp only [hg2.cur h]
          rw [ht]
          simp only
          rw [e1]
        · rw [k2]
          rcases hcase with h1 | ⟨h1, h2⟩
          · unfold endPos
            have e : (uh + 1) * c.esize + 0 + (res - seg) = uh * c.esize + off + res := by
              rw [Nat.add_mul, Nat.one_mul]; omega
            rw [e]
          · unfold endPos
            have ho := hoff h2
            subst ho
            simp only [h2, Bool.false_eq_true, if_false]
            rw [h1, Nat.sub_self]
            simp only [Nat.add_zero]
            rw [up_mul h.epos, up_mid (by omega) (by omega)]
        · have e2 : handed (⟨uh % c.n * c.esize + off, seg⟩ :: ss) =
              List.range' (uh % c.n * c.esize + off) seg ++ handed ss := rfl
          rw [e2, hrest, ← hbytes, ← from_add]
          congr 1
          omega
        · intro s hs
          rcases List.mem_cons.1 hs with rfl | hs
          · exact ⟨hslice, s1⟩
          · exact k5 s hs

/-- The completions waiting to be processed follow each other in the stream, from position `u` to `p`. -/
def Queue (c : Cfg) : Nat → List Compl → Nat → Prop
  | u, [], p => u = p
  | u, x :: xs, p =>
    (x.start = u ∨ (2 ≤ c.n ∧ x.start = up c u)) ∧ 0 < x.len ∧
      (c.inc = true → x.start % c.esize + x.len < c.esize → x.more = true) ∧ Queue c (x.stop c) xs p

theorem Queue.push {c : Cfg} {x : Compl} : ∀ {l : List Compl} {u p : Nat}, Queue c u l p →
    (x.start = p ∨ (2 ≤ c.n ∧ x.start = up c p)) → 0 < x.len →
    (c.inc = true → x.start % c.esize + x.len < c.esize → x.more = true) →
    Queue c u (l ++ [x]) (x.stop c)
  | [], _, _, h, h1, h2, h3 => by
    simp only [Queue] at h
    subst h
    exact ⟨h1, h2, h3, rfl⟩
  | y :: ys, _, _, h, h1, h2, h3 => ⟨h.1, h.2.1, h.2.2.1, Queue.push h.2.2.2 h1 h2 h3⟩

/-- The invariant of the system. -/
structure SInv (c : Cfg) (s : Sys) : Prop where
  g : ∃ off, GInv c s.g s.head off ∧ (c.inc = false → off = 0) ∧ Queue c (s.head * c.esize + off) s.pend s.pos
  win : ∀ x ∈ s.pend, x.start + x.len ≤ (s.head + c.n) * c.esize
  al : c.inc = false → ∀ x ∈ s.pend, x.start % c.esize = 0

theorem up_ge {c : Cfg} (h : 0 < c.esize) (x : Nat) : x ≤ up c x := by
  have hx : x = x / c.esize * c.esize + x % c.esize := (Nat.div_add_mod' x c.esize).symm
  by_cases hr : x % c.esize = 0
  · rw [hr, Nat.add_zero] at hx
    rw [hx, up_mul h]
    exact Nat.le_refl _
  · have := Nat.mod_lt x h
    rw [hx, up_mid (by omega) (by omega), Nat.add_mul, Nat.one_mul]
    omega

theorem up_mod {c : Cfg} (x : Nat) : up c x % c.esize = 0 := by
  unfold up; exact Nat.mul_mod_left ..

/-- Processing the oldest completion: defined, and the slices are exactly the bytes. -/
theorem process_ok {c : Cfg} (h : Legal c) {s : Sys} (hs : SInv c s) {x : Compl} {rest : List Compl}
    (hp : s.pend = x :: rest) :
    ∃ ss g, recvCb c s.g x.len (x.bid c) x.more = some (ss, g) ∧ handed ss = bytes c x ∧
      (∀ s ∈ ss, InEntry c s ∧ 0 < s.len) ∧
      SInv c { s with g := g, pend := rest, head := x.stop c / c.esize } ∧ s.head ≤ x.stop c / c.esize := by
  obtain ⟨off, hg, hoff, hq⟩ := hs.g
  rw [hp] at hq
  obtain ⟨q1, q2, q3, q4⟩ := hq
  have olt := hg.olt
  have hal := hs.al
  rw [hp] at hal
  -- the group after synchronising with the kernel
  have hsync : ∃ g1 uh off1, GInv c g1 uh off1 ∧ (c.inc = false → off1 = 0) ∧
      uh * c.esize + off1 = x.start ∧ s.head ≤ uh ∧
      (∀ n g' ss, loop c (n + 1) g1 x.len (uh % c.n) x.more = some (ss, g') →
        loop c (n + 1) s.g x.len (uh % c.n) x.more = some (ss, g')) := by
    rcases q1 with q1 | ⟨hn2, q1⟩
    · exact ⟨s.g, s.head, off, hg, hoff, q1.symm, Nat.le_refl _, fun _ _ _ h => h⟩
    · by_cases h0 : off = 0
      · subst h0
        rw [Nat.add_zero, up_mul h.epos] at q1
        exact ⟨s.g, s.head, 0, hg, hoff, by rw [q1]; rfl, Nat.le_refl _, fun _ _ _ h => h⟩
      · have hg2 := hg.advance h
        refine ⟨s.g.advance c, s.head + 1, 0, hg2, fun _ => rfl, ?_, by omega, ?_⟩
        · rw [q1, up_mid (by omega) (by omega)]; rfl
        · intro n g' ss hl
          unfold loop at hl ⊢
          rw [if_neg (by omega)] at hl ⊢
          have hne : s.g.cur c ≠ (s.head + 1) % c.n := by
            rw [hg.cur h]
            intro e
            have h1 := Nat.mod_lt s.head h.npos
            have h3 := Nat.add_mod s.head 1 c.n
            rw [Nat.mod_eq_of_lt (show 1 < c.n by omega)] at h3
            rw [← e] at h3
            by_cases h4 : s.head % c.n + 1 < c.n
            · rw [Nat.mod_eq_of_lt h4] at h3; omega
            · have h5 : s.head % c.n + 1 = c.n := by omega
              rw [h5, Nat.mod_self] at h3; omega
          have e1 : getPtr c s.g ((s.head + 1) % c.n) x.len =
              getPtr c (s.g.advance c) ((s.head + 1) % c.n) x.len := by
            unfold getPtr
            rw [if_pos hne]
            simp only [hg2.cur h, ne_eq, not_true_eq_false, if_false]
          rw [e1]
          exact hl
  obtain ⟨g1, uh, off1, k1, k2, k3, k4, k5⟩ := hsync
  have hbid : x.bid c = uh % c.n := by
    unfold Compl.bid
    rw [← k3, Nat.mul_comm, Nat.mul_add_div h.epos, Nat.div_eq_of_lt k1.olt, Nat.add_zero]
  have hmod : x.start % c.esize = off1 := by
    rw [← k3, Nat.mul_comm, Nat.mul_add_mod, Nat.mod_eq_of_lt k1.olt]
  obtain ⟨ss, g', uh', off', e1, m1, m2, m3, m4, m5⟩ := loop_ok h x.len g1 uh off1 x.len x.more k1
    (Nat.le_refl _) k2 (by
      intro hi hm
      right
      rw [hmod] at q3
      by_cases hl : off1 + x.len < c.esize
      · have := q3 hi hl; rw [hm] at this; cases this
      · omega)
  have hstop : x.stop c = uh' * c.esize + off' := by
    rw [m2, k3]; rfl
  have hdiv : x.stop c / c.esize = uh' := by
    rw [hstop, Nat.mul_comm, Nat.mul_add_div h.epos, Nat.div_eq_of_lt m1.olt, Nat.add_zero]
  have hge : s.head ≤ uh' := by
    have h1 : x.start ≤ x.stop c := by
      unfold Compl.stop
      split
      · omega
      · have := up_ge (c := c) h.epos (x.start + x.len); omega
    have h2 : uh ≤ uh' := by
      rw [← hdiv, Nat.le_div_iff_mul_le h.epos]
      omega
    omega
  refine ⟨ss, g', ?_, ?_, m5, ?_, by rw [hdiv]; exact hge⟩
  · unfold recvCb
    rw [hbid]
    obtain ⟨n, hn⟩ : ∃ n, x.len = n + 1 := ⟨x.len - 1, by omega⟩
    have := k5 n g' ss (by rw [← hn]; exact e1)
    rw [← hn] at this
    exact this
  · rw [m4, k3]; rfl
  · rw [hdiv]
    refine ⟨⟨off', m1, m3, by rw [← hstop]; exact q4⟩, ?_, ?_⟩
    · intro y hy
      have := hs.win y (by rw [hp]; exact List.mem_cons_of_mem _ hy)
      have h2 : (s.head + c.n) * c.esize ≤ (uh' + c.n) * c.esize := Nat.mul_le_mul_right _ (by omega)
      simp only
      omega
    · intro hi y hy
      exact hal hi y (List.mem_cons_of_mem _ hy)

theorem Queue.pos_mod {c : Cfg} (hi : c.inc = false) : ∀ {l : List Compl} {u p : Nat}, Queue c u l p →
    u % c.esize = 0 → p % c.esize = 0
  | [], _, _, h, h1 => by simp only [Queue] at h; subst h; exact h1
  | x :: xs, _, _, h, _ => by
    apply Queue.pos_mod hi h.2.2.2
    unfold Compl.stop
    rw [hi]
    exact up_mod _

theorem Queue.le {c : Cfg} (h : 0 < c.esize) : ∀ {l : List Compl} {u p : Nat}, Queue c u l p → u ≤ p
  | [], _, _, hq => by simp only [Queue] at hq; omega
  | x :: xs, u, p, hq => by
    have h1 := Queue.le h hq.2.2.2
    have hu : u ≤ x.start := by
      rcases hq.1 with h3 | ⟨_, h3⟩
      · omega
      · rw [h3]; exact up_ge h u
    have hst : x.start + x.len ≤ x.stop c := by
      unfold Compl.stop
      split
      · exact Nat.le_refl _
      · exact up_ge h _
    omega

/-- With a single buffer the kernel has no other to continue with. -/
theorem skip_single {c : Cfg} (h : 0 < c.esize) {pos head len : Nat} (hn : c.n < 2) (hp : head * c.esize ≤ pos)
    (hl : 0 < len) (hw : up c pos + len ≤ (head + c.n) * c.esize) : up c pos = pos := by
  have h1 : up c pos < (head + 1) * c.esize := by
    have : (head + c.n) * c.esize ≤ (head + 1) * c.esize := Nat.mul_le_mul_right _ (by omega)
    omega
  have h2 := up_ge (c := c) h pos
  unfold up at h1 ⊢
  have h3 : (pos + c.esize - 1) / c.esize < head + 1 := Nat.lt_of_mul_lt_mul_right h1
  have h4 : (pos + c.esize - 1) / c.esize * c.esize ≤ head * c.esize := Nat.mul_le_mul_right _ (by omega)
  unfold up at h2
  omega

theorem init_inv {c : Cfg} (h : Legal c) : SInv c (Sys.init c) :=
  ⟨⟨0, ⟨rfl, by simp [Sys.init, G.init], rfl, h.epos, fun _ _ => rfl⟩, fun _ => rfl, by simp [Queue, Sys.init]⟩,
    by simp [Sys.init], by simp [Sys.init]⟩

theorem step_inv {c : Cfg} (h : Legal c) {s s' : Sys} {a : Act} {o} (hs : SInv c s) (ha : Allowed c s a)
    (hst : step c s a = some (o, s')) : SInv c s' := by
  cases a with
  | recv len skip more =>
    simp only [step, Option.some.injEq, Prod.mk.injEq] at hst
    obtain ⟨_, rfl⟩ := hst
    obtain ⟨a1, a2, a3⟩ := ha
    obtain ⟨off, hg, hoff, hq⟩ := hs.g
    refine ⟨⟨off, hg, hoff, ?_⟩, ?_, ?_⟩
    · apply hq.push
      · cases skip
        · exact Or.inl rfl
        · by_cases hn : 2 ≤ c.n
          · exact Or.inr ⟨hn, rfl⟩
          · left
            have := hq.le h.epos
            exact skip_single h.epos (by omega) (by omega) a1 a2
      · exact a1
      · exact a3
    · intro y hy
      simp only [List.mem_append, List.mem_singleton] at hy
      rcases hy with hy | rfl
      · exact hs.win y hy
      · exact a2
    · intro hi y hy
      simp only [List.mem_append, List.mem_singleton] at hy
      rcases hy with hy | rfl
      · exact hs.al hi y hy
      · simp only
        split
        · exact up_mod _
        · apply hq.pos_mod hi
          rw [hoff hi, Nat.add_zero, Nat.mul_mod_left]
  | process =>
    simp only [step] at hst
    cases hp : s.pend with
    | nil =>
      rw [hp] at hst
      simp only [Option.some.injEq, Prod.mk.injEq] at hst
      rw [← hst.2]
      exact hs
    | cons x rest =>
      obtain ⟨ss, g, e1, _, _, e2, _⟩ := process_ok h hs hp
      rw [hp] at hst
      simp only [e1, Option.some.injEq, Prod.mk.injEq] at hst
      rw [← hst.2]
      exact e2

theorem reach_inv {c : Cfg} (h : Legal c) {s : Sys} (hr : Reach c s) : SInv c s := by
  induction hr with
  | init => exact init_inv h
  | step _ ha hs ih => exact step_inv h ih ha hs

theorem Queue.ordered {c : Cfg} (h : 0 < c.esize) : ∀ {l : List Compl} {u p : Nat}, Queue c u l p →
    (∀ x ∈ l, u ≤ x.start) ∧ l.Pairwise (fun x y => x.start + x.len ≤ y.start)
  | [], _, _, _ => ⟨by simp, List.Pairwise.nil⟩
  | x :: xs, u, p, hq => by
    obtain ⟨h1, h2⟩ := Queue.ordered h hq.2.2.2
    have hu : u ≤ x.start := by
      rcases hq.1 with h3 | ⟨_, h3⟩
      · omega
      · rw [h3]; exact up_ge h u
    have hst : x.start + x.len ≤ x.stop c := by
      unfold Compl.stop
      split
      · exact Nat.le_refl _
      · exact up_ge h _
    refine ⟨?_, ?_⟩
    · intro y hy
      rcases List.mem_cons.1 hy with rfl | hy
      · exact hu
      · have := h1 y hy; omega
    · refine List.Pairwise.cons ?_ h2
      intro y hy
      have := h1 y hy
      omega

end Verif.BufRing
