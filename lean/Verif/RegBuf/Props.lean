import Verif.RegBuf.Lemmas
import Verif.SegmentPool.Props
/-!
# C132: the registered buffers of an io_uring proactor
-/
namespace Verif.RegBuf

/-- C132, for the sizes for which it holds (see `C132_zero_refuted` and `C132_huge_refuted` for what is
missing). After every history of registrations, requests of sane sizes and returns of held slices no
call was undefined behaviour, and the held slices are page aligned, lie inside the registered memory and
share no byte. -/
theorem C132_disjoint_partial (ops : List Op) (hv : Valid Sys.new ops) :
    ∃ outs s, Common.run Sys.step Sys.new ops = some (outs, s) ∧
      (∀ b ∈ s.live, b.addr % 4096 = 0 ∧ Inside s.ur b) ∧ s.live.Pairwise Disjoint := by
  obtain ⟨os, s, hr, h⟩ := inv_run ops _ inv_new hv
  refine ⟨os, s, hr, ?_⟩
  cases h with
  | none hb hl => rw [hl]; exact ⟨fun _ h => (by cases h), List.Pairwise.nil⟩
  | some b L hb ha hL hi hm hp hs =>
    rw [hL]
    refine ⟨fun x hx => ?_, ?_⟩
    · obtain ⟨e, he, rfl⟩ := List.mem_map.mp hx
      have hbd := hi.bound e ((hi.live e).mp he).1
      dsimp only at hbd
      refine ⟨?_, b, hb, ?_, ?_⟩
      · simp only [toSlice, kAlign]; omega
      · simp only [toSlice]; omega
      · simp only [toSlice, kAlign]; omega
    · rw [List.pairwise_map]
      refine List.Pairwise.imp_of_mem ?_ hi.nodup
      intro x y hx hy hne z hz
      obtain ⟨i, hil, hia⟩ := List.getElem_of_mem ((hi.live x).mp hx).1
      obtain ⟨j, hjl, hjb⟩ := List.getElem_of_mem ((hi.live y).mp hy).1
      have hpw := List.pairwise_iff_getElem.mp hi.sorted
      simp only [toSlice, kAlign] at hz
      rcases Nat.lt_trichotomy i j with hlt | heq | hgt
      · have := (hpw i j hil hjl hlt).1
        rw [hia, hjb] at this; omega
      · subst heq; exact hne (hia.symm.trans hjb)
      · have := (hpw j i hjl hil hgt).1
        rw [hia, hjb] at this; omega

/-- C132, a slice that is given out for a sane size is large enough, and larger by less than a page. -/
theorem C132_size (u : Ur) (size : Nat) (h : SaneSize size) (b : Slice) (u' : Ur)
    (hr : u.request size = (some b, u')) : size ≤ b.len ∧ b.len < size + 4096 := by
  obtain ⟨_, _, h3, h4⟩ := segCount_sane h
  unfold Ur.request at hr
  split at hr
  · cases hr
  · dsimp only at hr
    split at hr
    · cases hr
      exact ⟨h3, h4⟩
    · cases hr

/-- C132, after every such history, a request for a sane size succeeds when some memory is registered,
and the pages it needs are free before all held slices, or after all of them. -/
theorem C132_available (ops : List Op) (hv : Valid Sys.new ops) (size : Nat) (hsz : SaneSize size) :
    ∃ outs s, Common.run Sys.step Sys.new ops = some (outs, s) ∧
      ∀ base, s.ur.backing = some base → size ≤ s.ur.mapped →
        ((∀ b ∈ s.live, base + size ≤ b.addr) ∨
          (∀ b ∈ s.live, b.addr + b.len + size ≤ base + s.ur.mapped)) →
        ∃ b, (s.ur.request size).1 = some b := by
  obtain ⟨os, s, hr, h⟩ := inv_run ops _ inv_new hv
  refine ⟨os, s, hr, ?_⟩
  obtain ⟨h1, h2, h3, h4⟩ := segCount_sane hsz
  intro base hbase hfit hgap
  cases h with
  | none hb hl => rw [hb] at hbase; cases hbase
  | some b L hb ha hL hi hm hp hs =>
    obtain rfl : b = base := Option.some.inj (hb.symm.trans hbase)
    have key : ∃ off, (s.ur.segments.request (segCount size)).1 = some off := by
      have hfit' : segCount size ≤ s.ur.segments.size := by omega
      have hgap' : (∀ e ∈ L, segCount size ≤ e.1) ∨
          (∀ e ∈ L, e.1 + e.2 + segCount size ≤ s.ur.segments.size) := by
        rcases hgap with hg | hg
        · left
          intro e he
          have := hg (toSlice b e) (by rw [hL]; exact List.mem_map_of_mem he)
          simp only [toSlice, kAlign] at this
          omega
        · right
          intro e he
          have := hg (toSlice b e) (by rw [hL]; exact List.mem_map_of_mem he)
          simp only [toSlice, kAlign] at this
          omega
      revert hi hfit' hgap'
      generalize s.ur.segments = pool
      intro hi hfit' hgap'
      obtain ⟨size', taken⟩ := pool
      cases taken with
      | nil =>
        have : ¬ segCount size > size' := by simp only at hfit'; omega
        exact ⟨0, by simp [Verif.SegmentPool.Pool.request, this]⟩
      | cons f rest =>
        have hf : f ∈ L := (hi.live f).mpr ⟨List.mem_cons_self, hi.front f rfl⟩
        have hbk : (f :: rest).getLast (by simp) ∈ L :=
          (hi.live _).mpr ⟨List.getLast_mem _, hi.back _ (List.getLast?_eq_some_getLast _)⟩
        by_cases hle : segCount size ≤ f.1
        · exact ⟨f.1 - segCount size, by simp [Verif.SegmentPool.Pool.request, hle]⟩
        · rcases hgap' with hg | hg
          · exact absurd (hg f hf) hle
          · have := hg _ hbk
            exact ⟨_, by simp only [Verif.SegmentPool.Pool.request, hle, if_false, this, if_true]; rfl⟩
    obtain ⟨off, hoff⟩ := key
    refine ⟨toSlice b (off, segCount size), ?_⟩
    unfold Ur.request
    rw [hb]
    dsimp only
    rw [h2]
    split
    · rename_i o p heq
      rw [heq] at hoff
      cases hoff
      rfl
    · rename_i p heq
      rw [heq] at hoff
      cases hoff

/-- C132, before a registration every request is refused and changes nothing. -/
theorem C132_unregistered (size : Nat) : Ur.new.request size = (none, Ur.new) := rfl

/-- C132, a registration succeeds exactly when `mmap` gives memory and the kernel accepts it; then the
pool is the given memory, of the given size rounded up to pages. Sizes here are those that a 64-bit
address space can map. -/
theorem C132_register (size a : Nat) (h0 : 0 < size) (h1 : size ≤ 2 ^ 30) :
    Ur.new.register size (.ok a) 0 =
      (0, { backing := some a, segments := { size := (size + 4095) / 4096, taken := [] },
            mapped := (size + 4095) / 4096 * 4096 }) := by
  have e : segCount size = (size + 4095) / 4096 := by
    unfold segCount u64 kAlign
    rw [Nat.mod_eq_of_lt (by omega)]
    congr 1
  unfold Ur.register
  have hne : ¬ ((size + 4095) / 4096 * 4096 = 0) := by omega
  have hle : ¬ ((size + 4095) / 4096 * 4096 > 2 ^ 30) := by omega
  have hdiv : (size + 4095) / 4096 * 4096 / 4096 = (size + 4095) / 4096 := by omega
  have hu : u32 ((size + 4095) / 4096) = (size + 4095) / 4096 := Nat.mod_eq_of_lt (by omega)
  have hu2 : (size + 4095) / 4096 % 2 ^ 32 = (size + 4095) / 4096 := hu
  simp only [e, kAlign, if_neg hne, kernelRegister, Ur.new, Nat.lt_irrefl, decide_false,
    Bool.false_eq_true, if_false, if_neg hle, ne_eq, not_true_eq_false, hdiv, hu,
    Verif.SegmentPool.Pool.grow, Verif.SegmentPool.create, Nat.zero_add, hu2]

/-- C132, a registration that reports an error, and every registration after one that succeeded, leaves
the buffers as they were. (`mmap` never fails with an error of 0.) -/
theorem C132_register_fails (u : Ur) (size : Nat) (map : Except Nat Nat) (err : Nat)
    (hm : map ≠ .error 0) :
    ((u.register size map err).1 ≠ 0 → (u.register size map err).2 = u) ∧
    (0 < u.mapped → (u.register size map err).1 ≠ 0) := by
  constructor
  · unfold Ur.register
    dsimp only
    intro h
    split at h
    · rfl
    · split at h
      · rename_i hk; rw [if_pos hk]
      · exact absurd rfl h
  · intro h
    exact (register_again h size map err).2.resolve_right hm

/-- C132, a returned slice is free again and no other is: after every such history, returning a held
slice and asking again for the whole registered memory succeeds when it was the only one held. -/
theorem C132_return (ops : List Op) (hv : Valid Sys.new ops) :
    ∃ outs s, Common.run Sys.step Sys.new ops = some (outs, s) ∧
      ∀ b ∈ s.live, ∃ u, s.ur.ret b = some u ∧ u.backing = s.ur.backing ∧ u.mapped = s.ur.mapped ∧
        (s.live = [b] → ∃ base, s.ur.backing = some base ∧
          (u.request s.ur.mapped).1 = some { addr := base, len := s.ur.mapped }) := by
  obtain ⟨os, s, hr, h⟩ := inv_run ops _ inv_new hv
  refine ⟨os, s, hr, fun x hx => ?_⟩
  cases h with
  | none hb hl => rw [hl] at hx; cases hx
  | some b L hb ha hL hi hm hp hs =>
    obtain ⟨o, s1, hst, hinv⟩ := inv_step (.some b L hb ha hL hi hm hp hs) (.ret x) hx
    simp only [Sys.step, Option.map_eq_some_iff, Prod.mk.injEq] at hst
    obtain ⟨u, hu, _, rfl⟩ := hst
    have hback : u.backing = s.ur.backing ∧ u.mapped = s.ur.mapped := by
      unfold Ur.ret at hu
      rw [hb] at hu
      simp only [Option.map_eq_some_iff] at hu
      obtain ⟨p, _, rfl⟩ := hu
      exact ⟨hb.symm, rfl⟩
    refine ⟨u, hu, hback.1, hback.2, fun hone => ⟨b, hb, ?_⟩⟩
    cases hinv with
    | none hb' _ =>
      have : u.backing = none := by rw [show u = Ur.new from hb']; rfl
      rw [hback.1, hb] at this
      cases this
    | some b' L' hb' _ hL' hi' hm' hp' hs' =>
      have hnil : L' = [] := by
        have : s.live.erase x = [] := by rw [hone]; simp
        rw [show s.live.erase x = L'.map (toSlice b') from hL'] at this
        simpa using this
      subst hnil
      have htk : u.segments.taken = [] := by
        cases ht : u.segments.taken with
        | nil => rfl
        | cons f rest =>
          have := (hi'.live f).mpr ⟨by dsimp only; rw [ht]; exact List.mem_cons_self,
            hi'.front f (by dsimp only; rw [ht]; rfl)⟩
          cases this
      have hm2 : u.mapped = u.segments.size * 4096 := hm'
      have hs2 : u.segments.size ≤ 2 ^ 18 := hs'
      have hp2 : 0 < u.mapped := hp'
      have hsane : SaneSize s.ur.mapped := ⟨hp, by rw [← hback.2]; omega⟩
      obtain ⟨k1, k2, k3, k4⟩ := segCount_sane hsane
      have hcnt : segCount s.ur.mapped = u.segments.size := by rw [← hback.2] at k3 k4 ⊢; omega
      unfold Ur.request
      rw [hback.1, hb]
      dsimp only
      rw [k2, hcnt]
      unfold Verif.SegmentPool.Pool.request
      rw [htk]
      simp only [gt_iff_lt, Nat.lt_irrefl, if_false, kAlign, Nat.zero_mul, Nat.add_zero]
      rw [← hm2, hback.2]

/-- C132, the destructor unmaps exactly the memory that was mapped. -/
theorem C132_unmap (ops : List Op) (hv : Valid Sys.new ops) :
    ∃ outs s, Common.run Sys.step Sys.new ops = some (outs, s) ∧
      s.ur.unmapped = s.ur.backing.map (fun b => (b, s.ur.mapped)) := by
  obtain ⟨os, s, hr, h⟩ := inv_run ops _ inv_new hv
  refine ⟨os, s, hr, ?_⟩
  cases h with
  | none hb hl => rw [hb]; rfl
  | some b L hb ha hL hi hm hp hs =>
    unfold Ur.unmapped kAlign
    rw [hb, hm]

/-- The full property is false of the code: with requests of size 0 every call below is allowed and
every return gives back a held slice, yet the last request is given memory that is still held. -/
theorem C132_zero_refuted :
    ∃ (ops : List Op) (outs : List Out) (s : Sys) (a b : Slice),
      Common.run Sys.step Sys.new ops = some (outs, s) ∧
      outs.getLast? = some (.slice (some b)) ∧ s.live = [b, a] ∧ 0 < a.len ∧ ¬ Disjoint a b := by
  refine ⟨[.register 40960 (.ok 8192) 0, .request 0, .request 20000, .request 20000,
    .ret { addr := 8192 + 5 * 4096, len := 5 * 4096 }, .ret { addr := 8192, len := 0 }, .request 40000],
    _, _, { addr := 8192, len := 5 * 4096 }, { addr := 8192, len := 10 * 4096 }, rfl, ?_, ?_, ?_, ?_⟩
  · decide
  · decide
  · decide
  · intro h
    exact h 8192 (by decide)

/-- The full property is false of the code for huge sizes: on a pool of 10 pages a request for 16 TB is
not refused, it is given a slice that is not inside the registered memory; and a request for 2^64 - 1
bytes is given a slice of no bytes. -/
theorem C132_huge_refuted :
    (∃ (s : Sys) (outs : List Out) (b : Slice), Common.run Sys.step Sys.new
        [.register 40960 (.ok 8192) 0, .request (2 ^ 44)] = some (outs, s) ∧
        outs.getLast? = some (.slice (some b)) ∧ b.len = 2 ^ 44 ∧ ¬ Inside s.ur b) ∧
    (∃ (s : Sys) (outs : List Out) (b : Slice), Common.run Sys.step Sys.new
        [.register 40960 (.ok 8192) 0, .request (2 ^ 64 - 1)] = some (outs, s) ∧
        outs.getLast? = some (.slice (some b)) ∧ b.len = 0) := by
  refine ⟨⟨_, _, { addr := 8192, len := 2 ^ 44 }, rfl, by decide, rfl, ?_⟩,
    ⟨_, _, { addr := 8192, len := 0 }, rfl, by decide, rfl⟩⟩
  rintro ⟨base, h1, h2, h3⟩
  cases h1
  revert h3
  decide

/-- A history that meets the hypotheses: three slices, of which the middle one is returned. -/
def caseOps : List Op :=
  [.register 40960 (.ok 8192) 0, .register 4096 (.ok 4096) 0, .request 5000, .request 1, .request 4096,
    .ret { addr := 8192 + 2 * 4096, len := 4096 }]

theorem C132_case :
    Common.run Sys.step Sys.new caseOps = some (
      [.code 0, .code 16, .slice (some { addr := 8192, len := 8192 }),
        .slice (some { addr := 16384, len := 4096 }), .slice (some { addr := 20480, len := 4096 }), .done],
      { ur := { backing := some 8192, segments := { size := 10, taken := [(0, 2), (2, 0), (3, 1)] }, mapped := 40960 },
        live := [{ addr := 20480, len := 4096 }, { addr := 8192, len := 8192 }] }) := by
  decide +kernel

theorem C132_case_valid : Valid Sys.new caseOps := by
  refine ⟨fun a h => by cases h; rfl, fun o s h => ?_⟩
  cases h
  refine ⟨fun a h => by cases h; rfl, fun o s h => ?_⟩
  cases h
  refine ⟨⟨by decide, by decide⟩, fun o s h => ?_⟩
  cases h
  refine ⟨⟨by decide, by decide⟩, fun o s h => ?_⟩
  cases h
  refine ⟨⟨by decide, by decide⟩, fun o s h => ?_⟩
  cases h
  refine ⟨?_, fun o s h => trivial⟩
  show _ ∈ _
  decide

end Verif.RegBuf
