import Verif.Barrier.Spec
import Verif.Sync.Props
/-!
Invariants of the barrier.
-/
namespace Verif.Barrier
open Verif.Common Verif.Sync

/-- Does the fiber's program hold the mutex of the barrier? -/
def hold : L → Bool
  | .wBody | .wNtf _ | .wChk _ _ | .wWait _ _ | .wUnl _ _ | .xSet | .xUnl => true
  | _ => false

theorem disc : Disc barrier hold where
  loc := by
    intro g l t c g' l' hc h
    cases l <;> simp only [barrier, loc, Option.some.injEq, reduceCtorEq] at h
    all_goals repeat' split at h
    all_goals simp only [Option.some.injEq, Prod.mk.injEq] at h
    all_goals obtain ⟨-, rfl⟩ := h
    all_goals (try split) <;> rfl
  lock := by intro l b h; cases l <;> simp_all [barrier, call, ret, hold]
  tryLock := by intro l b h; cases l <;> simp_all [barrier, call, ret, hold]
  unlock := by intro l b h; cases l <;> simp_all [barrier, call, ret, hold]
  wait := by intro l b tm h; cases l <;> simp_all [barrier, call, ret, hold]
  notify := by intro l b all h; cases l <;> simp_all [barrier, call, ret, hold]

theorem untimed : Untimed barrier := by intro l; cases l <;> simp [barrier, call]

/-- Data invariant. -/
structure GInv (g : G) (cl : Nat → L) : Prop where
  ini : 0 < g.initial ∧ g.initial ≤ maxSize
  cur : 0 < g.cur ∧ g.cur ≤ g.initial
  cnt : g.canceled = false → g.arrived = g.cyc * g.initial + (g.initial - g.cur)
  chk : g.canceled = false → ∀ t c i, cl t = .wChk c i ∨ cl t = .wWait c i → c = i / g.initial ∧ c ≤ g.cyc
  ret : g.canceled = false → ∀ t b i, cl t = .wUnl b i → (i / g.initial + 1) * g.initial ≤ g.arrived
  last : ∀ t i, cl t = .wUnl true i ∨ cl t = .wNtf i → g.canceled = false → (i + 1) % g.initial = 0
  nlast : ∀ t i, cl t = .wUnl false i → g.canceled = false → (i + 1) % g.initial ≠ 0
  nchk : g.canceled = false → ∀ t c i, cl t = .wChk c i ∨ cl t = .wWait c i → (i + 1) % g.initial ≠ 0
  ntf : g.canceled = false → ∀ t i, cl t = .wNtf i → (i / g.initial + 1) * g.initial ≤ g.arrived

theorem dec {n : Nat} (h : 0 < n) (h2 : n ≤ maxSize) : (n + maxSize) % (maxSize + 1) = n - 1 := by
  have : n + maxSize = (n - 1) + (maxSize + 1) := by omega
  rw [this, Nat.add_mod_right, Nat.mod_eq_of_lt (by omega)]

theorem div_grp {n c k : Nat} (h : k < n) : (c * n + k) / n = c := by
  rw [Nat.mul_comm, Nat.mul_add_div (by omega), Nat.div_eq_of_lt h]; rfl

theorem mod_grp {n c k : Nat} (h : k < n) : (c * n + k) % n = k := by
  rw [Nat.mul_comm, Nat.mul_add_mod, Nat.mod_eq_of_lt h]

theorem ginv_loc {g g' : G} {cl : Nat → L} {t : Nat} {c : Bool} {l' : L} (hq : g.arrived < maxSize) (h : GInv g cl)
    (hs : loc g (cl t) t c = some (g', l')) : GInv g' (upd cl t l') := by
  obtain ⟨h1, h2, h3, h4, h5, h6, h7, h8, h9⟩ := h
  have hcyc : g.canceled = false → g.cyc < maxSize := by
    intro hc
    have := h3 hc
    have : g.cyc * 1 ≤ g.cyc * g.initial := Nat.mul_le_mul_left _ h1.1
    omega
  have k4 := fun hc => h4 hc t
  have k8 := fun hc => h8 hc t
  cases hl : cl t <;> rw [hl] at hs k4 k8 <;> simp only [loc, Option.some.injEq, Prod.mk.injEq, reduceCtorEq] at hs
  · obtain ⟨rfl, rfl⟩ := hs
    constructor <;> (try assumption) <;> simp only [upd_apply] <;> grind
  · rw [dec h2.1 (by omega)] at hs
    split at hs <;> rename_i hz <;> simp only [Option.some.injEq, Prod.mk.injEq] at hs <;> obtain ⟨rfl, rfl⟩ := hs
    · have hcur : g.cur = 1 := by omega
      rw [hcur] at h3
      have a1 : g.canceled = false → (g.arrived + 1) = (g.cyc + 1) * g.initial ∧ g.arrived / g.initial = g.cyc ∧ (g.cyc + 1) % (maxSize + 1) = g.cyc + 1 := by
        intro hc
        have := h3 hc
        refine ⟨by rw [Nat.add_mul, Nat.one_mul]; omega, by rw [this, div_grp (by omega)], Nat.mod_eq_of_lt (by have := hcyc hc; omega)⟩
      constructor
      · exact h1
      · exact ⟨h1.1, Nat.le_refl _⟩
      · intro hc; obtain ⟨b1, b2, b3⟩ := a1 hc
        show g.arrived + 1 = (g.cyc + 1) % (maxSize + 1) * g.initial + (g.initial - g.initial)
        rw [b3]; omega
      · intro hc u c i; have := h4 hc u c i; obtain ⟨b1, b2, b3⟩ := a1 hc; simp only [upd_apply]; grind
      · intro hc u b i; have := h5 hc u b i; simp only [upd_apply]; grind
      · intro u i hu hc; have := h6 u i; obtain ⟨b1, b2, b3⟩ := a1 hc; simp only [upd_apply] at hu
        split at hu
        · have hi : i = g.arrived := by simpa [eq_comm] using hu
          show (i + 1) % g.initial = 0
          rw [hi, b1, Nat.mul_mod_left]
        · exact this hu hc
      · intro u i; have := h7 u i; simp only [upd_apply]; grind
      · intro hc u c i; have := h8 hc u c i; simp only [upd_apply]; grind
      · intro hc u i; have := h9 hc u i; obtain ⟨b1, b2, b3⟩ := a1 hc; simp only [upd_apply]
        split
        · intro hu; have hi : i = g.arrived := by simpa [eq_comm] using hu
          rw [hi, b2, b1]; exact Nat.le_refl _
        · intro hu; have := this hu; omega
    · have a1 : g.canceled = false → g.arrived / g.initial = g.cyc ∧ (g.arrived + 1) % g.initial ≠ 0 := by
        intro hc
        have := h3 hc
        refine ⟨by rw [this, div_grp (by omega)], ?_⟩
        rw [this, Nat.add_assoc, mod_grp (by omega)]; omega
      constructor
      · exact h1
      · show 0 < g.cur - 1 ∧ g.cur - 1 ≤ g.initial; omega
      · intro hc; have := h3 hc
        show g.arrived + 1 = g.cyc * g.initial + (g.initial - (g.cur - 1)); omega
      · intro hc u c i; have := h4 hc u c i; have := a1 hc; simp only [upd_apply]; grind
      · intro hc u b i; have := h5 hc u b i; simp only [upd_apply]; grind
      · intro u i; have := h6 u i; simp only [upd_apply]; grind
      · intro u i; have := h7 u i; simp only [upd_apply]; grind
      · intro hc u c i; have := h8 hc u c i; have := a1 hc; simp only [upd_apply]; grind
      · intro hc u i; have := h9 hc u i; simp only [upd_apply]; grind
  · obtain ⟨rfl, rfl⟩ := hs
    rename_i c i
    have a1 : g.canceled = false → c ≠ g.cyc → (i / g.initial + 1) * g.initial ≤ g.arrived := by
      intro hc hne
      obtain ⟨b1, b2⟩ := k4 hc c i (.inl rfl)
      have : (c + 1) * g.initial ≤ g.cyc * g.initial := Nat.mul_le_mul_right _ (by omega)
      have := h3 hc
      rw [← b1]; omega
    constructor <;> (try assumption) <;> simp only [upd_apply]
    · intro hc u c i; have := h4 hc u c i; have := k4 hc; split <;> grind
    · intro hc u b j; have := h5 hc u b j; have := hcyc hc; have := a1 hc
      split <;> try assumption
      split
      · intro hj; simp only [L.wUnl.injEq] at hj; rw [← hj.2]; grind
      · simp
    · intro u j; have := h6 u j; split <;> grind
    · intro u j hu hc; have := h7 u j; have := k8 hc c i (.inl rfl); split at hu <;> grind
    · intro hc u c i; have := h8 hc u c i; have := k8 hc; split <;> grind
    · intro hc u j; have := h9 hc u j; split <;> grind
  · obtain ⟨rfl, rfl⟩ := hs
    constructor <;> (try assumption) <;> simp

theorem ginv_ret {g : G} {cl : Nat → L} {t : Nat} {b : Bool} (h : GInv g cl) (hc : call (cl t) ≠ .loc) : GInv g (upd cl t (ret (cl t) b)) := by
  obtain ⟨h1, h2, h3, h4, h5, h6, h7, h8, h9⟩ := h
  have hm : ∀ u, u ≠ t → upd cl t (ret (cl t) b) u = cl u := fun u hu => upd_ne _ _ hu
  have ht : upd cl t (ret (cl t) b) t = ret (cl t) b := upd_same _ _ _
  have key : ∀ (F : L → Prop), (∀ u, F (cl u)) → (F (cl t) → F (ret (cl t) b)) → ∀ u, F (upd cl t (ret (cl t) b) u) := by
    intro F k1 k2 u
    by_cases hu : u = t
    · rw [hu, ht]; exact k2 (k1 t)
    · rw [hm u hu]; exact k1 u
  constructor
  · exact h1
  · exact h2
  · exact h3
  · intro hc2; refine key (fun l => ∀ c i, l = .wChk c i ∨ l = .wWait c i → c = i / g.initial ∧ c ≤ g.cyc) (h4 hc2) ?_; cases cl t <;> intro h c i hh <;> simp [ret, call] at h hh hc ⊢ <;> grind
  · intro hc2; refine key (fun l => ∀ b i, l = .wUnl b i → (i / g.initial + 1) * g.initial ≤ g.arrived) (h5 hc2) ?_
    have := h9 hc2 t; revert this; cases cl t <;> intro this h c i hh <;> simp [ret, call] at h hh hc this ⊢ <;> grind
  · refine key (fun l => ∀ i, l = .wUnl true i ∨ l = .wNtf i → g.canceled = false → (i + 1) % g.initial = 0) h6 ?_; cases cl t <;> intro h i hh <;> simp [ret, call] at h hh hc ⊢ <;> grind
  · refine key (fun l => ∀ i, l = .wUnl false i → g.canceled = false → (i + 1) % g.initial ≠ 0) h7 ?_; cases cl t <;> intro h i hh <;> simp [ret, call] at h hh hc ⊢
  · intro hc2; refine key (fun l => ∀ c i, l = .wChk c i ∨ l = .wWait c i → (i + 1) % g.initial ≠ 0) (h8 hc2) ?_; cases cl t <;> intro h c i hh <;> simp [ret, call] at h hh hc ⊢ <;> grind
  · intro hc2; refine key (fun l => ∀ i, l = .wNtf i → (i / g.initial + 1) * g.initial ≤ g.arrived) (h9 hc2) ?_; cases cl t <;> intro h i hh <;> simp [ret, call] at h hh hc ⊢

theorem ginv_reach {s : State G L} (h : BReach Few s) : GInv s.g s.cl := by
  refine client_reach (R := GInv) (Q := Few) ?_ ?_ ?_ h
  · intro s hi
    obtain ⟨⟨h1, h1', h2⟩, h3, h4⟩ := hi
    have h3 : ∀ t, s.cl t = .idle := h3
    rw [h2]
    exact ⟨⟨h1, h1'⟩, ⟨h1, Nat.le_refl _⟩, by simp, by simp [h3], by simp [h3], by simp [h3], by simp [h3], by simp [h3], by simp [h3]⟩
  · intro s t c g' l' hq hR _ _ _ hs; exact ginv_loc hq hR hs
  · intro s t b _ hR _ _ hc; exact ginv_ret hR hc

/-- What a fiber in `Wait` waits for. -/
def cond (g : G) : L → Prop
  | .wWait c _ => c ≠ g.cyc ∨ g.cyc = maxSize
  | _ => False

theorem signals : Signals barrier hold cond Notifying where
  check := by
    intro g l t c g' l' hc h hw
    obtain ⟨tm, hw⟩ := hw
    cases l <;> simp only [barrier, loc, Option.some.injEq, reduceCtorEq] at h
    all_goals repeat' split at h
    all_goals simp only [Option.some.injEq, Prod.mk.injEq] at h
    all_goals obtain ⟨rfl, rfl⟩ := h
    all_goals repeat' split at hw
    all_goals simp only [barrier, call, reduceCtorEq] at hw
    simp only [cond]
    assumption
  nowait := by intro l b hc tm; cases l <;> simp_all [barrier, call, ret]
  make := by
    intro g l t c g' l' m hc h hw h1 h2
    have same : g'.cyc = g.cyc → False := by
      intro he; cases m <;> simp only [cond, he] at h1 h2; exact h1 h2
    cases l <;> simp only [barrier, loc, Option.some.injEq, reduceCtorEq] at h
    case idle => obtain ⟨rfl, -⟩ := Prod.mk.inj h; exact (same rfl).elim
    case wChk => obtain ⟨rfl, -⟩ := Prod.mk.inj h; exact (same rfl).elim
    case xSet => obtain ⟨-, rfl⟩ := Prod.mk.inj h; exact ⟨rfl, trivial⟩
    case wBody =>
      split at h
      · obtain ⟨-, rfl⟩ := Prod.mk.inj (Option.some.inj h); exact ⟨rfl, trivial⟩
      · obtain ⟨h3, -⟩ := Prod.mk.inj (Option.some.inj h)
        refine (same ?_).elim
        have := congrArg G.cyc h3; exact this.symm
  keepLoc := by intro g l t c g' l' ho hc h; cases l <;> simp_all [barrier, call, Notifying]
  keepRet := by intro l b ho hc hn; cases l <;> simp_all [barrier, call, ret, Notifying]

end Verif.Barrier
