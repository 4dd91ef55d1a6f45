import Verif.Io.Mem
/-!
`io::ApplyExactly` (io.h 279-312): the loop behind `Sink::Write`, `LinuxFile::Write` and `LinuxFile::Read`.
-/
namespace Verif.Io

/-- Outcome of a loop run with a bound on its iterations: undefined behaviour, still running, or a value and the new state. -/
inductive Run (α σ : Type)
  | ub
  | more
  | ret (a : α) (s : σ)

/-- io.h 290-293: skip the entries that are done. -/
def skipDone : List Iov → Nat → List Iov × Nat
  | [], d => ([], d)
  | v :: vs, d => if v.len ≤ d then skipDone vs (d - v.len) else (v :: vs, d)

/-- io.h 298-308: finish one entry. `next` running past `base_end` is undefined (the loop tests `!=`). -/
def finishEntry {σ : Type} (func : List Iov → σ → Run Res σ) : Nat → Iov → σ → Run (Option Err) σ
  | 0, _, _ => .more
  | k + 1, v, s =>
    match func [v] s with
    | .ub => .ub
    | .more => .more
    | .ret (.err e) s => .ret (some e) s
    | .ret (.ok n) s =>
      if n = v.len then .ret none s
      else if n < v.len then finishEntry func k ⟨v.base + n, v.len - n⟩ s
      else .ub

/-- io.h 279-312 `ApplyExactly`; the first argument bounds the iterations, `.more` meaning that the bound was hit. -/
def applyExactly {σ : Type} (func : List Iov → σ → Run Res σ) : Nat → List Iov → σ → Run (Option Err) σ
  | _, [], s => .ret none s
  | 0, _ :: _, _ => .more
  | k + 1, v :: vs, s =>
    match func (v :: vs) s with
    | .ub => .ub
    | .more => .more
    | .ret (.err e) s => .ret (some e) s
    | .ret (.ok n) s =>
      match skipDone (v :: vs) n with
      | (vs', 0) => applyExactly func k vs' s
      | ([], _ + 1) => .ub     -- dereferences endv
      | (w :: vs', d + 1) =>
        match finishEntry func (k + 1) ⟨w.base + (d + 1), w.len - (d + 1)⟩ s with
        | .ub => .ub
        | .more => .more
        | .ret (some e) s => .ret (some e) s
        | .ret none s => applyExactly func k vs' s

/-! ### The bytes designated by a vector, as addresses -/

/-- The addresses an iovec array designates, in order. -/
def addrs (vs : List Iov) : List Nat := vs.flatMap (fun v => List.range' v.base v.len)

@[simp] theorem addrs_nil : addrs [] = [] := rfl
@[simp] theorem addrs_cons (v : Iov) (vs : List Iov) : addrs (v :: vs) = List.range' v.base v.len ++ addrs vs := rfl

theorem addrs_length (vs : List Iov) : (addrs vs).length = total vs := by
  induction vs with
  | nil => rfl
  | cons v vs ih => simp [ih, total]

theorem range_skip (b n k : Nat) (h : k ≤ n) : (List.range' b n).drop k = List.range' (b + k) (n - k) := by
  rw [List.drop_range']; simp

theorem addrs_skip {v : Iov} {vs : List Iov} {n : Nat} (h : n ≤ v.len) :
    addrs (⟨v.base + n, v.len - n⟩ :: vs) = (addrs (v :: vs)).drop n := by
  rw [addrs_cons, addrs_cons, List.drop_append_of_le_length (by simpa using h), range_skip _ _ _ h]

theorem skipDone_spec : ∀ (vs : List Iov) (d : Nat), d ≤ total vs → ∃ k, k + (skipDone vs d).2 = d ∧
    addrs (skipDone vs d).1 = (addrs vs).drop k ∧ (∀ w ws, (skipDone vs d).1 = w :: ws → (skipDone vs d).2 < w.len) ∧
    ((skipDone vs d).1 = [] → (skipDone vs d).2 = 0) ∧ (skipDone vs d).1.length ≤ vs.length := by
  intro vs
  induction vs with
  | nil => intro d hd; exact ⟨0, by simp [skipDone], by simp [skipDone], by simp [skipDone], by simp [skipDone, total] at *; omega, by simp [skipDone]⟩
  | cons v vs ih =>
    intro d hd
    simp only [skipDone]
    by_cases h : v.len ≤ d
    · rw [if_pos h]
      obtain ⟨k, h1, h2, h3, h4, h5⟩ := ih (d - v.len) (by simp [total] at hd ⊢; omega)
      refine ⟨v.len + k, by omega, ?_, h3, h4, by simp; omega⟩
      rw [h2, addrs_cons]
      simp [List.drop_append]
    · rw [if_neg h]
      refine ⟨0, by simp, by simp, ?_, by simp, by simp⟩
      intro w ws hw
      simp at hw
      rw [← hw.1]; simp; omega

/-- What `func` has to do: `I k s` means that the first `k` bytes of the whole vector have been transferred. `func` is only ever
called with a vector designating the bytes that come next, `E` restricts the errors it reports. -/
def Transfers {σ : Type} (func : List Iov → σ → Run Res σ) (whole : List Iov) (I : Nat → σ → Prop) (E : Err → Prop) : Prop :=
  ∀ k vs s, I k s → k ≤ total whole → addrs vs <+: (addrs whole).drop k → vs ≠ [] →
    match func vs s with
    | .ub => False
    | .more => True
    | .ret (.ok n) s' => n ≤ total vs ∧ I (k + n) s'
    | .ret (.err e) s' => I k s' ∧ E e

/-- What the loops return. -/
def ExactPost {σ : Type} (whole : List Iov) (I : Nat → σ → Prop) (E : Err → Prop) (goal : Nat) : Run (Option Err) σ → Prop
  | .ub => False
  | .more => True
  | .ret none s' => I goal s'
  | .ret (some e) s' => E e ∧ ∃ k', k' ≤ total whole ∧ I k' s'

theorem finishEntry_spec {σ : Type} {func : List Iov → σ → Run Res σ} {whole : List Iov} {I : Nat → σ → Prop} {E : Err → Prop}
    (hT : Transfers func whole I E) : ∀ (f k : Nat) (v : Iov) (s : σ), I k s → k ≤ total whole → addrs [v] <+: (addrs whole).drop k →
    ExactPost whole I E (k + v.len) (finishEntry func f v s) := by
  intro f
  induction f with
  | zero => intros; trivial
  | succ f ih =>
    intro k v s hI hk hp
    have hlen := hp.length_le
    simp [addrs_length] at hlen
    have h := hT k [v] s hI hk hp (by simp)
    simp only [finishEntry]
    cases hf : func [v] s with
    | ub => simp [hf] at h
    | more => trivial
    | ret r s' =>
      rw [hf] at h
      cases r with
      | err e => exact ⟨h.2, k, hk, h.1⟩
      | ok n =>
        simp only [total, List.map_cons, List.map_nil, List.sum_cons, List.sum_nil, Nat.add_zero] at h
        simp only
        split
        · rename_i hn; subst hn; exact h.2
        · rw [if_pos (by omega)]
          have := ih (k + n) ⟨v.base + n, v.len - n⟩ s' h.2 (by omega) (by
            rw [addrs_skip h.1, ← List.drop_drop]
            obtain ⟨t, ht⟩ := hp
            refine ⟨t, ?_⟩
            rw [← ht, List.drop_append_of_le_length (by simp [addrs_length, total]; exact h.1)])
          simp only [show k + n + (v.len - n) = k + v.len by omega] at this
          exact this

theorem applyExactly_spec {σ : Type} {func : List Iov → σ → Run Res σ} {whole : List Iov} {I : Nat → σ → Prop} {E : Err → Prop}
    (hT : Transfers func whole I E) : ∀ (f k : Nat) (vs : List Iov) (s : σ), I k s → k ≤ total whole → addrs vs = (addrs whole).drop k →
    ExactPost whole I E (total whole) (applyExactly func f vs s) := by
  intro f
  induction f with
  | zero =>
    intro k vs s hI hk hp
    cases vs with
    | nil =>
      have := congrArg List.length hp
      simp [addrs_length] at this
      have e : k = total whole := by omega
      subst e; exact hI
    | cons => trivial
  | succ f ih =>
    intro k vs s hI hk hp
    have hlen := congrArg List.length hp
    simp [addrs_length] at hlen
    cases vs with
    | nil =>
      have e : k = total whole := by simp only [total, List.map_nil, List.sum_nil] at hlen ⊢; simp only [total] at hk; omega
      subst e; exact hI
    | cons v vs =>
      have h := hT k (v :: vs) s hI hk (by rw [hp]; exact List.prefix_rfl) (by simp)
      simp only [applyExactly]
      cases hf : func (v :: vs) s with
      | ub => simp [hf] at h
      | more => trivial
      | ret r s' =>
        rw [hf] at h
        cases r with
        | err e => exact ⟨h.2, k, hk, h.1⟩
        | ok n =>
          obtain ⟨hn, hI'⟩ := h
          obtain ⟨j, h1, h2, h3, h4, h5⟩ := skipDone_spec (v :: vs) n hn
          simp only
          cases hs : skipDone (v :: vs) n with
          | mk ws d =>
            rw [hs] at h1 h2 h3 h4
            simp only at h1 h2 h3 h4
            cases d with
            | zero =>
              simp only
              refine ih (k + n) ws s' hI' (by omega) ?_
              rw [h2, hp, List.drop_drop]; congr 1; omega
            | succ d =>
              cases ws with
              | nil => have := h4 rfl; omega
              | cons w ws =>
                have hw := h3 w ws rfl
                have hrest : addrs (⟨w.base + (d + 1), w.len - (d + 1)⟩ :: ws) = (addrs whole).drop (k + n) := by
                  rw [addrs_skip (by omega), h2, hp, List.drop_drop, List.drop_drop]; congr 1; omega
                have hfe := finishEntry_spec hT (f + 1) (k + n) ⟨w.base + (d + 1), w.len - (d + 1)⟩ s' hI' (by omega)
                  (by rw [← hrest]; simp)
                have hl2 := congrArg List.length hrest
                simp [addrs_length] at hl2
                simp only
                cases hfr : finishEntry func (f + 1) ⟨w.base + (d + 1), w.len - (d + 1)⟩ s' with
                | ub => simp [hfr, ExactPost] at hfe
                | more => trivial
                | ret r s2 =>
                  rw [hfr] at hfe
                  cases r with
                  | some e => exact hfe
                  | none =>
                    simp only [ExactPost] at hfe
                    refine ih _ ws s2 hfe (by simp [total] at hl2 ⊢; omega) ?_
                    rw [← List.drop_drop, ← hrest]
                    simp [List.drop_append]

/-- If every call makes progress, the loop ends. -/
def Progresses {σ : Type} (func : List Iov → σ → Run Res σ) : Prop :=
  ∀ vs s, match func vs s with
    | .ub => True
    | .more => False
    | .ret (.ok n) _ => 0 < n
    | .ret (.err _) _ => True

theorem finishEntry_ends {σ : Type} {func : List Iov → σ → Run Res σ} (hP : Progresses func) :
    ∀ (f : Nat) (v : Iov) (s : σ), v.len < f → ∀ r, finishEntry func f v s = r → r ≠ .more := by
  intro f
  induction f with
  | zero => intro v s h; omega
  | succ f ih =>
    intro v s hv r hr
    have h := hP [v] s
    simp only [finishEntry] at hr
    cases hf : func [v] s with
    | ub => simp [hf] at hr; simp [← hr]
    | more => simp [hf] at h
    | ret x s' =>
      rw [hf] at h hr
      cases x with
      | err e => simp at hr; simp [← hr]
      | ok n =>
        simp only at h hr
        split at hr
        · simp [← hr]
        · split at hr
          · exact ih _ _ (by simp only; omega) r hr
          · simp [← hr]

theorem skipDone_total : ∀ (vs : List Iov) (d : Nat), d ≤ total vs → total (skipDone vs d).1 + d = total vs + (skipDone vs d).2 := by
  intro vs
  induction vs with
  | nil => intro d h; simp [skipDone]
  | cons v vs ih =>
    intro d h
    simp only [skipDone]
    split
    · have := ih (d - v.len) (by simp [total] at h ⊢; omega)
      simp [total] at this h ⊢; omega
    · simp

theorem skipDone_over : ∀ (vs : List Iov) (d : Nat), total vs < d → skipDone vs d = ([], d - total vs) := by
  intro vs
  induction vs with
  | nil => intro d h; simp [skipDone, total]
  | cons v vs ih =>
    intro d h
    simp only [skipDone]
    simp only [total, List.map_cons, List.sum_cons] at h ih ⊢
    rw [if_pos (by omega), ih _ (by omega)]
    congr 1; omega

theorem applyExactly_ends {σ : Type} {func : List Iov → σ → Run Res σ} (hP : Progresses func) :
    ∀ (f : Nat) (vs : List Iov) (s : σ), total vs < f → ∀ r, applyExactly func f vs s = r → r ≠ .more := by
  intro f
  induction f with
  | zero => intro v s h; omega
  | succ f ih =>
    intro vs s hv r hr
    cases vs with
    | nil => simp [applyExactly] at hr; simp [← hr]
    | cons v vs =>
      have h := hP (v :: vs) s
      simp only [applyExactly] at hr
      cases hf : func (v :: vs) s with
      | ub => simp [hf] at hr; simp [← hr]
      | more => simp [hf] at h
      | ret x s' =>
        rw [hf] at h hr
        cases x with
        | err e => simp at hr; simp [← hr]
        | ok n =>
          simp only at h hr
          cases hs : skipDone (v :: vs) n with
          | mk ws d =>
            rw [hs] at hr
            by_cases hle : n ≤ total (v :: vs)
            · have ht := skipDone_total _ _ hle
              rw [hs] at ht
              simp only at ht
              cases d with
              | zero => exact ih ws s' (by omega) r hr
              | succ d =>
                cases ws with
                | nil => simp at hr; simp [← hr]
                | cons w ws =>
                  have e : total (w :: ws) = w.len + total ws := by simp [total]
                  obtain ⟨_, _, _, h3, _⟩ := skipDone_spec _ _ hle
                  rw [hs] at h3
                  have := h3 w ws rfl
                  simp only at hr this
                  cases hfr : finishEntry func (f + 1) ⟨w.base + (d + 1), w.len - (d + 1)⟩ s' with
                  | ub => simp [hfr] at hr; simp [← hr]
                  | more => exact absurd rfl (finishEntry_ends hP _ _ _ (by simp only; omega) _ hfr)
                  | ret x s2 =>
                    rw [hfr] at hr
                    cases x with
                    | some e => simp at hr; simp [← hr]
                    | none => exact ih ws s2 (by omega) r hr
            · rw [skipDone_over _ _ (by omega)] at hs
              simp only [Prod.mk.injEq] at hs
              obtain ⟨rfl, hd⟩ := hs
              cases d with
              | zero => omega
              | succ d => simp at hr; simp [← hr]

end Verif.Io
