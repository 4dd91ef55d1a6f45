import Verif.Io.Exact
/-!
`AsyncSink::AsyncWrite` and `AsyncSource::AsyncRead` (io.cc 35-122, 218-228). The two are the same program; only the operation
issued differs. `util/tls/iovec_utils.cc`: `AdvanceIovec`, `IsEmptyIovec`, `GetIovecTotalBytes`.
-/
namespace Verif.Io

/-- What `OnCb` does on a successful completion of `sz` bytes: `cur` and what follows in `arr`. `none` is the dereference of
`arr.end()`. -/
inductive Next
  | ub
  /-- io.cc 75-82: all entries done (`left` bytes unaccounted for, the DCHECK). -/
  | finished (left : Nat)
  /-- io.cc 85-90: issue the rest. -/
  | again (cur : List Iov)

/-- io.cc 70-87 (and 101-118): the loop `while (cur->iov_len <= sz)`. -/
def onOk : List Iov → Nat → Next
  | [], _ => .ub
  | v :: vs, sz =>
    if v.len ≤ sz then
      match vs with
      | [] => .finished (sz - v.len)
      | w :: ws => onOk (w :: ws) (sz - v.len)
    else .again (⟨v.base + sz, v.len - sz⟩ :: vs)

/-- State of one `AsyncWrite`/`AsyncRead`: the outstanding request, if any, and the calls of the user's callback so far. -/
structure ASt where
  req : Option (List Iov)
  calls : List (Option Err)

/-- io.cc 218-222: the state object is created and the whole vector is requested. -/
def aStart (vs : List Iov) : ASt := ⟨some vs, []⟩

/-- A completion arrives: `OnCb` (io.cc 63-91, 93-121). A completion when none is outstanding reaches a deleted object. -/
def aStep (s : ASt) (r : Res) : Option ASt :=
  match s.req with
  | none => none
  | some cur =>
    match r with
    | .err e => some ⟨none, s.calls ++ [some e]⟩
    | .ok n =>
      match onOk cur n with
      | .ub => none
      | .finished _ => some ⟨none, s.calls ++ [none]⟩
      | .again cur => some ⟨some cur, s.calls⟩

/-- A sequence of completions. -/
def aRun (s : ASt) : List Res → Option ASt
  | [] => some s
  | r :: rs => match aStep s r with
    | none => none
    | some s => aRun s rs

/-- The other side's contract: a completion answers an outstanding request and reports no more than was requested. -/
def Answers (s : ASt) : List Res → Prop
  | [] => True
  | r :: rs => (∃ cur, s.req = some cur ∧ ∀ n, r = .ok n → n ≤ total cur) ∧ ∀ s', aStep s r = some s' → Answers s' rs

/-- Bytes moved by a sequence of completions. -/
def moved : List Res → Nat
  | [] => 0
  | .ok n :: rs => n + moved rs
  | .err _ :: rs => moved rs

theorem onOk_spec : ∀ (cur : List Iov) (n : Nat), cur ≠ [] → n ≤ total cur →
    match onOk cur n with
    | .ub => False
    | .finished left => left = 0 ∧ n = total cur
    | .again c => c ≠ [] ∧ addrs c = (addrs cur).drop n ∧ n < total cur := by
  intro cur
  induction cur with
  | nil => intro n h; exact absurd rfl h
  | cons v vs ih =>
    intro n _ hn
    have e : total (v :: vs) = v.len + total vs := by simp [total]
    unfold onOk
    by_cases h : v.len ≤ n
    · simp only [if_pos h]
      cases vs with
      | nil => simp [total] at hn ⊢; omega
      | cons w ws =>
        have := ih (n - v.len) (by simp) (by omega)
        simp only
        cases ho : onOk (w :: ws) (n - v.len) with
        | ub => simp [ho] at this
        | finished left => rw [ho] at this; simp only at this ⊢; omega
        | again c =>
          rw [ho] at this
          simp only at this ⊢
          refine ⟨this.1, ?_, by omega⟩
          rw [this.2.1]
          conv => rhs; rw [addrs_cons, List.drop_append, List.drop_eq_nil_of_le (by simpa using h)]
          simp
    · simp only [if_neg h]
      exact ⟨by simp, addrs_skip (by omega), by omega⟩

theorem aRun_spec : ∀ (rs : List Res) (cur : List Iov), cur ≠ [] → Answers ⟨some cur, []⟩ rs → ∃ s', aRun ⟨some cur, []⟩ rs = some s' ∧
    ((∃ req, s' = ⟨some req, []⟩ ∧ req ≠ [] ∧ (∀ r ∈ rs, ∃ n, r = .ok n) ∧ addrs req = (addrs cur).drop (moved rs) ∧
        (rs = [] ∨ moved rs < total cur)) ∨
     (s' = ⟨none, [none]⟩ ∧ (∀ r ∈ rs, ∃ n, r = .ok n) ∧ moved rs = total cur) ∨
     (∃ e, s' = ⟨none, [some e]⟩ ∧ (∃ pre, rs = pre ++ [.err e] ∧ ∀ r ∈ pre, ∃ n, r = .ok n) ∧ moved rs ≤ total cur)) := by
  intro rs
  induction rs with
  | nil => intro cur hne _; exact ⟨_, rfl, .inl ⟨cur, rfl, hne, by simp, by simp [moved], .inl rfl⟩⟩
  | cons r rs ih =>
    intro cur hne hA
    obtain ⟨⟨c, hc, hle⟩, hA2⟩ := hA
    simp only [Option.some.injEq] at hc
    subst hc
    have hnil : ∀ c, Answers ⟨none, c⟩ rs → rs = [] := by
      intro c h
      cases rs with
      | nil => rfl
      | cons => obtain ⟨⟨_, h, _⟩, _⟩ := h; simp at h
    cases r with
    | err e =>
      have hr := hnil _ (hA2 ⟨none, [] ++ [some e]⟩ rfl)
      subst hr
      exact ⟨⟨none, [some e]⟩, rfl, .inr (.inr ⟨e, rfl, ⟨[], rfl, by simp⟩, by simp [moved]⟩)⟩
    | ok n =>
      have h := onOk_spec cur n hne (hle n rfl)
      cases ho : onOk cur n with
      | ub => simp [ho] at h
      | finished left =>
        rw [ho] at h
        have hst : aStep ⟨some cur, []⟩ (.ok n) = some ⟨none, [none]⟩ := by simp [aStep, ho]
        have hr := hnil _ (hA2 _ hst)
        subst hr
        refine ⟨⟨none, [none]⟩, by simp only [aRun, hst], .inr (.inl ⟨rfl, ?_, ?_⟩)⟩
        · intro r hr
          simp at hr
          exact ⟨n, hr⟩
        · simp only at h; simp [moved, h.2]
      | again c =>
        rw [ho] at h
        obtain ⟨h1, h2, h3⟩ := h
        have hst : aStep ⟨some cur, []⟩ (.ok n) = some ⟨some c, []⟩ := by simp [aStep, ho]
        obtain ⟨s', hs', h4⟩ := ih c h1 (hA2 _ hst)
        have ht : total c = total cur - n := by rw [← addrs_length, h2, List.length_drop, addrs_length]
        refine ⟨s', by simp only [aRun, hst]; exact hs', ?_⟩
        have hall : ∀ {l : List Res}, (∀ r ∈ l, ∃ n, r = Res.ok n) → ∀ r ∈ Res.ok n :: l, ∃ n, r = Res.ok n := by
          intro l hl r hr
          rcases List.mem_cons.1 hr with rfl | hr
          · exact ⟨n, rfl⟩
          · exact hl r hr
        rcases h4 with ⟨req, rfl, hq1, hq2, hq3, hq4⟩ | ⟨rfl, hq1, hq2⟩ | ⟨e, rfl, ⟨pre, rfl, hp⟩, hq⟩
        · refine .inl ⟨req, rfl, hq1, hall hq2, ?_, .inr ?_⟩
          · rw [hq3, h2, List.drop_drop]; simp [moved]
          · rcases hq4 with rfl | hq4
            · simp [moved]; exact h3
            · simp [moved]; omega
        · exact .inr (.inl ⟨rfl, hall hq1, by simp [moved]; omega⟩)
        · exact .inr (.inr ⟨e, rfl, ⟨.ok n :: pre, rfl, hall hp⟩, by simp [moved] at hq ⊢; omega⟩)

/-! ### util/tls/iovec_utils.cc -/

/-- `AdvanceIovec` (iovec_utils.cc 11-29): the remaining array; `none` is the failed CHECK. -/
def advanceIovec : List Iov → Nat → Option (List Iov)
  | vs, 0 => some vs
  | [], _ + 1 => none
  | v :: vs, n + 1 =>
    if v.len ≤ n + 1 then advanceIovec vs (n + 1 - v.len)
    else some (⟨v.base + (n + 1), v.len - (n + 1)⟩ :: vs)

/-- `IsEmptyIovec` (iovec_utils.cc 31-39). -/
def isEmptyIovec : List Iov → Bool
  | [] => true
  | v :: vs => if v.len ≠ 0 then false else isEmptyIovec vs

/-- The loop of `GetIovecTotalBytes` (iovec_utils.cc 41-50); sums wrap at 2^64 and the CHECK fails then. -/
def totalLoop : List Iov → Nat → Option Nat
  | [], acc => some acc
  | v :: vs, acc =>
    let t := (acc + v.len) % 2 ^ 64
    if acc ≤ t then totalLoop vs t else none

/-- `GetIovecTotalBytes` (iovec_utils.cc 41-50). -/
def getIovecTotalBytes (vs : List Iov) : Option Nat := totalLoop vs 0

theorem advance_spec : ∀ (vs : List Iov) (n : Nat), n ≤ total vs → ∃ ws, advanceIovec vs n = some ws ∧ addrs ws = (addrs vs).drop n := by
  intro vs
  induction vs with
  | nil => intro n hn; simp [total] at hn; subst hn; exact ⟨[], rfl, by simp⟩
  | cons v vs ih =>
    intro n hn
    cases n with
    | zero => exact ⟨v :: vs, rfl, by simp⟩
    | succ n =>
      have e : total (v :: vs) = v.len + total vs := by simp [total]
      simp only [advanceIovec]
      by_cases h : v.len ≤ n + 1
      · rw [if_pos h]
        obtain ⟨ws, h1, h2⟩ := ih (n + 1 - v.len) (by omega)
        refine ⟨ws, h1, ?_⟩
        rw [h2, addrs_cons, List.drop_append, List.drop_eq_nil_of_le (as := List.range' v.base v.len) (by simpa using h)]
        simp
      · rw [if_neg h]
        exact ⟨_, rfl, addrs_skip (by omega)⟩

theorem advance_over : ∀ (vs : List Iov) (n : Nat), total vs < n → advanceIovec vs n = none := by
  intro vs
  induction vs with
  | nil => intro n hn; cases n with
    | zero => simp [total] at hn
    | succ n => rfl
  | cons v vs ih =>
    intro n hn
    have e : total (v :: vs) = v.len + total vs := by simp [total]
    cases n with
    | zero => omega
    | succ n =>
      simp only [advanceIovec]
      rw [if_pos (by omega)]
      exact ih _ (by omega)

theorem totalLoop_spec : ∀ (vs : List Iov) (acc : Nat), acc < 2 ^ 64 → (∀ v ∈ vs, v.len < 2 ^ 64) →
    totalLoop vs acc = if acc + total vs < 2 ^ 64 then some (acc + total vs) else none := by
  intro vs
  induction vs with
  | nil => intro acc h _; simp [totalLoop, total, h]
  | cons v vs ih =>
    intro acc h hv
    have hl := hv v (by simp)
    have e : total (v :: vs) = v.len + total vs := by simp [total]
    simp only [totalLoop]
    by_cases hlt : acc + v.len < 2 ^ 64
    · rw [Nat.mod_eq_of_lt hlt, if_pos (by omega), ih _ hlt (fun w hw => hv w (List.mem_cons_of_mem _ hw)), e, Nat.add_assoc]
    · rw [if_neg (by omega), if_neg (by omega)]

end Verif.Io
