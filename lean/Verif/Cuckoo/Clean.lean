import Verif.Cuckoo.Explore
/-!
# Cleaning up after a successful search
-/
namespace Verif.Cuckoo

/-- Neither visited nor with children. -/
def Cleared (s : BState) : Prop := s.visited = false ∧ ∀ k, k < 4 → s.kids k = false

/-- The state of the buckets between two searches. -/
structure Clean (t : Table) (info : Info) : Prop where
  cleared : ∀ x, Cleared (info x)
  flag : ∀ x, ((info x).explored = true ∨ (info x).full = true) → Full t x

theorem resetState_cleared (s : BState) : Cleared (resetState s) := by
  unfold resetState
  split <;> exact ⟨rfl, fun _ _ => rfl⟩

theorem resetState_flag {s : BState} (h : (resetState s).explored = true ∨ (resetState s).full = true) :
    s.explored = true ∨ s.full = true := by
  unfold resetState at h
  split at h
  · rename_i hu
    exact Or.inl (unshiftable_iff.1 hu).1
  · rcases h with e | e
    · cases e
    · exact Or.inr e

def Flags (t : Table) (info : Info) : Prop :=
  ∀ x, ((info x).explored = true ∨ (info x).full = true) → Full t x

theorem Flags.set {t : Table} {info : Info} {b : Nat} {s : BState} (h : Flags t info)
    (hs : (s.explored = true ∨ s.full = true) → ((info b).explored = true ∨ (info b).full = true)) :
    Flags t (setInfo info b s) := by
  intro x hx
  rw [setInfo_apply] at hx
  split at hx
  · rename_i e
    rw [e]
    exact h b (hs hx)
  · exact h x hx

theorem cleanKids_ok {t : Table} (h2 : 2 ≤ t.cnt) (id : Nat) (below : Option Nat) :
    ∀ (ks : List Nat) (info : Info), ks.Nodup →
      (∀ x, x ≠ id → cleanKids t id below ks info x = info x ∨ Cleared (cleanKids t id below ks info x)) ∧
      (∀ x, x ≠ id → (∀ k ∈ ks, (info id).kids k = true → tgt t id k = x → below = some x) →
        cleanKids t id below ks info x = info x) ∧
      (∀ k ∈ ks, (info id).kids k = true → below ≠ some (tgt t id k) →
        Cleared (cleanKids t id below ks info (tgt t id k))) ∧
      (Flags t info → Flags t (cleanKids t id below ks info)) := by
  intro ks
  induction ks with
  | nil =>
    intro info _
    refine ⟨fun x _ => Or.inl rfl, fun x _ _ => rfl, ?_, fun h => h⟩
    intro k hk
    cases hk
  | cons c cs ih =>
    intro info hn
    rw [List.nodup_cons] at hn
    have hne : tgt t id c ≠ id := nextBucket_ne h2
    unfold cleanKids
    by_cases hc : (info id).kids c = true
    · rw [if_pos hc]
      have hk1 : ∀ k ∈ cs, (setInfo info id (removeKid (info id) c) id).kids k = (info id).kids k := by
        intro k hk
        rw [setInfo_same]
        unfold removeKid
        simp only
        have hkc : k ≠ c := by
          rintro rfl
          exact hn.1 hk
        rw [if_neg hkc]
      by_cases hb : below = some (tgt t id c)
      · have e : ∀ info1, (if below = some (nextBucket t.cnt id (t.buf id c).key) then
          cleanKids t id below cs info1 else
          cleanKids t id below cs (setInfo info1 (nextBucket t.cnt id (t.buf id c).key)
            (resetState (info1 (nextBucket t.cnt id (t.buf id c).key))))) = cleanKids t id below cs info1 := by
          intro info1
          exact if_pos hb
        simp only [e]
        obtain ⟨i1, i2, i3, i4⟩ := ih (setInfo info id (removeKid (info id) c)) hn.2
        refine ⟨?_, ?_, ?_, ?_⟩
        · intro x hx
          have := i1 x hx
          rw [setInfo_ne _ _ hx] at this
          exact this
        · intro x hx hk
          rw [i2 x hx, setInfo_ne _ _ hx]
          intro k hkm hkk
          rw [hk1 k hkm] at hkk
          exact hk k (List.mem_cons_of_mem _ hkm) hkk
        · intro k hk hkk hbk
          rcases List.mem_cons.1 hk with e2 | e2
          · rw [e2] at hbk
            exact absurd hb hbk
          · exact i3 k e2 (by rw [hk1 k e2]; exact hkk) hbk
        · intro hf
          exact i4 (hf.set (fun h => h))
      · have e : ∀ info1, (if below = some (nextBucket t.cnt id (t.buf id c).key) then
          cleanKids t id below cs info1 else
          cleanKids t id below cs (setInfo info1 (nextBucket t.cnt id (t.buf id c).key)
            (resetState (info1 (nextBucket t.cnt id (t.buf id c).key))))) =
              cleanKids t id below cs (setInfo info1 (tgt t id c) (resetState (info1 (tgt t id c)))) := by
          intro info1
          exact if_neg hb
        simp only [e]
        obtain ⟨i1, i2, i3, i4⟩ := ih (setInfo (setInfo info id (removeKid (info id) c)) (tgt t id c)
          (resetState (setInfo info id (removeKid (info id) c) (tgt t id c)))) hn.2
        have hk2 : ∀ k ∈ cs, (setInfo (setInfo info id (removeKid (info id) c)) (tgt t id c)
          (resetState (setInfo info id (removeKid (info id) c) (tgt t id c))) id).kids k = (info id).kids k := by
          intro k hk
          rw [setInfo_ne _ _ (Ne.symm hne)]
          exact hk1 k hk
        refine ⟨?_, ?_, ?_, ?_⟩
        · intro x hx
          rcases i1 x hx with h | h
          · rw [h]
            by_cases hxt : x = tgt t id c
            · right
              rw [hxt, setInfo_same]
              exact resetState_cleared _
            · left
              rw [setInfo_ne _ _ hxt, setInfo_ne _ _ hx]
          · exact Or.inr h
        · intro x hx hk
          have hxt : x ≠ tgt t id c := by
            intro e2
            exact hb (e2 ▸ hk c List.mem_cons_self hc e2.symm)
          rw [i2 x hx, setInfo_ne _ _ hxt, setInfo_ne _ _ hx]
          intro k hkm hkk
          rw [hk2 k hkm] at hkk
          exact hk k (List.mem_cons_of_mem _ hkm) hkk
        · intro k hk hkk hbk
          rcases List.mem_cons.1 hk with e2 | e2
          · rw [e2]
            rcases i1 (tgt t id c) hne with h | h
            · rw [h, setInfo_same]
              exact resetState_cleared _
            · exact h
          · exact i3 k e2 (by rw [hk2 k e2]; exact hkk) hbk
        · intro hf
          have h1 : Flags t (setInfo info id (removeKid (info id) c)) := hf.set (fun h => h)
          exact i4 (h1.set resetState_flag)
    · rw [if_neg hc]
      obtain ⟨i1, i2, i3, i4⟩ := ih info hn.2
      refine ⟨i1, ?_, ?_, i4⟩
      · intro x hx hk
        exact i2 x hx (fun k hkm => hk k (List.mem_cons_of_mem _ hkm))
      · intro k hk hkk hbk
        rcases List.mem_cons.1 hk with e | e
        · rw [e] at hkk
          exact absurd hkk hc
        · exact i3 k e hkk hbk

/-- The children of a bucket of the stack are not further down the stack, unless right below it. -/
def Tidy (t : Table) (info : Info) : List Nat → Prop
  | [] => True
  | w :: below => (∀ k, k < 4 → (info w).kids k = true → tgt t w k ∉ below ∨ below.head? = some (tgt t w k)) ∧
      Tidy t info below

theorem Tidy.congr {t : Table} {info info' : Info} : ∀ (st : List Nat), Tidy t info st →
    (∀ w ∈ st, info' w = info w) → Tidy t info' st := by
  intro st
  induction st with
  | nil =>
    intro _ _
    trivial
  | cons w below ih =>
    intro h hs
    obtain ⟨h1, h2⟩ := h
    refine ⟨?_, ih h2 (fun x hx => hs x (List.mem_cons_of_mem _ hx))⟩
    rw [hs w List.mem_cons_self]
    exact h1

theorem cleanStack_ok {t : Table} (h2 : 2 ≤ t.cnt) : ∀ (stack : List Nat) (info : Info), stack.Nodup →
    Tidy t info stack →
    (∀ x, (info x).visited = true → x ∈ stack ∨ ∃ w k, w ∈ stack ∧ k < 4 ∧ (info w).kids k = true ∧
      x = tgt t w k) →
    (∀ x k, k < 4 → (info x).kids k = true → x ∈ stack) → Flags t info →
    Clean t (cleanStack t stack info) := by
  intro stack
  induction stack with
  | nil =>
    intro info _ _ hv hk hf
    refine ⟨?_, hf⟩
    intro x
    refine ⟨?_, ?_⟩
    · cases hc : (info x).visited with
      | false => exact hc
      | true =>
        rcases hv x hc with e | ⟨w, k, e, _⟩
        · cases e
        · cases e
    · intro k hk4
      cases hc : (info x).kids k with
      | false => exact hc
      | true => cases hk x k hk4 hc
  | cons id rest ih =>
    intro info hn ht hv hk hf
    rw [List.nodup_cons] at hn
    obtain ⟨ht1, ht2⟩ := ht
    unfold cleanStack
    obtain ⟨i1, i2, i3, i4⟩ := cleanKids_ok h2 id rest.head? (List.range bucketLen) info List.nodup_range
    simp only
    generalize hi : cleanKids t id rest.head? (List.range bucketLen) info = info1 at *
    have hsame : ∀ w ∈ rest, setInfo info1 id (resetState (info1 id)) w = info w := by
      intro w hw
      have hwid : w ≠ id := fun e => hn.1 (e ▸ hw)
      rw [setInfo_ne _ _ hwid]
      refine i2 w hwid ?_
      intro k hk4 hkk e
      rcases ht1 k (List.mem_range.1 hk4) hkk with a | a
      · rw [e] at a
        exact absurd hw a
      · rw [e] at a
        exact a
    have hor : ∀ x, setInfo info1 id (resetState (info1 id)) x = info x ∨
        Cleared (setInfo info1 id (resetState (info1 id)) x) := by
      intro x
      by_cases hx : x = id
      · right
        rw [hx, setInfo_same]
        exact resetState_cleared _
      · rw [setInfo_ne _ _ hx]
        exact i1 x hx
    refine ih _ hn.2 (Tidy.congr rest ht2 hsame) ?_ ?_ ((i4 hf).set resetState_flag)
    · intro x hx
      have hxid : x ≠ id := by
        intro e
        rw [e, setInfo_same, (resetState_cleared _).1] at hx
        cases hx
      have hxv : (info x).visited = true := by
        rcases hor x with e | e
        · rw [e] at hx
          exact hx
        · rw [e.1] at hx
          cases hx
      rcases hv x hxv with e | ⟨w, k, e1, e2, e3, e4⟩
      · rcases List.mem_cons.1 e with e | e
        · exact absurd e hxid
        · exact Or.inl e
      · rcases List.mem_cons.1 e1 with e | e
        · subst e
          by_cases hb : rest.head? = some (tgt t w k)
          · left
            rw [e4]
            exact List.mem_of_mem_head? hb
          · have := i3 k (List.mem_range.2 e2) e3 hb
            rw [setInfo_ne _ _ hxid, e4, this.1] at hx
            cases hx
        · right
          exact ⟨w, k, e, e2, by rw [hsame w e]; exact e3, e4⟩
    · intro x k hk4 hkk
      have hxid : x ≠ id := by
        intro e
        rw [e, setInfo_same, (resetState_cleared _).2 k hk4] at hkk
        cases hkk
      have hkx : (info x).kids k = true := by
        rcases hor x with e | e
        · rw [e] at hkk
          exact hkk
        · rw [e.2 k hk4] at hkk
          cases hkk
      rcases List.mem_cons.1 (hk x k hk4 hkx) with e | e
      · exact absurd e hxid
      · exact e

theorem sweep_ok {t : Table} {info : Info} (hf : Flags t info) :
    Clean t (fun b => resetState (info b)) :=
  ⟨fun _ => resetState_cleared _, fun x hx => hf x (resetState_flag hx)⟩

/-- The path below the top of the stack is tidy. -/
theorem Arr.tidy {t : Table} {info : Info} {bid p0 : Nat} (h2 : 2 ≤ t.cnt) :
    ∀ (below : List Nat) (w c : Nat), firstKid (info w) = some c →
      Arr t info bid p0 (w :: below) (t.buf w c).key →
      (∀ x ∈ w :: below, ∀ k, k < 4 → (info x).kids k = true → firstKid (info x) ≠ some k →
        tgt t x k ∉ w :: below) → Tidy t info (w :: below) := by
  intro below
  induction below with
  | nil =>
    intro w c _ _ _
    exact ⟨fun k _ _ => Or.inl (by simp), trivial⟩
  | cons x r ih =>
    intro w c hc harr hlive
    obtain ⟨c2, a1, a2, a3, a4⟩ := harr
    refine ⟨?_, ih x c2 a1 a4 ?_⟩
    · intro k hk hkk
      by_cases hkc : firstKid (info w) = some k
      · right
        rw [hc] at hkc
        cases hkc
        have := nextBucket_next h2 a2
        rw [a3] at this
        exact congrArg some this.symm
      · left
        have := hlive w List.mem_cons_self k hk hkk hkc
        exact fun e => this (List.mem_cons_of_mem _ e)
    · intro y hy k hk hkk hne
      have := hlive y (List.mem_cons_of_mem _ hy) k hk hkk hne
      exact fun e => this (List.mem_cons_of_mem _ e)

end Verif.Cuckoo
