import Verif.Varz.Spec
/-! C104: the registry of status variables and the status page. -/
namespace Verif.Varz
open Verif.Text Verif.Common Spec

/-! ### The registry -/

/-- The heap holds the list `L` of addresses, linked in this order. Nothing is known of `prev` of the first: it may point to a node that has been destroyed. -/
structure Linked (h : Heap) (L : List Nat) : Prop where
  head : h.head = L[0]?
  nodup : L.Nodup
  next : ∀ (i : Nat) a, L[i]? = some a → ∃ n, h.mem a = some n ∧ n.next = L[i + 1]?
  prev : ∀ (i : Nat) b n, L[i + 1]? = some b → h.mem b = some n → n.prev = L[i]?
  live : ∀ a n, h.mem a = some n → a ∈ L

theorem idx_inj {L : List Nat} (hn : L.Nodup) {i j a : Nat} (hi : L[i]? = some a) (hj : L[j]? = some a) : i = j := by
  obtain ⟨h1, e1⟩ := List.getElem?_eq_some_iff.mp hi
  exact (List.getElem?_inj h1 hn).mp (hi.trans hj.symm)

theorem create_linked {h : Heap} {L : List Nat} (hL : Linked h L) {a : Nat} (ha : h.mem a = none) (name : Option Str) :
    ∃ h', create h a name = some h' ∧ Linked h' (a :: L) ∧ ∀ b, (h'.mem b).map Node.name = if b = a then some name else (h.mem b).map Node.name := by
  have hnot : a ∉ L := by
    intro hm
    obtain ⟨i, hi⟩ := List.mem_iff_getElem?.mp hm
    obtain ⟨n, hn, -⟩ := hL.next i a hi
    rw [ha] at hn; cases hn
  unfold create
  cases L with
  | nil =>
    rw [hL.head]
    refine ⟨_, rfl, ⟨rfl, by simp, ?_, ?_, ?_⟩, ?_⟩
    · intro i b hb
      cases i with
      | zero => simp at hb; subst hb; exact ⟨_, if_pos rfl, by simp⟩
      | succ i => simp at hb
    · intro i b n hb; simp at hb
    · intro b n hb
      simp only [upd] at hb
      split at hb
      · rename_i e; simp [e]
      · exact absurd (hL.live b n hb) (by simp)
    · intro b; simp only [upd]; split <;> simp
  | cons b L =>
    rw [hL.head]
    obtain ⟨n, hn, hnn⟩ := hL.next 0 b rfl
    simp only [List.getElem?_cons_zero, hn]
    have hab : a ≠ b := fun e => hnot (by simp [e])
    refine ⟨_, rfl, ⟨rfl, List.nodup_cons.mpr ⟨hnot, hL.nodup⟩, ?_, ?_, ?_⟩, ?_⟩
    · intro i c hc
      cases i with
      | zero => simp at hc; subst hc; exact ⟨_, if_pos rfl, by simp⟩
      | succ i =>
        have hc : (b :: L)[i]? = some c := by simpa using hc
        have hca : c ≠ a := fun e => hnot (by rw [← e]; exact List.mem_of_getElem? hc)
        obtain ⟨m, hm, hmn⟩ := hL.next i c hc
        simp only [upd, if_neg hca]
        by_cases hcb : c = b
        · subst hcb
          rw [hn] at hm
          injection hm with hm
          refine ⟨_, if_pos rfl, ?_⟩
          simpa [hm] using hmn
        · exact ⟨m, by rw [if_neg hcb]; exact hm, by simpa using hmn⟩
    · intro i c m hc hm
      have hc : (b :: L)[i]? = some c := by simpa using hc
      have hca : c ≠ a := fun e => hnot (by rw [← e]; exact List.mem_of_getElem? hc)
      simp only [upd, if_neg hca] at hm
      cases i with
      | zero =>
        simp at hc
        rw [if_pos hc.symm] at hm
        injection hm with hm
        rw [← hm]; rfl
      | succ i =>
        have hcb : c ≠ b := by
          intro e
          subst e
          have := idx_inj hL.nodup hc (show (c :: L)[0]? = some c from rfl)
          omega
        rw [if_neg hcb] at hm
        have := hL.prev i c m hc hm
        simpa using this
    · intro c m hm
      simp only [upd] at hm
      split at hm
      · rename_i e; simp [e]
      · split at hm
        · rename_i e; simp [e]
        · exact List.mem_cons_of_mem _ (hL.live c m hm)
    · intro c
      simp only [upd]
      split
      · simp
      · split
        · rename_i e; rw [e, hn]; rfl
        · rfl

theorem erase_get {L : List Nat} {k : Nat} (i : Nat) : (L.eraseIdx k)[i]? = if i < k then L[i]? else L[i + 1]? := List.getElem?_eraseIdx

theorem destroy_linked {h : Heap} {L : List Nat} (hL : Linked h L) {a k : Nat} (ha : L[k]? = some a) :
    ∃ h', destroy h a = some h' ∧ Linked h' (L.eraseIdx k) ∧ ∀ b, (h'.mem b).map Node.name = if b = a then none else (h.mem b).map Node.name := by
  obtain ⟨n, hn, hnn⟩ := hL.next k a ha
  have hnd : (L.eraseIdx k).Nodup := hL.nodup.sublist (List.eraseIdx_sublist L k)
  have hnot : a ∉ L.eraseIdx k := by
    intro hm
    obtain ⟨i, hi⟩ := List.mem_iff_getElem?.mp hm
    rw [erase_get] at hi
    split at hi
    · have := idx_inj hL.nodup hi ha; omega
    · have := idx_inj hL.nodup hi ha; omega
  have hmem : ∀ c, c ∈ L → c ≠ a → c ∈ L.eraseIdx k := by
    intro c hc hca
    obtain ⟨i, hi⟩ := List.mem_iff_getElem?.mp hc
    rcases Nat.lt_trichotomy i k with h1 | h1 | h1
    · exact List.mem_of_getElem? (i := i) (by rw [erase_get, if_pos h1]; exact hi)
    · rw [h1, ha] at hi; injection hi with hi; exact absurd hi.symm hca
    · exact List.mem_of_getElem? (i := i - 1) (by rw [erase_get, if_neg (by omega)]; rw [show i - 1 + 1 = i by omega]; exact hi)
  unfold destroy
  rw [hn]
  simp only
  cases k with
  | zero =>
    rw [if_pos (hL.head.trans ha)]
    refine ⟨_, rfl, ⟨?_, hnd, ?_, ?_, ?_⟩, ?_⟩
    · rw [erase_get]; simpa using hnn
    · intro i c hc
      have hca : c ≠ a := fun e => hnot (by rw [← e]; exact List.mem_of_getElem? hc)
      rw [erase_get, if_neg (by omega)] at hc ⊢
      obtain ⟨m, h1, h2⟩ := hL.next (i + 1) c hc
      exact ⟨m, by simpa [upd, hca] using h1, h2⟩
    · intro i c m hc hm
      have hca : c ≠ a := fun e => hnot (by rw [← e]; exact List.mem_of_getElem? hc)
      simp only [upd, if_neg hca] at hm
      rw [erase_get, if_neg (by omega)] at hc ⊢
      exact hL.prev (i + 1) c m hc hm
    · intro c m hm
      simp only [upd] at hm
      split at hm
      · cases hm
      · rename_i hca; exact hmem c (hL.live c m hm) hca
    · intro c; simp only [upd]; split <;> simp
  | succ k =>
    have hhead : ¬ h.head = some a := by
      intro e
      rw [hL.head] at e
      have := idx_inj hL.nodup e ha; omega
    rw [if_neg hhead]
    have hprev := hL.prev k a n ha hn
    -- the node before
    obtain ⟨p, hp⟩ : ∃ p, L[k]? = some p := by
      obtain ⟨hlt, _⟩ := List.getElem?_eq_some_iff.mp ha
      exact ⟨L[k], List.getElem?_eq_getElem (by omega)⟩
    obtain ⟨np, hnp, hnpn⟩ := hL.next k p hp
    have hpa : p ≠ a := by intro e; subst e; have := idx_inj hL.nodup hp ha; omega
    rw [hprev, hp, hnn]
    -- the memory after both assignments
    obtain ⟨m1, e1, h1⟩ : ∃ m1, setPrev h.mem L[k + 1 + 1]? (some p) = some m1 ∧ ∀ c, m1 c = if L[k + 1 + 1]? = some c then (h.mem c).map (fun n => { n with prev := some p }) else h.mem c := by
      cases hq : L[k + 1 + 1]? with
      | none => exact ⟨h.mem, rfl, fun c => by simp⟩
      | some q =>
        obtain ⟨nq, hnq, -⟩ := hL.next (k + 1 + 1) q hq
        refine ⟨upd h.mem q (some { nq with prev := some p }), by simp [setPrev, hnq], fun c => ?_⟩
        simp only [upd]
        by_cases e : c = q
        · rw [if_pos e, if_pos (by rw [e]), e, hnq]; rfl
        · rw [if_neg e, if_neg (by intro h; injection h with h; exact e h.symm)]
    have hqp : ¬ L[k + 1 + 1]? = some p := fun e => by have := idx_inj hL.nodup e hp; omega
    have hm1p : m1 p = some np := by rw [h1, if_neg hqp, hnp]
    rw [e1]
    simp only [Option.bind_some, setNext, hm1p, Option.map_some]
    refine ⟨_, rfl, ⟨?_, hnd, ?_, ?_, ?_⟩, ?_⟩
    · rw [erase_get, if_pos (by omega)]; exact hL.head
    · intro i c hc
      have hca : c ≠ a := fun e => hnot (by rw [← e]; exact List.mem_of_getElem? hc)
      simp only [upd, if_neg hca]
      rw [erase_get] at hc ⊢
      by_cases hcp : c = p
      · subst hcp
        have hik : i = k := by
          split at hc
          · exact idx_inj hL.nodup hc hp
          · have := idx_inj hL.nodup hc hp; omega
        rw [if_pos rfl]
        refine ⟨_, rfl, ?_⟩
        rw [hik, if_neg (by omega)]
      · rw [if_neg hcp, h1]
        have key : ∃ m, h.mem c = some m ∧ m.next = if i + 1 < k + 1 then L[i + 1]? else L[i + 1 + 1]? := by
          split at hc
          · rename_i hlt
            obtain ⟨m, g1, g2⟩ := hL.next i c hc
            refine ⟨m, g1, ?_⟩
            have hik : i ≠ k := fun e => by rw [e, hp] at hc; injection hc with hc; exact hcp hc.symm
            rw [if_pos (by omega)]; exact g2
          · rename_i hlt
            obtain ⟨m, g1, g2⟩ := hL.next (i + 1) c hc
            exact ⟨m, g1, by rw [if_neg (by omega)]; exact g2⟩
        obtain ⟨m, g1, g2⟩ := key
        split
        · exact ⟨{ m with prev := some p }, by rw [g1]; rfl, g2⟩
        · exact ⟨m, g1, g2⟩
    · intro i c m hc hm
      have hca : c ≠ a := fun e => hnot (by rw [← e]; exact List.mem_of_getElem? hc)
      simp only [upd, if_neg hca] at hm
      rw [erase_get] at hc ⊢
      by_cases hcp : c = p
      · subst hcp
        rw [if_pos rfl] at hm
        injection hm with hm
        have hik : i + 1 = k := by
          split at hc
          · exact idx_inj hL.nodup hc hp
          · have := idx_inj hL.nodup hc hp; omega
        rw [← hm, if_pos (by omega)]
        rw [← hik] at hp
        exact hL.prev i c np hp hnp
      · rw [if_neg hcp, h1] at hm
        split at hc
        · rename_i hlt
          have hq : ¬ L[k + 1 + 1]? = some c := fun e => by have := idx_inj hL.nodup e hc; omega
          rw [if_neg hq] at hm
          rw [if_pos (by omega)]
          exact hL.prev i c m hc hm
        · rename_i hlt
          by_cases hik : i = k
          · subst hik
            rw [if_pos hc] at hm
            rw [if_pos (by omega), hp]
            obtain ⟨nc, hnc, -⟩ := hL.next (i + 1 + 1) c hc
            rw [hnc] at hm
            injection hm with hm
            rw [← hm]
          · have hq : ¬ L[k + 1 + 1]? = some c := fun e => by have := idx_inj hL.nodup e hc; omega
            rw [if_neg hq] at hm
            rw [if_neg (by omega)]
            exact hL.prev (i + 1) c m hc hm
    · intro c m hm
      simp only [upd] at hm
      split at hm
      · cases hm
      · rename_i hca
        refine hmem c ?_ hca
        split at hm
        · rename_i e; rw [e]; exact List.mem_of_getElem? hp
        · rw [h1] at hm
          split at hm
          · rename_i e; exact List.mem_of_getElem? e
          · exact hL.live c m hm
    · intro c
      simp only [upd]
      split
      · simp
      · split
        · rename_i e; rw [e, hnp]; rfl
        · rw [h1]
          split
          · cases h.mem c <;> rfl
          · rfl

/-- What the program does to the registry. -/
inductive Op where
  | create (a : Nat) (name : Option Str)
  | destroy (a : Nat)

/-- Performs operations; `none` if one of them is undefined behaviour. -/
def run (h : Heap) : List Op → Option Heap
  | [] => some h
  | .create a name :: ops => (create h a name).bind fun h => run h ops
  | .destroy a :: ops => (destroy h a).bind fun h => run h ops

/-- The variables that exist, the latest first: what the registry should hold. -/
def lives (l : List (Nat × Option Str)) : List Op → List (Nat × Option Str)
  | [] => l
  | .create a name :: ops => lives ((a, name) :: l) ops
  | .destroy a :: ops => lives (l.filter (·.1 ≠ a)) ops

/-- The program uses the language properly: objects are created where there are none, and those are destroyed that exist. -/
def Proper (l : List (Nat × Option Str)) : List Op → Prop
  | [] => True
  | .create a name :: ops => a ∉ l.map (·.1) ∧ Proper ((a, name) :: l) ops
  | .destroy a :: ops => a ∈ l.map (·.1) ∧ Proper (l.filter (·.1 ≠ a)) ops

/-- The registry is empty. -/
def empty : Heap := ⟨fun _ => none, none⟩

/-- The heap holds these variables. -/
def Holds (h : Heap) (l : List (Nat × Option Str)) : Prop := Linked h (l.map (·.1)) ∧ ∀ p ∈ l, (h.mem p.1).map Node.name = some p.2

theorem erase_filter : ∀ {l : List (Nat × Option Str)} {k a : Nat}, (l.map (·.1)).Nodup → (l.map (·.1))[k]? = some a → (l.map (·.1)).eraseIdx k = (l.filter (·.1 ≠ a)).map (·.1)
  | [], k, a, _, h => by simp at h
  | p :: l, 0, a, hn, h => by
    simp only [List.map_cons, List.getElem?_cons_zero, Option.some.injEq] at h
    subst h
    obtain ⟨h1, h2⟩ := List.nodup_cons.mp hn
    have : l.filter (fun x => decide (x.1 ≠ p.1)) = l := List.filter_eq_self.mpr fun q hq => by
      simp only [ne_eq, decide_not, Bool.not_eq_true', decide_eq_false_iff_not]
      intro e
      exact h1 (List.mem_map.mpr ⟨q, hq, e⟩)
    rw [List.filter_cons, if_neg (by simp), this]
    rfl
  | p :: l, k + 1, a, hn, h => by
    obtain ⟨h1, h2⟩ := List.nodup_cons.mp hn
    have h : (l.map (·.1))[k]? = some a := by simpa using h
    have hp : p.1 ≠ a := fun e => h1 (by show p.1 ∈ _; rw [e]; exact List.mem_of_getElem? h)
    have ih := erase_filter h2 h
    simp only [List.map_cons, List.eraseIdx_cons_succ]
    rw [List.filter_cons, if_pos (by simpa using hp), List.map_cons, ih]

theorem run_holds : ∀ (ops : List Op) (h : Heap) (l : List (Nat × Option Str)), Holds h l → Proper l ops → ∃ h', run h ops = some h' ∧ Holds h' (lives l ops)
  | [], h, l, hh, _ => ⟨h, rfl, hh⟩
  | .create a name :: ops, h, l, hh, hp => by
    have ha : h.mem a = none := by
      cases e : h.mem a with
      | none => rfl
      | some n => exact absurd (hh.1.live a n e) hp.1
    obtain ⟨h', h1, h2, h3⟩ := create_linked hh.1 ha name
    have hh' : Holds h' ((a, name) :: l) := by
      refine ⟨h2, fun p hm => ?_⟩
      rw [h3]
      rcases List.mem_cons.mp hm with e | hm
      · rw [e, if_pos rfl]
      · have : p.1 ≠ a := fun e => hp.1 (List.mem_map.mpr ⟨p, hm, e⟩)
        rw [if_neg this]; exact hh.2 p hm
    obtain ⟨h'', k1, k2⟩ := run_holds ops h' _ hh' hp.2
    exact ⟨h'', by rw [run, h1, Option.bind_some, k1], k2⟩
  | .destroy a :: ops, h, l, hh, hp => by
    obtain ⟨k, hk⟩ := List.mem_iff_getElem?.mp hp.1
    obtain ⟨h', h1, h2, h3⟩ := destroy_linked hh.1 hk
    have hh' : Holds h' (l.filter (·.1 ≠ a)) := by
      refine ⟨by rw [← erase_filter hh.1.nodup hk]; exact h2, fun p hm => ?_⟩
      obtain ⟨g1, g2⟩ := List.mem_filter.mp hm
      rw [h3, if_neg (by simpa using g2)]
      exact hh.2 p g1
    obtain ⟨h'', k1, k2⟩ := run_holds ops h' _ hh' hp.2
    exact ⟨h'', by rw [run, h1, Option.bind_some, k1], k2⟩

theorem iterate_linked {h : Heap} : ∀ (l pre : List (Nat × Option Str)), Linked h ((pre ++ l).map (·.1)) → (∀ p ∈ l, (h.mem p.1).map Node.name = some p.2) → ∀ fuel, l.length ≤ fuel →
    iterate h.mem fuel (l.map (·.1))[0]? = some (l.filterMap fun p => p.2.map fun s => (p.1, s))
  | [], pre, _, _, fuel, _ => by cases fuel <;> rfl
  | p :: l, pre, hL, hn, fuel, hf => by
    cases fuel with
    | zero => simp at hf
    | succ fuel =>
      have hidx : ((pre ++ p :: l).map (·.1))[pre.length]? = some p.1 := by simp
      obtain ⟨n, h1, h2⟩ := hL.next _ _ hidx
      have hname : n.name = p.2 := by
        have := hn p (by simp)
        rw [h1] at this
        simpa using this
      have hnext : n.next = (l.map (·.1))[0]? := by
        rw [h2]
        rw [List.map_append, List.getElem?_append_right (by simp)]
        simp
      have ih := iterate_linked l (pre ++ [p]) (by simpa using hL) (fun q hq => hn q (List.mem_cons_of_mem _ hq)) fuel (by simpa using hf)
      simp only [List.map_cons, List.getElem?_cons_zero, iterate, h1, hnext, ih, hname]
      cases hs : p.2 with
      | none => simp [hs]
      | some s => simp [hs]

/-- **C104** Variables can be created and destroyed in any order: no operation touches memory that is not a variable, and iterating visits exactly the variables that exist and have a name, each once, the latest first. -/
theorem C104_registry (ops : List Op) (hp : Proper [] ops) :
    ∃ h, run empty ops = some h ∧ ∀ fuel, (lives [] ops).length ≤ fuel → iterate h.mem fuel h.head = some ((lives [] ops).filterMap fun p => p.2.map fun s => (p.1, s)) := by
  have h0 : Holds empty [] := ⟨⟨rfl, by simp, fun i a h => by simp at h, fun i b n h => by simp at h, fun a n h => by cases h⟩, by simp⟩
  obtain ⟨h, h1, h2⟩ := run_holds ops empty [] h0 hp
  refine ⟨h, h1, fun fuel hf => ?_⟩
  rw [h2.1.head]
  exact iterate_linked _ [] (by simpa using h2.1) h2.2 fuel hf

example : Proper [] [.create 1 (some (lit "a")), .create 2 (some (lit "b")), .destroy 1, .create 3 none, .create 1 (some (lit "c")), .destroy 2] := by
  simp [Proper]
example : lives [] [.create 1 (some (lit "a")), .create 2 (some (lit "b")), .destroy 1, .create 3 none, .create 1 (some (lit "c")), .destroy 2] = [(1, some (lit "c")), (3, none)] := by decide +kernel

/-! ### The page -/

theorem digit_ok {n : Nat} (h : n < 10) : Digit (48 + n.toUInt8) := by
  rcases n with _ | _ | _ | _ | _ | _ | _ | _ | _ | _ | n <;> first | (unfold Digit; decide) | omega

theorem digits_spec (n : Nat) : digits n ≠ [] ∧ (∀ c ∈ digits n, Digit c) ∧ ((digits n).head? = some 48 → digits n = [48]) := by
  induction n using Nat.strongRecOn with
  | ind n ih =>
    unfold digits
    split
    · rename_i h
      refine ⟨by simp, ?_, ?_⟩
      · intro c hc; rw [List.mem_singleton.mp hc]; exact digit_ok h
      · intro e; simpa using e
    · rename_i h
      obtain ⟨h1, h2, h3⟩ := ih (n / 10) (by omega)
      refine ⟨by simp, ?_, ?_⟩
      · intro c hc
        rcases List.mem_append.mp hc with hc | hc
        · exact h2 c hc
        · rw [List.mem_singleton.mp hc]; exact digit_ok (by omega)
      · intro e
        exfalso
        have e : (digits (n / 10)).head? = some 48 := by
          cases hd : digits (n / 10) with
          | nil => exact absurd hd h1
          | cons c t => rw [hd] at e; simpa using e
        have h4 := h3 e
        -- a quotient that is written as 0 is 0
        unfold digits at h4
        split at h4
        · rename_i h5
          have : ∀ m : Nat, m < 10 → ([48 + m.toUInt8] : Str) = [48] → m = 0 := by
            intro m hm
            rcases m with _ | _ | _ | _ | _ | _ | _ | _ | _ | _ | m <;> first | (intro _; rfl) | (intro hx; exact absurd hx (by decide)) | omega
          have := this _ h5 h4
          omega
        · rename_i h5
          have : (digits (n / 10 / 10)).length = 0 := by
            have := congrArg List.length h4
            simpa using this
          have h6 : digits (n / 10 / 10) ≠ [] := by
            unfold digits; split <;> simp
          exact h6 (List.length_eq_zero_iff.mp this)

theorem int_number (n : Int) : Number (intText n) := by
  unfold intText
  split
  · exact ⟨[45], digits n.natAbs, [], [], by simp, Or.inr rfl, digits_spec _, Or.inl rfl, Or.inl rfl⟩
  · exact ⟨[], digits n.natAbs, [], [], by simp, Or.inl rfl, digits_spec _, Or.inl rfl, Or.inl rfl⟩

theorem digits_fold (n : Nat) : (digits n).foldl (fun a d => 10 * a + (d.toNat - 48 : Int)) 0 = n := by
  induction n using Nat.strongRecOn with
  | ind n ih =>
    have one : ∀ m : Nat, m < 10 → ((48 + m.toUInt8 : UInt8).toNat : Int) - 48 = m := by
      intro m hm
      rcases m with _ | _ | _ | _ | _ | _ | _ | _ | _ | _ | m <;> first | rfl | omega
    unfold digits
    split
    · rename_i h
      rw [List.foldl_cons, List.foldl_nil, one n h]
      omega
    · rename_i h
      rw [List.foldl_append, ih (n / 10) (by omega), List.foldl_cons, List.foldl_nil, one (n % 10) (by omega)]
      omega

/-- **C104** The text of an integer denotes that integer, with its sign. -/
theorem C104_int (n : Int) : valueOf (intText n) = n := by
  unfold intText
  split
  · rw [valueOf, if_pos rfl, digits_fold]; omega
  · obtain ⟨h1, h2, -⟩ := digits_spec n.natAbs
    have h3 := digits_fold n.natAbs
    cases h : digits n.natAbs with
    | nil => exact absurd h h1
    | cons c ds =>
      have hc : c ≠ 45 := by
        rintro rfl
        exact absurd (h2 45 (by rw [h]; simp)).1 (by decide)
      rw [valueOf, if_neg hc, ← h, h3]; omega

theorem C104_int_case : intText (-307) = lit "-307" ∧ valueOf (lit "-307") = -307 := by decide +kernel

theorem ws_nil : Ws [] := by simp [Ws]
theorem ws_space : Ws [32] := by simp [Ws]
theorem ws_newline : Ws [10] := by simp [Ws]

theorem lit_sep : lit "\": " = [34, 58, 32] := by decide +kernel
theorem lit_line : lit ",\n" = [44, 10] := by decide +kernel
theorem lit_comma : lit "," = [44] := by decide +kernel
theorem lit_open : lit "{ " = [123, 32] := by decide +kernel
theorem lit_close : lit "}" = [125] := by decide +kernel

mutual
theorem format_text : ∀ v : Value, Safe v → Text (ofValue v) (format v)
  | .str s, h => .str h
  | .num n, _ => .num (int_number n)
  | .time n, _ => .num (int_number n)
  | .dbl t, h => .num h
  | .map m, h => by
    rcases pairs_text m h with e | ⟨w, hw, hm⟩
    · subst e
      have : format (.map .nil) = 123 :: [32] ++ [125] := by
        simp only [format, formatPairs, lit_open, lit_close]; rfl
      rw [this]; exact .empty ws_space
    · have : format (.map m) = 123 :: ([32] ++ w ++ [32]) ++ [125] := by
        simp only [format, lit_open, lit_close, setBack]
        rw [hw, ← List.append_assoc, List.dropLast_concat]
        simp
      rw [this]; exact .obj (hm _ _ ws_space ws_space)
/-- The members of a map: the text without its last comma. -/
theorem pairs_text : ∀ m : KeyVals, SafePairs m → m = .nil ∨ ∃ w, formatPairs m = w ++ [44] ∧ ∀ w0 w2, Ws w0 → Ws w2 → Members (ofPairs m) (w0 ++ w ++ w2)
  | .nil, _ => Or.inl rfl
  | .cons k v r, h => by
    right
    have hv := format_text v h.2.1
    rcases pairs_text r h.2.2 with e | ⟨w, hw, hm⟩
    · subst e
      refine ⟨34 :: k ++ [34, 58, 32] ++ format v, by simp [formatPairs, lit_sep, lit_comma], fun w0 w2 h0 h2 => ?_⟩
      have := Members.one (w0 := w0) (w1 := [32]) (w2 := w2) h.1 hv h0 ws_space h2
      simpa [ofPairs] using this
    · refine ⟨34 :: k ++ [34, 58, 32] ++ format v ++ 44 :: w, by rw [formatPairs, hw]; simp [lit_sep, lit_comma], fun w0 w2 h0 h2 => ?_⟩
      have := Members.cons (w0 := w0) (w1 := [32]) (w2 := []) h.1 hv h0 ws_space ws_nil (hm [] w2 ws_nil h2)
      simpa [ofPairs] using this
end

/-- The lines of the page before the last. -/
theorem lines_text (w1 t : Str) (k : Str) (j : J) (hk : Plain k) (hj : Text j t) (hw : Ws w1) : ∀ (vars : List (Str × Value)) (w0 : Str), Ws w0 → (∀ p ∈ vars, Plain p.1 ∧ Safe p.2) →
    Members (vars.map (fun p => (p.1, ofValue p.2)) ++ [(k, j)]) (w0 ++ vars.flatMap (fun p => 34 :: p.1 ++ lit "\": " ++ format p.2 ++ lit ",\n") ++ (34 :: k ++ [34]) ++ 58 :: w1 ++ t)
  | [], w0, h0, _ => by
    have := Members.one (w0 := w0) (w1 := w1) (w2 := []) hk hj h0 hw ws_nil
    simpa using this
  | p :: vars, w0, h0, h => by
    have ih := lines_text w1 t k j hk hj hw vars [10] ws_newline fun q hq => h q (List.mem_cons_of_mem _ hq)
    have hp := h p (by simp)
    have := Members.cons (w0 := w0) (w1 := [32]) (w2 := []) hp.1 (format_text p.2 hp.2) h0 ws_space ws_nil ih
    simpa [lit_sep, lit_line] using this

/-- **C104** A value of which all texts stand for themselves is printed as the JSON text of that value: a map with all its members in order, also one without members. -/
theorem C104_value (v : Value) (h : Safe v) : Text (ofValue v) (format v) := format_text v h

/-- **C104** The page is the JSON text of one object, with a member for every variable in the order of the iteration and the time as its last one, whenever the names, the texts and the doubles can be printed as they are. -/
theorem C104_page_partial (vars : List (Str × Value)) (now : Int) (h : ∀ p ∈ vars, Plain p.1 ∧ Safe p.2) :
    ∃ t, statusJson vars now = t ++ lit "\n" ∧ Text (.obj (vars.map (fun p => (p.1, ofValue p.2)) ++ [(lit "current-time", .num (intText now))])) t := by
  have hk : Plain (lit "current-time") := by
    have : ∀ c ∈ lit "current-time", c ≠ 34 ∧ c ≠ 92 ∧ 32 ≤ c := by decide +kernel
    exact this
  have hm := lines_text [32] (intText now) (lit "current-time") (.num (intText now)) hk (.num (int_number now)) ws_space vars [] ws_nil h
  refine ⟨_, ?_, .obj hm⟩
  have e1 : lit "\"current-time\": " = 34 :: lit "current-time" ++ [34, 58, 32] := by decide +kernel
  have e2 : lit "}\n" = [125, 10] := by decide +kernel
  have e3 : lit "\n" = [10] := by decide +kernel
  have e4 : lit "{" = [123] := by decide +kernel
  simp only [statusJson, lit_line, e1, e2, e3, e4]
  rw [← List.append_assoc, ← List.append_assoc]
  rw [List.take_left' (by simp; omega)]
  simp

example : (∀ p ∈ [(lit "conns", Value.num (-3)), (lit "lat", .map (.cons (lit "p50") (.dbl (lit "0.5")) .nil))], Plain p.1 ∧ Safe p.2) := by
  have h1 : ∀ c ∈ lit "conns", c ≠ 34 ∧ c ≠ 92 ∧ 32 ≤ c := by decide +kernel
  have h2 : ∀ c ∈ lit "lat", c ≠ 34 ∧ c ≠ 92 ∧ 32 ≤ c := by decide +kernel
  have h3 : ∀ c ∈ lit "p50", c ≠ 34 ∧ c ≠ 92 ∧ 32 ≤ c := by decide +kernel
  have h4 : Number (lit "0.5") := ⟨[], [48], [46, 53], [], by decide +kernel, Or.inl rfl, ⟨by simp, by simp [Digit], by simp⟩, Or.inr ⟨[53], rfl, by simp, by simp [Digit]⟩, Or.inl rfl⟩
  intro p hp
  rcases List.mem_cons.mp hp with e | hp
  · subst e; exact ⟨h1, trivial⟩
  · rw [List.mem_singleton.mp hp]; exact ⟨h2, h3, h4, trivial⟩

/-- **C104** A text with a quote in it is printed as it is: the page of a program with one variable is also the page of a program with two, so a reader cannot tell them apart. -/
theorem C104_injection : ∃ (v : Value) (vars : List (Str × Value)), vars.length = 2 ∧ statusJson [(lit "a", v)] 0 = statusJson vars 0 :=
  ⟨.str (lit "x\",\n\"b\": \"y"), [(lit "a", .str (lit "x")), (lit "b", .str (lit "y"))], rfl, by
    simp only [statusJson, List.flatMap_cons, List.flatMap_nil, format]
    decide +kernel⟩

/-- **C104** A double that is not a number is printed as `nan`, which is the text of no JSON value. -/
theorem C104_nan (j : J) : ¬ Text j (format (.dbl (lit "nan"))) := by
  have e : format (.dbl (lit "nan")) = [110, 97, 110] := by simp only [format]; decide +kernel
  rw [e]
  generalize hx : ([110, 97, 110] : Str) = x
  intro h
  cases h with
  | str h => simp at hx
  | empty h => simp at hx
  | obj h => simp at hx
  | num h =>
    obtain ⟨sign, int, frac, exp, e, hs, ⟨hi, hd, -⟩, -, -⟩ := h
    rw [e] at hx
    rcases hs with hs | hs
    · subst hs
      cases int with
      | nil => exact hi rfl
      | cons c int =>
        have h1 : c = 110 := by simp at hx; exact hx.1.symm
        have h2 := hd c (by simp)
        rw [h1] at h2
        exact absurd h2.2 (by decide)
    · subst hs; simp at hx

end Verif.Varz
