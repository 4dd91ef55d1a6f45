import Verif.SharedMutex.Model
namespace Verif.SharedMutex
open Verif.Common Verif.EventCount
variable {tr : Bool}

/-- The fiber has added READER (and may have to take it back). -/
def inRd : Pc → Bool
  | .subT => true
  | .sub0 => true
  | .sub1 => true
  | .dropX false => true
  | .hold false => true
  | _ => false

def inWr : Pc → Bool
  | .dropX true => true
  | .hold true => true
  | _ => false

def isSub : Pc → Bool
  | .subT => true
  | .sub0 => true
  | .sub1 => true
  | _ => false

structure Inv (g : G) (F : Nat → Option Pc) : Prop where
  st : g.st = 4 * g.rd.length + (if g.wr.isSome then 1 else 0)
  len : g.rd.length < 2 ^ 30
  nd : g.rd.Nodup
  rd : ∀ t, t ∈ g.rd ↔ ∃ l, F t = some l ∧ inRd l = true
  wr : ∀ t, g.wr = some t ↔ ∃ l, F t = some l ∧ inWr l = true
  excl : ∀ w, g.wr = some w → ∀ t l, F t = some l → inRd l = true → isSub l = true

theorem rd_wr {l : Pc} (h : inRd l = true) : inWr l = false := by
  cases l <;> first | rfl | (rename_i w; cases w <;> simp_all [inRd, inWr]) | simp_all [inRd]

theorem inv_same {g : G} {F : Nat → Option Pc} {t : Nat} {l l' : Pc} (h : Inv g F) (hF : F t = some l)
    (h1 : inRd l' = inRd l) (h2 : inWr l' = inWr l) (h3 : isSub l = true → isSub l' = true) : Inv g (upd F t (some l')) := by
  obtain ⟨st, len, nd, rd, wr, excl⟩ := h
  constructor
  · exact st
  · exact len
  · exact nd
  · simp only [upd_apply]; grind
  · simp only [upd_apply]; grind
  · simp only [upd_apply]; grind

theorem inv_cas {g g' : G} {F : Nat → Option Pc} {t : Nat} {l l' : Pc} (h : Inv g F) (hF : F t = some l)
    (h0 : inRd l = false) (hc : casWriter g t = some g') (h1 : inRd l' = false) (h2 : inWr l' = true) :
    Inv g' (upd F t (some l')) := by
  obtain ⟨st, len, nd, rd, wr, excl⟩ := h
  unfold casWriter at hc
  split at hc
  · rename_i hz
    simp only [Option.some.injEq] at hc; subst hc
    rw [hz] at st
    have hr : g.rd = [] := List.length_eq_zero_iff.1 (by omega)
    have hw : g.wr = none := by cases h : g.wr <;> simp [h] at st ⊢
    have hnr : ∀ u l, F u = some l → inRd l = false := by
      intro u l hl
      cases hh : inRd l
      · rfl
      · have := (rd u).2 ⟨l, hl, hh⟩
        rw [hr] at this; simp at this
    constructor <;> (try simp only [upd_apply]) <;> grind
  · simp at hc

theorem inv_add {g g' : G} {F : Nat → Option Pc} {t : Nat} {l l' : Pc} (h : Inv g F) (hF : F t = some l)
    (h0 : inRd l = false) (hw : inWr l = false) (hc : addReader g t = some g') (h1 : inRd l' = true) (h2 : inWr l' = false)
    (h3 : g.st % 2 = 1 → isSub l' = true) : Inv g' (upd F t (some l')) := by
  obtain ⟨st, len, nd, rd, wr, excl⟩ := h
  unfold addReader at hc
  split at hc
  · rename_i hlt
    simp only [Option.some.injEq] at hc; subst hc
    have hnr : t ∉ g.rd := by grind
    have e4 : ∀ a n x : Nat, a = 4 * n + x → x ≤ 1 → a + 4 < 2 ^ 32 → add32 a 4 = 4 * (n + 1) + x ∧ n + 1 < 2 ^ 30 := by
      intro a n x; unfold add32; omega
    have e5 := e4 _ _ _ st (by split <;> decide) hlt
    constructor
    · rw [List.length_cons]; exact e5.1
    · rw [List.length_cons]; exact e5.2
    · exact List.nodup_cons.2 ⟨hnr, nd⟩
    all_goals clear e4 e5
    · simp only [upd_apply]; grind
    · simp only [upd_apply]; grind
    · simp only [upd_apply]
      have : ∀ w, g.wr = some w → g.st % 2 = 1 := by intro w hw; rw [st, hw]; simp; omega
      grind
  · simp at hc

theorem inv_sub {g : G} {F : Nat → Option Pc} {t : Nat} {l l' : Pc} (h : Inv g F) (hF : F t = some l)
    (h0 : inRd l = true) (h1 : inRd l' = false) (h2 : inWr l' = false) : Inv (subReader g t) (upd F t (some l')) := by
  obtain ⟨st, len, nd, rd, wr, excl⟩ := h
  have ht : t ∈ g.rd := (rd t).2 ⟨l, hF, h0⟩
  have hl := List.length_erase_of_mem ht
  have hp : 0 < g.rd.length := List.length_pos_of_mem ht
  have hw : inWr l = false := rd_wr h0
  have e1 : (subReader g t).st = sub32 g.st 4 := by cases g; rfl
  have e2 : (subReader g t).rd = g.rd.erase t := by cases g; rfl
  have e3 : (subReader g t).wr = g.wr := by cases g; rfl
  have e4 : ∀ a n x : Nat, a = 4 * n + x → x ≤ 1 → 0 < n → n < 2 ^ 30 → sub32 a 4 = 4 * (n - 1) + x := by
    intro a n x; unfold sub32; omega
  constructor
  · rw [e1, e2, e3, hl]
    refine e4 g.st g.rd.length _ st ?_ hp len
    split <;> omega
  · rw [e2, hl]; omega
  · exact nd.erase t
  · intro u
    simp only [e2, nd.mem_erase_iff, upd_apply]; clear e1 e4; grind
  · simp only [e3, upd_apply]; clear e1 e4; grind
  · simp only [e3, upd_apply]; clear e1 e4; grind

theorem inv_clear {g : G} {F : Nat → Option Pc} {t : Nat} {l l' : Pc} (h : Inv g F) (hF : F t = some l)
    (h0 : inWr l = true) (h1 : inRd l' = false) (h2 : inWr l' = false) : Inv (clearWriter g) (upd F t (some l')) := by
  obtain ⟨st, len, nd, rd, wr, excl⟩ := h
  have hw : g.wr = some t := (wr t).2 ⟨l, hF, h0⟩
  have hr : inRd l = false := by
    cases hh : inRd l
    · rfl
    · rw [rd_wr hh] at h0; simp at h0
  have hu : ∀ u l, F u = some l → inWr l = true → u = t := by
    intro u l hl hh
    have := (wr u).2 ⟨l, hl, hh⟩
    rw [hw] at this; simpa using this.symm
  constructor
  · simp only [clearWriter, st, hw]; simp; omega
  · exact len
  · exact nd
  · simp only [clearWriter, upd_apply]; grind
  · simp only [clearWriter, upd_apply]; grind
  · simp only [clearWriter]; simp

theorem inv_attempt {g g' : G} {F : Nat → Option Pc} {t : Nat} {w : Bool} {l l' ok sub no : Pc} (h : Inv g F) (hF : F t = some l)
    (hl : inRd l = false ∧ inWr l = false ∧ isSub l = false) (hok : inRd ok = !w ∧ inWr ok = w) (hsub : inRd sub = true ∧ inWr sub = false ∧ isSub sub = true)
    (hno : inRd no = false ∧ inWr no = false)
    (ha : attempt g w t ok sub no = some (g', l')) : Inv g' (upd F t (some l')) := by
  unfold attempt at ha
  cases w
  · simp only [Bool.false_eq_true, if_false, Option.map_eq_some_iff] at ha
    obtain ⟨g1, h1, h2⟩ := ha
    simp only [Prod.mk.injEq] at h2
    obtain ⟨rfl, rfl⟩ := h2
    split
    · exact inv_add h hF hl.1 hl.2.1 h1 hsub.1 hsub.2.1 (fun _ => hsub.2.2)
    · exact inv_add h hF hl.1 hl.2.1 h1 hok.1 hok.2 (fun h => absurd h (by assumption))
  · simp only [if_true] at ha
    split at ha
    · rename_i g1 h1
      simp only [Option.some.injEq, Prod.mk.injEq] at ha
      obtain ⟨rfl, rfl⟩ := ha
      exact inv_cas h hF hl.1 h1 hok.1 hok.2
    · simp only [Option.some.injEq, Prod.mk.injEq] at ha
      obtain ⟨rfl, rfl⟩ := ha
      exact inv_same h hF (by rw [hno.1, hl.1]) (by rw [hno.2, hl.2.1]) (by simp [hl.2.2])

theorem inv_reach {Q : State G Pc → Prop} (hQ : ∀ s, Q s → s.th.length < 2 ^ 32) {s : State G Pc}
    (h : Reach Start (step (client tr)) Q s) : Inv s.g s.lcl := by
  refine client_reach hQ (R := fun g F _ => Inv g F) ?_ ?_ ?_ h
  · intro s hi _
    have hF : ∀ t l, s.lcl t = some l → l = .idle := by
      intro t l hl
      simp only [State.lcl, Option.map_eq_some_iff] at hl
      obtain ⟨x, hx, rfl⟩ := hl
      exact (hi.2.2.1 x (List.mem_of_getElem? hx)).1
    have hg : s.g = _ := hi.1
    rw [hg]
    constructor <;> (try simp) <;> intros <;> grind [inRd, inWr]
  · intro g F K t l c g' l' hR hF hc hs
    simp only [client, call] at hc
    simp only [client, loc] at hs
    cases l <;> simp only [reduceCtorEq] at hc hs
    · cases c <;> simp only [Option.some.injEq, Prod.mk.injEq, reduceCtorEq] at hs
      · obtain ⟨rfl, rfl⟩ := hs; exact inv_same hR hF rfl rfl (by simp [isSub])
      · split at hs
        · simp only [Option.some.injEq, Prod.mk.injEq] at hs
          obtain ⟨rfl, rfl⟩ := hs; exact inv_same hR hF rfl rfl (by simp [isSub])
        · simp at hs
    · exact inv_attempt hR hF ⟨rfl, rfl, rfl⟩ (by rename_i w; cases w <;> exact ⟨rfl, rfl⟩) ⟨rfl, rfl, rfl⟩ ⟨rfl, rfl⟩ hs
    · split at hs
      · simp only [Option.some.injEq, Prod.mk.injEq] at hs
        obtain ⟨rfl, rfl⟩ := hs; exact inv_sub hR hF rfl rfl rfl
      · simp at hs
    · exact inv_attempt hR hF ⟨rfl, rfl, rfl⟩ (by rename_i w; cases w <;> exact ⟨rfl, rfl⟩) ⟨rfl, rfl, rfl⟩ ⟨rfl, rfl⟩ hs
    · simp only [Option.some.injEq, Prod.mk.injEq] at hs
      obtain ⟨rfl, rfl⟩ := hs; exact inv_sub hR hF rfl rfl rfl
    · exact inv_attempt hR hF ⟨rfl, rfl, rfl⟩ (by rename_i w; cases w <;> exact ⟨rfl, rfl⟩) ⟨rfl, rfl, rfl⟩ ⟨rfl, rfl⟩ hs
    · simp only [Option.some.injEq, Prod.mk.injEq] at hs
      obtain ⟨rfl, rfl⟩ := hs; exact inv_sub hR hF rfl rfl rfl
    · cases c <;> simp only [Option.some.injEq, Prod.mk.injEq, reduceCtorEq] at hs
      obtain ⟨rfl, rfl⟩ := hs
      rename_i w
      cases w
      · exact inv_sub hR hF rfl rfl rfl
      · exact inv_clear hR hF rfl rfl rfl
  · intro g F K K' t l b hR hF hc hs
    simp only [client, call, ret] at hc ⊢
    cases l <;> simp only [ne_eq, not_true, reduceCtorEq, not_false_eq_true] at hc
    all_goals first
      | exact inv_same hR hF rfl rfl (by simp [isSub])
      | (rename_i w; cases w <;> exact inv_same hR hF rfl rfl (by simp [isSub]))

end Verif.SharedMutex
