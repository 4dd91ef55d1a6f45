import Verif.Url.Spec
namespace Verif.Url
open Spec

theorem all_bytes {P : UInt8 → Prop} [DecidablePred P] (h : ∀ i : Fin 256, P (UInt8.ofNat i)) (c : UInt8) : P c := by
  have := h ⟨c.toNat, c.toNat_lt⟩
  simpa using this

instance (c : UInt8) (v : Nat) : Decidable (Hex c v) := by unfold Hex; infer_instance
instance (c : UInt8) (v : Nat) : Decidable (HexUpper c v) := by unfold HexUpper; infer_instance
instance : DecidablePred Alnum := fun c => by unfold Alnum; infer_instance
instance : DecidablePred Safe := fun c => by unfold Safe; infer_instance
instance : DecidablePred SafeHttp := fun c => by unfold SafeHttp; infer_instance

theorem valid_iff (c : UInt8) : isValid c = true ↔ Safe c :=
  all_bytes (P := fun c => isValid c = true ↔ Safe c) (by decide +kernel) c

theorem safe_ne {c : UInt8} : Safe c → c ≠ 37 :=
  all_bytes (P := fun c => Safe c → c ≠ 37) (by decide +kernel) c

theorem safeHttp_ne {c : UInt8} : SafeHttp c → c ≠ 37 :=
  all_bytes (P := fun c => SafeHttp c → c ≠ 37) (by decide +kernel) c

theorem validHttp_iff (c : UInt8) (h : c.toNat < 128) : isValidHttp c = some (decide (SafeHttp c)) :=
  all_bytes (P := fun c => c.toNat < 128 → isValidHttp c = some (decide (SafeHttp c))) (by decide +kernel) c h

theorem hi_digit (c : UInt8) : HexUpper (digit ((c >>> 4) &&& 15)) (c.toNat / 16) :=
  all_bytes (P := fun c => HexUpper (digit ((c >>> 4) &&& 15)) (c.toNat / 16)) (by decide +kernel) c

theorem lo_digit (c : UInt8) : HexUpper (digit (c &&& 15)) (c.toNat % 16) :=
  all_bytes (P := fun c => HexUpper (digit (c &&& 15)) (c.toNat % 16)) (by decide +kernel) c

theorem HexUpper.hex {c v} (h : HexUpper c v) : Hex c v := by
  unfold HexUpper at h; unfold Hex; omega

theorem hex_iff (c : UInt8) (v : Nat) : Hex c v ↔ isXdigit c = true ∧ (hexVal c).toNat = v := by
  have h : ∀ c : UInt8, ∀ v : Fin 256, Hex c v ↔ isXdigit c = true ∧ (hexVal c).toNat = v := by
    intro c
    exact all_bytes (P := fun c => ∀ v : Fin 256, Hex c v ↔ isXdigit c = true ∧ (hexVal c).toNat = v)
      (by decide +kernel) c
  by_cases hv : v < 256
  · exact h c ⟨v, hv⟩
  · constructor
    · intro h; unfold Hex at h; omega
    · intro ⟨_, h⟩
      have := (hexVal c).toNat_lt
      omega

theorem hexVal_lt (c : UInt8) : (hexVal c).toNat < 16 :=
  all_bytes (P := fun c => (hexVal c).toNat < 16) (by decide +kernel) c

theorem shl_or (a b : UInt8) (ha : a.toNat < 16) (hb : b.toNat < 16) : ((a <<< 4) ||| b).toNat = 16 * a.toNat + b.toNat := by
  have h : ∀ i j : Fin 16, ((UInt8.ofNat i <<< 4) ||| UInt8.ofNat j).toNat = 16 * i.val + j.val := by decide +kernel
  have := h ⟨a.toNat, ha⟩ ⟨b.toNat, hb⟩
  simpa using this

end Verif.Url

namespace Verif.Url
open Spec

/-- List form of the decoder. -/
def dec : List UInt8 → DRes
  | [] => .ok []
  | [c] => if c ≠ 37 then .ok [c] else .fail
  | [c, d] => if c ≠ 37 then (dec [d]).cons c else .fail
  | c :: a :: b :: r =>
    if c ≠ 37 then (dec (a :: b :: r)).cons c
    else if !isXdigit a || !isXdigit b then .fail
    else (dec r).cons ((hexVal a <<< 4) ||| hexVal b)

theorem w32_id {n : Nat} (h : n < 2 ^ 32) : w32 n = n := Nat.mod_eq_of_lt h

theorem decodeLoop_eq {src : List UInt8} (hl : src.length + 3 ≤ 2 ^ 32) :
    ∀ (cap i : Nat), i ≤ src.length → src.length - i ≤ cap → decodeLoop src cap i = dec (src.drop i) := by
  intro cap
  induction cap with
  | zero =>
    intro i hi hc
    have : i = src.length := by omega
    subst this
    simp [decodeLoop, decodeStep, dec]
  | succ cap ih =>
    intro i hi hc
    by_cases hlt : i < src.length
    · have hd : src.drop i = src[i] :: src.drop (i + 1) := by simp
      have h1 : w32 (i + 1) = i + 1 := w32_id (by omega)
      have h2 : w32 (i + 2) = i + 2 := w32_id (by omega)
      have h3 : w32 (i + 3) = i + 3 := w32_id (by omega)
      have h4 : w32 (i + 2 + 1) = i + 3 := h3
      simp only [decodeLoop, decodeStep, hlt, if_true, List.getElem?_eq_getElem hlt, h1, h2, h3, h4]
      by_cases hc37 : src[i] = 37
      · simp only [hc37, ne_eq, not_true_eq_false, if_false]
        by_cases h3l : i + 3 > src.length
        · simp only [h3l, if_true]
          rw [hd, hc37]
          by_cases h2l : i + 1 < src.length
          · have hd2 : src.drop (i + 1) = src[i + 1] :: src.drop (i + 2) := by simp
            have hd3 : src.drop (i + 2) = [] := by simp; omega
            rw [hd2, hd3]; simp [dec]
          · have hd2 : src.drop (i + 1) = [] := by simp; omega
            rw [hd2]; simp [dec]
        · have ha : i + 1 < src.length := by omega
          have hb : i + 2 < src.length := by omega
          have hd2 : src.drop (i + 1) = src[i + 1] :: src.drop (i + 2) := by simp
          have hd3 : src.drop (i + 2) = src[i + 2] :: src.drop (i + 3) := by simp
          rw [hd, hd2, hd3, hc37]
          simp only [h3l, if_false, List.getElem?_eq_getElem ha, List.getElem?_eq_getElem hb, dec, ne_eq,
            not_true_eq_false]
          generalize isXdigit src[i + 1] = p
          generalize isXdigit src[i + 2] = q
          by_cases hx : (!p || !q) = true
          · simp only [hx, if_true]
          · simp only [hx, Bool.false_eq_true, if_false]
            rw [ih _ (by omega) (by omega)]
      · simp only [hc37, ne_eq, not_false_eq_true, if_true]
        rw [ih _ (by omega) (by omega), hd]
        generalize src[i] = c at hc37
        generalize src.drop (i + 1) = r
        match r with
        | [] => simp [dec, hc37, DRes.cons]
        | [d] => simp [dec, hc37]
        | a :: b :: r => simp [dec, hc37]
    · have : i = src.length := by omega
      subst this
      simp [decodeLoop, decodeStep, dec]

theorem dec_ok_iff : ∀ (e s : List UInt8), dec e = .ok s ↔ Means e s := by
  intro e
  induction e using dec.induct with
  | case1 => intro s; constructor
             · intro h; simp [dec] at h; subst h; exact .nil
             · intro h; cases h; rfl
  | case2 c hc =>
    intro s; simp only [dec, hc, ne_eq, not_false_eq_true, if_true, DRes.ok.injEq]
    constructor
    · rintro rfl; exact .lit hc .nil
    · intro h; cases h with | lit _ h => cases h; rfl
  | case3 c hc =>
    simp only [ne_eq, Decidable.not_not] at hc; subst hc
    intro s; simp [dec]
    intro h; cases h; simp_all
  | case4 c d hc ih =>
    intro s; simp only [dec, hc, ne_eq, not_false_eq_true, if_true]
    constructor
    · intro h
      cases hd : dec [d] with
      | ok r => simp only [dec] at hd ⊢; rw [hd] at h; simp [DRes.cons] at h; subst h; exact .lit hc ((ih r).1 (by simpa [dec] using hd))
      | fail => simp only [dec] at hd; rw [hd] at h; simp [DRes.cons] at h
      | ub => simp only [dec] at hd; rw [hd] at h; simp [DRes.cons] at h
    · intro h; cases h with
      | lit _ h => have := (ih _).2 h; simp only [dec] at this; rw [this]; rfl
  | case5 c d hc =>
    simp only [ne_eq, Decidable.not_not] at hc; subst hc
    intro s; simp [dec]
    intro h; cases h; simp_all
  | case6 c a b r hc ih =>
    intro s; simp only [dec, hc, ne_eq, not_false_eq_true, if_true]
    constructor
    · intro h
      cases hd : dec (a :: b :: r) with
      | ok t => rw [hd] at h; simp [DRes.cons] at h; subst h; exact .lit hc ((ih t).1 hd)
      | fail => rw [hd] at h; simp [DRes.cons] at h
      | ub => rw [hd] at h; simp [DRes.cons] at h
    · intro h; cases h with
      | lit _ h => rw [(ih _).2 h]; rfl
      | esc => simp at hc
  | case7 c a b r hc hx =>
    simp only [ne_eq, Decidable.not_not] at hc; subst hc
    intro s; simp only [dec, hx, ne_eq, not_true_eq_false, if_false, if_true, reduceCtorEq, false_iff]
    intro h; cases h with
    | lit h => simp at h
    | esc ha hb => rw [hex_iff] at ha hb; simp [ha.1, hb.1] at hx
  | case8 c a b r hc hx ih =>
    simp only [ne_eq, Decidable.not_not] at hc; subst hc
    intro s; simp only [dec, hx, ne_eq, not_true_eq_false, if_false]
    have hx' : isXdigit a = true ∧ isXdigit b = true := by simpa using hx
    have hv := shl_or _ _ (hexVal_lt a) (hexVal_lt b)
    constructor
    · intro h
      cases hd : dec r with
      | ok t =>
        rw [hd] at h; simp [DRes.cons] at h; subst h
        exact .esc ((hex_iff a _).2 ⟨hx'.1, rfl⟩) ((hex_iff b _).2 ⟨hx'.2, rfl⟩) hv ((ih t).1 hd)
      | fail => rw [hd] at h; simp [DRes.cons] at h
      | ub => rw [hd] at h; simp [DRes.cons] at h
    · intro h; cases h with
      | lit h => simp at h
      | esc ha hb hc h =>
        rw [hex_iff] at ha hb
        rw [(ih _).2 h]
        simp only [Bool.false_eq_true, if_false, DRes.cons, DRes.ok.injEq, List.cons.injEq, and_true]
        apply UInt8.toNat_inj.1
        rw [hv, hc, ha.2, hb.2]

theorem dec_ne_ub : ∀ e : List UInt8, dec e ≠ .ub := by
  have hc : ∀ c (r : DRes), r ≠ .ub → r.cons c ≠ .ub := by intro c r h; cases r <;> simp_all [DRes.cons]
  intro e
  induction e using dec.induct <;> simp_all [dec]
  all_goals (try split) <;> simp_all

end Verif.Url
