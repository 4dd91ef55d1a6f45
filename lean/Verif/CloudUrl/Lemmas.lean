import Verif.CloudUrl.Model
import Verif.Url.Props
/-! Lemmas for the request targets. -/
namespace Verif.CloudUrl
open Verif.Text hiding Byte
open Verif.Url Verif.Url.Spec

/-- One encoded byte. -/
def encByte (c : Byte) : Str := if isValid c then [c] else [37, digit ((c >>> 4) &&& 15), digit (c &&& 15)]

/-- An encoded text. -/
def enc (s : Str) : Str := s.flatMap encByte

/-- A text encoded but for its slashes. -/
def encP (s : Str) : Str := s.flatMap fun c => if c = 47 then [47] else encByte c

theorem encodeLoop_enc : ∀ (s : Str) (cap : Nat), 3 * s.length + 1 ≤ cap → encodeLoop s cap = some (enc s)
  | [], cap, h => by
    have : cap ≠ 0 := by simp at h; omega
    simp [encodeLoop, enc, this]
  | c :: s, cap, h => by
    simp only [List.length_cons] at h
    unfold encodeLoop
    have e1 : enc (c :: s) = encByte c ++ enc s := rfl
    rw [e1]
    unfold encByte
    split
    · rw [if_pos (by omega), encodeLoop_enc s (cap - 1) (by omega)]; rfl
    · rw [if_pos (by omega), encodeLoop_enc s (cap - 3) (by omega)]; rfl

theorem append_enc (s d : Str) : appendUrlEncoded s d = some (d ++ enc s) := by
  rw [appendUrlEncoded, encodeLoop_enc s _ (by omega)]; rfl

theorem enc_means (s : Str) : Means (enc s) s := by
  obtain ⟨e, he, _, hm⟩ := C36_encode s []
  rw [append_enc] at he
  simp only [List.nil_append, Option.some.injEq] at he
  rw [he]; exact hm

theorem encByte_chars (c : Byte) : ∀ x ∈ encByte c, isValid x = true ∨ x = 37 := by
  have h : ∀ c : Byte, (encByte c).all (fun x => isValid x || x == 37) = true := fun c => all_bytes (P := fun c => (encByte c).all (fun x => isValid x || x == 37) = true) (by decide +kernel) c
  intro x hx
  have := List.all_eq_true.mp (h c) x hx
  simpa using this

theorem enc_chars {s : Str} {x : Byte} (h : x ∈ enc s) : isValid x = true ∨ x = 37 := by
  obtain ⟨c, _, hx⟩ := List.mem_flatMap.mp h
  exact encByte_chars c x hx

/-- Characters with a meaning in a URL do not occur in an encoded text. -/
theorem enc_free (s : Str) {x : Byte} (hx : isValid x = false) (h37 : x ≠ 37) : x ∉ enc s := fun h => by
  rcases enc_chars h with e | e
  · rw [hx] at e; cases e
  · exact h37 e

theorem encP_chars {s : Str} {x : Byte} (h : x ∈ encP s) : isValid x = true ∨ x = 37 ∨ x = 47 := by
  obtain ⟨c, _, hx⟩ := List.mem_flatMap.mp h
  split at hx
  · exact Or.inr (Or.inr (by simpa using hx))
  · rcases encByte_chars c x hx with e | e
    · exact Or.inl e
    · exact Or.inr (Or.inl e)

theorem encP_free (s : Str) {x : Byte} (hx : isValid x = false) (h37 : x ≠ 37) (h47 : x ≠ 47) : x ∉ encP s := fun h => by
  rcases encP_chars h with e | e | e
  · rw [hx] at e; cases e
  · exact h37 e
  · exact h47 e

theorem means_append {a s b t : Str} (h : Means a s) (h2 : Means b t) : Means (a ++ b) (s ++ t) := by
  induction h with
  | nil => exact h2
  | lit hc _ ih => exact .lit hc ih
  | esc ha hb hc _ ih => exact .esc ha hb hc ih

theorem means_self : ∀ {s : Str}, 37 ∉ s → Means s s
  | [], _ => .nil
  | c :: s, h => .lit (fun e => h (by simp [e])) (means_self (fun hx => h (List.mem_cons_of_mem _ hx)))

theorem encByte_means (c : Byte) : Means (encByte c) [c] := by simpa [enc] using enc_means [c]

theorem encP_means : ∀ s : Str, Means (encP s) s
  | [] => .nil
  | c :: s => by
    have e : encP (c :: s) = (if c = 47 then [47] else encByte c) ++ encP s := rfl
    rw [e]
    have := means_append (a := if c = 47 then [47] else encByte c) (s := [c]) (by
      split
      · rename_i h; rw [h]; exact means_self (by decide)
      · exact encByte_means c) (encP_means s)
    simpa using this

theorem joinEnc_cons (c : Byte) (p : Str) (ps : List Str) (d : Str) : joinEnc ((c :: p) :: ps) d = joinEnc (p :: ps) (d ++ encByte c) := by
  have e : enc (c :: p) = encByte c ++ enc p := rfl
  cases ps with
  | nil => simp only [joinEnc, append_enc, e, List.append_assoc]
  | cons q qs => simp only [joinEnc, append_enc, e, List.append_assoc, Option.bind_some]

theorem joinEnc_split : ∀ (s d : Str), joinEnc (split 47 s) d = some (d ++ encP s)
  | [], d => by simp only [split, joinEnc, append_enc]; rfl
  | c :: s, d => by
    have e : encP (c :: s) = (if c = 47 then [47] else encByte c) ++ encP s := rfl
    have ih := fun d => joinEnc_split s d
    unfold split
    rw [e]
    rcases hs : split 47 s with _ | ⟨p, ps⟩
    · exact absurd hs (split_ne_nil 47 s)
    rw [hs] at ih
    by_cases hc : c = 47
    · rw [if_pos (by simp [hc]), if_pos hc]
      simp only [joinEnc, append_enc, Option.bind_some]
      rw [ih]
      simp [enc]
    · rw [if_neg (by simp [hc]), if_neg hc]
      simp only []
      rw [joinEnc_cons, ih, List.append_assoc]

/-! ### Splitting -/

theorem find_append {c : Byte} : ∀ {a : Str} (b : Str), c ∉ a → find c (a ++ c :: b) = some a.length
  | [], b, _ => by simp [find]
  | d :: a, b, h => by
    have hd : (d == c) = false := by
      simp only [beq_eq_false_iff_ne, ne_eq]; intro e; exact h (by simp [e])
    simp only [List.cons_append, find, hd, find_append b (fun hx => h (List.mem_cons_of_mem _ hx)), List.length_cons]
    rfl

theorem parseQuery_append {a : Str} (b : Str) (h : 63 ∉ a) : parseQuery (a ++ 63 :: b) = (a, b) := by
  unfold parseQuery
  rw [find_append b h]
  simp

theorem parseQuery_none {a : Str} (h : 63 ∉ a) : parseQuery a = (a, []) := by
  unfold parseQuery
  rw [find_none.mpr h]

theorem splitArg_append {k : Str} (v : Str) (h : 61 ∉ k) : splitArg (k ++ 61 :: v) = (k, v) := by
  unfold splitArg
  rw [find_append v h]
  simp

theorem split_append {c : Byte} : ∀ {a : Str} (b : Str), c ∉ a → split c (a ++ c :: b) = a :: split c b
  | [], b, _ => by simp [split]
  | d :: a, b, h => by
    have hd : (d == c) = false := by
      simp only [beq_eq_false_iff_ne, ne_eq]; intro e; exact h (by simp [e])
    simp only [List.cons_append, split, hd, split_append b (fun hx => h (List.mem_cons_of_mem _ hx))]
    rfl

theorem split_none {c : Byte} : ∀ {a : Str}, c ∉ a → split c a = [a]
  | [], _ => rfl
  | d :: a, h => by
    have hd : (d == c) = false := by
      simp only [beq_eq_false_iff_ne, ne_eq]; intro e; exact h (by simp [e])
    simp only [split, hd, split_none (fun hx => h (List.mem_cons_of_mem _ hx))]
    rfl

/-- A first argument and the rest of a query. -/
theorem splitQuery_cons {k v : Str} (q : Str) (h1 : 38 ∉ k) (h2 : 61 ∉ k) (h3 : 38 ∉ v) : splitQuery (k ++ 61 :: v ++ 38 :: q) = (k, v) :: splitQuery q := by
  have h : 38 ∉ k ++ 61 :: v := by simp [h1, h3]
  rw [splitQuery, split_append q h, List.map_cons, splitArg_append v h2]; rfl

theorem splitQuery_last {k v : Str} (h1 : 38 ∉ k) (h2 : 61 ∉ k) (h3 : 38 ∉ v) : splitQuery (k ++ 61 :: v) = [(k, v)] := by
  have h : 38 ∉ k ++ 61 :: v := by simp [h1, h3]
  rw [splitQuery, split_none h, List.map_cons, splitArg_append v h2]; rfl

/-! ### Numbers -/

theorem digit_char {n : Nat} (h : n < 10) : 48 ≤ ((48 : UInt8) + n.toUInt8).toNat ∧ ((48 : UInt8) + n.toUInt8).toNat ≤ 57 := by
  rcases n with _ | _ | _ | _ | _ | _ | _ | _ | _ | _ | n <;> first | decide | omega

theorem decimal_chars : ∀ (n : Nat) (x : Byte), x ∈ decimal n → 48 ≤ x.toNat ∧ x.toNat ≤ 57 := by
  intro n
  induction n using Nat.strongRecOn with
  | ind n ih =>
    intro x hx
    unfold decimal at hx
    split at hx
    · rename_i h
      rw [List.mem_singleton] at hx
      rw [hx]; exact digit_char h
    · rcases List.mem_append.mp hx with hx | hx
      · exact ih (n / 10) (by omega) x hx
      · rw [List.mem_singleton] at hx
        rw [hx]; exact digit_char (by omega)

theorem decimal_free (n : Nat) {x : Byte} (h : x.toNat < 48) : x ∉ decimal n := fun hx => by
  have := decimal_chars n x hx
  omega

theorem decimal_length : ∀ (k n : Nat), 0 < k → n < 10 ^ k → (decimal n).length ≤ k
  | 1, n, _, h => by unfold decimal; rw [if_pos (by simpa using h)]; simp
  | k + 2, n, _, h => by
    unfold decimal
    split
    · simp
    · have := decimal_length (k + 1) (n / 10) (by omega) (by
        rw [Nat.div_lt_iff_lt_mul (by decide)]
        have : 10 ^ (k + 2) = 10 ^ (k + 1) * 10 := Nat.pow_succ ..
        omega)
      simp; omega

theorem decimal_length_ge : ∀ (k n : Nat), 10 ^ k ≤ n → k < (decimal n).length
  | 0, n, _ => by unfold decimal; split <;> simp
  | k + 1, n, h => by
    have e : 10 ^ (k + 1) = 10 ^ k * 10 := Nat.pow_succ ..
    have hp : 0 < 10 ^ k := Nat.pow_pos (by decide)
    unfold decimal
    rw [if_neg (by omega)]
    have := decimal_length_ge k (n / 10) (by omega)
    simp; omega

/-- The value of a string of digits. -/
def value : Str → Nat := List.foldl (fun a c => 10 * a + (c.toNat - 48)) 0

theorem value_append (a : Str) (c : Byte) : value (a ++ [c]) = 10 * value a + (c.toNat - 48) := by simp [value]

theorem digit_value {n : Nat} (h : n < 10) : ((48 : UInt8) + n.toUInt8).toNat - 48 = n := by
  rcases n with _ | _ | _ | _ | _ | _ | _ | _ | _ | _ | n <;> first | decide | omega

theorem decimal_value : ∀ n : Nat, value (decimal n) = n := by
  intro n
  induction n using Nat.strongRecOn with
  | ind n ih =>
    unfold decimal
    split
    · rename_i h
      have := value_append [] (48 + n.toUInt8)
      rw [List.nil_append] at this
      rw [this, digit_value h]; simp [value]
    · rw [value_append, ih (n / 10) (by omega), digit_value (by omega)]; omega

theorem value_zeros (k : Nat) (s : Str) : value (List.replicate k 48 ++ s) = value s := by
  induction k with
  | zero => rfl
  | succ k ih => rw [List.replicate_succ]; exact ih

end Verif.CloudUrl
