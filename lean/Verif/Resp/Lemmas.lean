import Verif.Resp.Spec

namespace Verif.Resp

/-! ### Decimal numbers -/

theorem dec_ne (n : Nat) : dec n ≠ [] := by
  rw [dec]; split <;> simp

theorem dec_digit (n : Nat) : ∀ b ∈ dec n, 48 ≤ b ∧ b ≤ 57 := by
  induction n using Nat.strongRecOn with
  | ind n ih =>
    intro b hb
    rw [dec] at hb
    split at hb
    · simp at hb; omega
    · rename_i h
      rcases List.mem_append.1 hb with hb | hb
      · exact ih (n / 10) (by omega) b hb
      · simp at hb; omega

theorem value_append (a b : List Nat) : value (a ++ b) = b.foldl (fun a d => 10 * a + (d - 48)) (value a) := by
  simp [value, List.foldl_append]

theorem value_dec (n : Nat) : value (dec n) = n := by
  induction n using Nat.strongRecOn with
  | ind n ih =>
    rw [dec]
    split
    · simp [value]
    · rename_i h
      rw [value_append, ih (n / 10) (by omega)]
      simp
      omega

theorem dec_length (k : Nat) : ∀ n, n < 10 ^ (k + 1) → (dec n).length ≤ k + 1 := by
  induction k with
  | zero =>
    intro n h
    rw [dec, dif_pos (by omega)]
    simp
  | succ k ih =>
    intro n h
    rw [dec]
    split
    · simp
    · have := ih (n / 10) (by
        rw [Nat.pow_succ] at h
        omega)
      simp
      omega

theorem dropWhile_head {p : Nat → Bool} {l : List Nat} (h : ∀ b, l.head? = some b → p b = false) :
    l.dropWhile p = l := by
  cases l with
  | nil => rfl
  | cons a l => rw [List.dropWhile_cons, h a rfl]; rfl

theorem not_space {b : Nat} (h : 48 ≤ b ∧ b ≤ 57) : isSpace b = false := by
  unfold isSpace
  simp only [Bool.or_eq_false_iff, beq_eq_false_iff_ne, ne_eq, Bool.and_eq_false_iff, decide_eq_false_iff_not]
  omega

theorem atoi_dec (n : Nat) (h : n ≤ 9223372036854775807) : atoi (dec n) = some (n : Int) := by
  have hd := dec_digit n
  have h1 : (dec n).dropWhile isSpace = dec n := dropWhile_head (fun b hb =>
    not_space (hd b (List.mem_of_head? hb)))
  have h2 : (dec n).reverse.dropWhile isSpace = (dec n).reverse := dropWhile_head (fun b hb =>
    not_space (hd b (by
      have := List.mem_of_head? hb
      simpa using this)))
  have h3 : atoiDigits false (dec n) = some (n : Int) := by
    unfold atoiDigits
    have : ¬ (dec n = [] ∨ (dec n).all isDigit = false) := by
      rintro (e | e)
      · exact dec_ne n e
      · have : (dec n).all isDigit = true := by
          rw [List.all_eq_true]
          intro b hb
          have := hd b hb
          simp [isDigit, this]
        rw [this] at e
        cases e
    rw [if_neg this, value_dec]
    simp [h]
  unfold atoi
  rw [h1, h2, List.reverse_reverse]
  split
  · rename_i ds e
    have := hd 45 (by rw [e]; simp)
    omega
  · rename_i ds e
    have := hd 43 (by rw [e]; simp)
    omega
  · exact h3

/-! ### Headers -/

/-- `*<n>\r\n` or `$<n>\r\n`. -/
def header (b n : Nat) : List Nat := b :: dec n ++ crlf

theorem header_length (b n : Nat) : (header b n).length = (dec n).length + 3 := by
  simp [header, crlf]

theorem prefix_of_append {α : Type} {a b c d : List α} (h : a ++ b = c ++ d) (hl : a.length ≤ c.length) :
    c.take a.length = a := by
  have : (c ++ d).take a.length = a := by rw [← h]; simp
  rwa [List.take_append_of_le_length hl] at this

theorem split_append {α : Type} {a b c d : List α} (h : a ++ b = c ++ d) (hl : c.length ≤ a.length) :
    ∃ e, a = c ++ e ∧ d = e ++ b := by
  have h1 := prefix_of_append h.symm hl
  refine ⟨a.drop c.length, ?_, ?_⟩
  · have := List.take_append_drop c.length a
    rw [h1] at this
    exact this.symm
  · have := congrArg (List.drop c.length) h
    rw [List.drop_append_of_le_length hl] at this
    simpa using this.symm

theorem takeWhile_append_stop {p : Nat → Bool} {a : List Nat} {x : Nat} {b : List Nat}
    (ha : ∀ y ∈ a, p y = true) (hx : p x = false) : (a ++ x :: b).takeWhile p = a := by
  induction a with
  | nil => simp [hx]
  | cons y a ih =>
    have := ih (fun z hz => ha z (by simp [hz]))
    simp only [List.cons_append, List.takeWhile_cons, ha y (by simp), if_true, this]

theorem parseNum_ok (b n : Nat) (rest : List Nat) (hn : n ≤ 9223372036854775807) :
    parseNum (header b n ++ rest) = .ok n (header b n).length := by
  have hd := dec_digit n
  have hlen : ¬ (header b n ++ rest).length < 4 := by
    rw [List.length_append, header_length]
    have := List.length_pos_iff.2 (dec_ne n)
    omega
  have htail : (header b n ++ rest).tail = (dec n ++ [13]) ++ 10 :: rest := by simp [header, crlf]
  have hmem : 10 ∈ (dec n ++ [13]) ++ 10 :: rest := by simp
  have htw : ((dec n ++ [13]) ++ 10 :: rest).takeWhile (· ≠ 10) = dec n ++ [13] := by
    apply takeWhile_append_stop
    · intro y hy
      rcases List.mem_append.1 hy with hy | hy
      · have := hd y hy
        simp only [ne_eq, decide_not, Bool.not_eq_true', decide_eq_false_iff_not]
        omega
      · simp at hy; simp [hy]
    · simp
  unfold parseNum
  rw [if_neg hlen, htail]
  simp only [untilLF, if_pos hmem, htw]
  have h1 : ((header b n ++ rest).take 1 ++ (dec n ++ [13])).getLast? = some 13 := by
    rw [← List.append_assoc, List.getLast?_append]; rfl
  rw [h1]
  simp only [ne_eq, not_true, if_false, List.dropLast_concat]
  rw [atoi_dec n hn, header_length]
  simp

theorem parseNum_more (b n : Nat) (str fut rest : List Nat) (h : str ++ fut = header b n ++ rest)
    (hl : str.length < (header b n).length) (h32 : (header b n).length ≤ 32) (hb : b ≠ 10) :
    parseNum str = .more := by
  have hd := dec_digit n
  unfold parseNum
  split
  · rfl
  · have hp := prefix_of_append h (by omega)
    have hno : 10 ∉ str := by
      have hl' := hl
      rw [header_length] at hl'
      have : (header b n).take str.length = (b :: dec n ++ [13]).take str.length := by
        have e : header b n = (b :: dec n ++ [13]) ++ [10] := by simp [header, crlf]
        rw [e, List.take_append_of_le_length]
        simp
        omega
      rw [hp] at this
      intro hmem
      rw [this] at hmem
      have := List.mem_of_mem_take hmem
      simp only [List.cons_append, List.mem_cons, List.mem_append, List.not_mem_nil, or_false] at this
      rcases this with h | h | h
      · omega
      · have := hd 10 h; omega
      · omega
    have : 10 ∉ str.tail := fun hm => hno (List.mem_of_mem_tail hm)
    simp only [untilLF, if_neg this]
    rw [if_pos (by omega)]

/-! ### The array form -/

def datas (cur : List Arg) : List (List Nat) := cur.map (·.data)

/-- The parser is where it should be with `r` still to come. -/
inductive Inv (as : List (List Nat)) (l : L) : List Nat → Prop
  | arr (hst : l.s.st = .arrayLen) (hrem : l.s.rem = none) (hcur : l.cur = []) (hb : l.s.broken = false) :
      Inv as l (encode as)
  | arg (done todo : List (List Nat)) (has : as = done ++ todo) (hne : todo ≠ [])
      (hst : l.s.st = .parseArg) (hrem : l.s.rem = some todo.length) (hcur : datas l.cur = done)
      (hb : l.s.broken = false) : Inv as l (encArgs todo)
  | body (done : List (List Nat)) (p q : List Nat) (todo : List (List Nat))
      (has : as = done ++ (p ++ q) :: todo) (hst : l.s.st = .bulk)
      (hrem : l.s.rem = some (todo.length + 1)) (hcur : datas l.cur = done ++ [p])
      (hlen : l.s.bulkLen = q.length) (hp : l.s.broken = false → p = []) :
      Inv as l (q ++ crlf ++ encArgs todo)
  | fin (done todo : List (List Nat)) (has : as = done ++ todo) (hst : l.s.st = .finishArg)
      (hrem : l.s.rem = some (todo.length + 1)) (hcur : datas l.cur = done) (hb : l.s.broken = false) :
      Inv as l (encArgs todo)
  | comp (hst : l.s.st = .complete) (hcur : datas l.cur = as) (hb : l.s.broken = false) : Inv as l []

/-- The block of an argument copied in part has room for the rest. -/
def Safe (l : L) : Prop :=
  l.s.st = .bulk → l.s.broken = true →
    ∃ cap, (lastArg l.cur).place = .block cap ∧ (lastArg l.cur).data.length + l.s.bulkLen ≤ cap

/-- Only the buffer of the current call is pointed to. -/
def W (l : L) : Prop := ∀ a ∈ l.cur, ∀ c, a.place = .input c → c = l.s.call

/-- Arguments already cached do not point into a buffer, and the one being read is not cached. -/
structure J (l : L) : Prop where
  le : l.s.idx ≤ l.cur.length
  ni : ∀ i a, i < l.s.idx → l.cur[i]? = some a → ∀ c, a.place ≠ .input c
  lt : l.s.st = .bulk → l.s.idx < l.cur.length
  emp : ∀ a ∈ l.cur, a.data = [] → ∀ c, a.place ≠ .input c

def rank (l : L) : Nat := if l.s.st = .finishArg then 1 else 0

/-- What a turn keeps. -/
structure Keep (as : List (List Nat)) (l l' : L) : Prop where
  call : l'.s.call = l.s.call
  idx : l'.s.idx = l.s.idx
  ast : l'.s.ast = l.s.ast
  safe : Safe l → Safe l'
  w : W l → W l'
  j : J l → J l'
  short : (∀ a ∈ as, a.length ≤ 30) → l.s.broken = false → l'.s.broken = false

theorem Keep.refl (as : List (List Nat)) (l : L) : Keep as l l :=
  ⟨rfl, rfl, rfl, id, id, id, fun _ h => h⟩

theorem Keep.trans {as : List (List Nat)} {a b c : L} (h : Keep as a b) (g : Keep as b c) : Keep as a c :=
  ⟨g.call.trans h.call, g.idx.trans h.idx, g.ast.trans h.ast, g.safe ∘ h.safe, g.w ∘ h.w, g.j ∘ h.j,
    fun s e => g.short s (h.short s e)⟩

/-- The states in which a call may stop for more input. -/
def Rest (st : PS) : Prop := st = .arrayLen ∨ st = .parseArg ∨ st = .bulk

/-- One turn. -/
def Good (as : List (List Nat)) (l : L) (str fut tail : List Nat) (o : Status × Nat × L) : Prop :=
  ∃ r', Inv as o.2.2 r' ∧ Keep as l o.2.2 ∧ str.drop o.2.1 ++ fut = r' ++ tail ∧ o.2.1 ≤ str.length ∧
    ((o.1 = .ok ∧ 2 * (str.drop o.2.1).length + rank o.2.2 < 2 * str.length + rank l) ∨
     (o.1 = .more ∧ Rest o.2.2.s.st ∧ (str.drop o.2.1).length < r'.length ∧
       (o.2.2.s.st = .bulk → (str.drop o.2.1).length < o.2.2.s.bulkLen + 2)))

theorem setLast_length {cur : List Arg} {a : Arg} (h : 0 < cur.length) : (setLast cur a).length = cur.length := by
  simp [setLast]; omega

theorem setLast_get {cur : List Arg} {a : Arg} {i : Nat} (h : i + 1 < cur.length) :
    (setLast cur a)[i]? = cur[i]? := by
  unfold setLast
  rw [List.getElem?_append_left (by simp; omega), List.getElem?_dropLast, if_pos (by omega)]

theorem mem_setLast {cur : List Arg} {a b : Arg} (h : b ∈ setLast cur a) : b ∈ cur ∨ b = a := by
  unfold setLast at h
  rcases List.mem_append.1 h with h | h
  · exact .inl (List.dropLast_subset _ h)
  · right; simpa using h

theorem datas_setLast {cur : List Arg} {a : Arg} {done : List (List Nat)} {p : List Nat}
    (h : datas cur = done ++ [p]) : datas (setLast cur a) = done ++ [a.data] := by
  unfold datas setLast at *
  rw [List.map_append, List.map_dropLast, h]
  simp

theorem lastArg_data {cur : List Arg} {done : List (List Nat)} {p : List Nat}
    (h : datas cur = done ++ [p]) : (lastArg cur).data = p := by
  have h1 : (datas cur).getLast? = some p := by rw [h]; simp
  unfold datas at h1
  rw [List.getLast?_map] at h1
  unfold lastArg
  cases hc : cur.getLast? with
  | none => rw [hc] at h1; simp at h1
  | some a => rw [hc] at h1; simpa using h1

theorem lastArg_setLast {cur : List Arg} {a : Arg} : lastArg (setLast cur a) = a := by
  simp [lastArg, setLast]

theorem cur_pos {cur : List Arg} {done : List (List Nat)} {p : List Nat}
    (h : datas cur = done ++ [p]) : 0 < cur.length := by
  have := congrArg List.length h
  simp [datas] at this
  omega

/-- Replacing the last argument keeps the invariants about places. -/
theorem setLast_J {l : L} (h : J l) (hb : l.s.st = .bulk) {s' : S} (hi : s'.idx = l.s.idx) (a : Arg)
    (hp : 0 < l.cur.length) (ha : a.data = [] → ∀ c, a.place ≠ .input c) : J ⟨s', setLast l.cur a⟩ := by
  have := h.lt hb
  refine ⟨?_, ?_, ?_, ?_⟩
  · dsimp only; rw [hi, setLast_length hp]; exact h.le
  · dsimp only
    intro i b hlt hg
    rw [hi] at hlt
    rw [setLast_get (by omega)] at hg
    exact h.ni i b hlt hg
  · dsimp only; intro _; rw [hi, setLast_length hp]; exact this
  · intro b hb'
    rcases mem_setLast hb' with hb' | hb'
    · exact h.emp b hb'
    · rw [hb']; exact ha

theorem turn_arr {as : List (List Nat)} (ha : Allowed as) {l : L} {str fut tail : List Nat}
    (hst : l.s.st = .arrayLen) (hrem : l.s.rem = none) (hcur : l.cur = []) (hb : l.s.broken = false)
    (h : str ++ fut = encode as ++ tail) : Good as l str fut tail (arrayLen l str) := by
  have he : encode as = header 42 as.length ++ encArgs as := by simp [encode, header]
  have hd := dec_length 3 as.length (by have := ha.2.1; unfold maxArray at this; omega)
  have hl := header_length 42 as.length
  rw [he, List.append_assoc] at h
  by_cases hlen : str.length < (header 42 as.length).length
  · have := parseNum_more 42 as.length str fut _ h hlen (by omega) (by omega)
    simp only [arrayLen, this]
    refine ⟨encode as, .arr hst hrem hcur hb, .refl _ _, ?_, by simp, .inr ⟨rfl, .inl hst, ?_, ?_⟩⟩
    · rw [he]; simpa using h
    · rw [he]; simp; omega
    · simp [hst]
  · obtain ⟨rest, rfl, h2⟩ := split_append h (by omega)
    have hv := ha.2.1
    have hv0 := ha.1
    unfold maxArray at hv
    have := parseNum_ok 42 as.length rest (by omega)
    simp only [arrayLen, this, hrem, hcur]
    rw [if_neg (by unfold maxArray; omega), if_neg (by simp), if_neg (by simp), if_neg (by omega)]
    have hdrop : (header 42 as.length ++ rest).drop (header 42 as.length).length = rest := by simp
    refine ⟨encArgs as, .arg [] as rfl (by intro e; rw [e] at hv0; simp at hv0) rfl (by simp) (by simp [datas]) hb,
      ⟨rfl, rfl, rfl, ?_, ?_, ?_, fun _ h => h⟩, ?_, by simp, .inl ⟨rfl, ?_⟩⟩
    · intro _ e; simp at e
    · intro hw a ha' c; simp at ha'
    · intro hj
      have hle := hj.le
      rw [hcur] at hle
      refine ⟨hle, ?_, ?_, ?_⟩
      · intro i a _ e; simp at e
      · intro e; simp at e
      · intro a e; simp at e
    · dsimp only; rw [hdrop]; exact h2.symm
    · dsimp only; rw [hdrop]; simp [rank, hst]; omega

theorem turn_arg {as : List (List Nat)} (ha : Allowed as) {l : L} {str fut tail : List Nat}
    (done todo : List (List Nat)) (has : as = done ++ todo) (hne : todo ≠ [])
    (hst : l.s.st = .parseArg) (hrem : l.s.rem = some todo.length) (hcur : datas l.cur = done)
    (hb : l.s.broken = false)
    (h : str ++ fut = encArgs todo ++ tail) : Good as l str fut tail (parseArg l str) := by
  obtain ⟨a, todo', rfl⟩ : ∃ a todo', todo = a :: todo' := by
    cases todo with
    | nil => exact absurd rfl hne
    | cons a b => exact ⟨a, b, rfl⟩
  have he : encArgs (a :: todo') = header 36 a.length ++ (a ++ crlf ++ encArgs todo') := by
    simp [encArgs, encBulk, header]
  have hal : a.length ≤ 67108864 := ha.2.2 a (by rw [has]; simp)
  have hd := dec_length 7 a.length (by omega)
  have hd0 := List.length_pos_iff.2 (dec_ne a.length)
  have hl := header_length 36 a.length
  have h' := h
  rw [he, List.append_assoc] at h'
  by_cases hlen : str.length < (header 36 a.length).length
  · have hm := parseNum_more 36 a.length str fut _ h' hlen (by omega) (by omega)
    have : parseArg l str = (.more, 0, l) := by
      unfold parseArg
      by_cases h4 : str.length < 4
      · rw [if_pos h4]
      · rw [if_neg h4]
        have hp := prefix_of_append h' (by omega)
        have hh : str.head? = some 36 := by
          rw [← hp]
          cases hs : str with
          | nil => rw [hs] at h4; simp at h4
          | cons b c => simp [header]
        rw [if_pos hh]
        simp only [hm]
    rw [this]
    refine ⟨encArgs (a :: todo'), .arg done _ has hne hst hrem hcur hb, .refl _ _, by simpa using h, by simp,
      .inr ⟨rfl, .inr (.inl hst), ?_, ?_⟩⟩
    · rw [he]; simp; omega
    · simp [hst]
  · obtain ⟨rest, rfl, h2⟩ := split_append h' (by omega)
    have hok := parseNum_ok 36 a.length rest (by omega)
    have hh : (header 36 a.length ++ rest).head? = some 36 := by simp [header]
    have h4 : ¬ (header 36 a.length ++ rest).length < 4 := by rw [List.length_append]; omega
    unfold parseArg
    rw [if_neg h4, if_pos hh]
    simp only [hok]
    rw [if_neg (by unfold maxBulk; omega), if_neg (by omega)]
    have hdrop : (header 36 a.length ++ rest).drop (header 36 a.length).length = rest := by simp
    refine ⟨[] ++ a ++ crlf ++ encArgs todo', .body done [] a todo' has rfl ?_ ?_ ?_ ?_,
      ⟨rfl, rfl, rfl, ?_, ?_, ?_, fun _ h => h⟩, ?_, by simp, .inl ⟨rfl, ?_⟩⟩
    · dsimp only; rw [hrem]; rfl
    · dsimp only; unfold datas at *; rw [List.map_append, hcur]; rfl
    · simp
    · intro _; rfl
    · intro _ _ e; dsimp only at e; rw [hb] at e; cases e
    · intro hw b hb' c hc
      dsimp only at hb'
      rcases List.mem_append.1 hb' with hb' | hb'
      · exact hw b hb' c hc
      · simp at hb'; rw [hb'] at hc; cases hc
    · intro hj
      have hle := hj.le
      refine ⟨by simp; omega, ?_, by intro _; simp; omega, ?_⟩
      · intro i b hi hg
        dsimp only at hi hg
        rw [List.getElem?_append_left (by omega)] at hg
        exact hj.ni i b hi hg
      · intro b hb'
        dsimp only at hb'
        rcases List.mem_append.1 hb' with hb' | hb'
        · exact hj.emp b hb'
        · simp at hb'; rw [hb']; intro _ c e; cases e
    · dsimp only; rw [hdrop, ← h2]; simp
    · dsimp only; rw [hdrop]; simp [rank, hst]; omega

theorem turn_body {as : List (List Nat)} {l : L} {str fut tail : List Nat}
    (done : List (List Nat)) (p q : List Nat) (todo : List (List Nat))
    (has : as = done ++ (p ++ q) :: todo) (hst : l.s.st = .bulk)
    (hrem : l.s.rem = some (todo.length + 1)) (hcur : datas l.cur = done ++ [p])
    (hlen : l.s.bulkLen = q.length) (hp : l.s.broken = false → p = [])
    (h : str ++ fut = q ++ crlf ++ encArgs todo ++ tail) :
    (consumeBulk l str = none ∧ ¬ Safe l) ∨
      ∃ o, consumeBulk l str = some o ∧ Good as l str fut tail o := by
  have hpos := cur_pos hcur
  have hld := lastArg_data hcur
  have hext : ∀ bs : List Nat, bs.length ≤ q.length → l.s.broken = true →
      (extend (lastArg l.cur) bs = none ∧ ¬ Safe l) ∨
      ∃ cap, extend (lastArg l.cur) bs = some ⟨p ++ bs, .block cap⟩ ∧
        (Safe l → p.length + q.length ≤ cap) := by
    intro bs hbs hbr
    unfold extend
    cases hpl : (lastArg l.cur).place with
    | nowhere =>
      left; refine ⟨rfl, fun hs => ?_⟩
      obtain ⟨cap, e, _⟩ := hs hst hbr
      rw [hpl] at e; cases e
    | input c =>
      left; refine ⟨rfl, fun hs => ?_⟩
      obtain ⟨cap, e, _⟩ := hs hst hbr
      rw [hpl] at e; cases e
    | block cap =>
      dsimp only
      rw [hld]
      by_cases hf : p.length + bs.length ≤ cap
      · right
        refine ⟨cap, by rw [if_pos hf], ?_⟩
        intro hs
        obtain ⟨cap', e, e2⟩ := hs hst hbr
        rw [hpl] at e
        cases e
        rw [hld, hlen] at e2
        exact e2
      · left
        refine ⟨by rw [if_neg hf], fun hs => ?_⟩
        obtain ⟨cap', e, e2⟩ := hs hst hbr
        rw [hpl] at e
        cases e
        rw [hld, hlen] at e2
        omega
  unfold consumeBulk
  dsimp only
  rw [hlen]
  by_cases hfull : str.length ≥ q.length + 2
  · rw [if_pos hfull]
    have h' : str ++ fut = (q ++ crlf) ++ (encArgs todo ++ tail) := by simpa using h
    obtain ⟨rest, rfl, h2⟩ := split_append h' (by simp [crlf]; omega)
    have e1 : (q ++ crlf ++ rest)[q.length]? = some 13 := by simp [crlf]
    have e2 : (q ++ crlf ++ rest)[q.length + 1]? = some 10 := by simp [crlf]
    rw [e1, e2]
    rw [if_neg (by simp)]
    have htake : (q ++ crlf ++ rest).take q.length = q := by simp
    have hdrop : (q ++ crlf ++ rest).drop (q.length + 2) = rest := by
      rw [List.drop_append_of_le_length (by simp [crlf]), List.drop_of_length_le (by simp [crlf])]
      rfl
    have fin : ∀ cur', datas cur' = done ++ [p ++ q] → (W l → W ⟨l.s, cur'⟩) →
        (J l → ∀ s' : S, s'.idx = l.s.idx → s'.st = .finishArg → J ⟨s', cur'⟩) →
        Good as l (q ++ crlf ++ rest) fut tail
          (.ok, q.length + 2, ⟨{ l.s with broken := false, st := .finishArg, bulkLen := 0 }, cur'⟩) := by
      intro cur' hc hw hj
      refine ⟨encArgs todo, .fin (done ++ [p ++ q]) todo (by rw [has]; simp) rfl hrem hc rfl,
        ⟨rfl, rfl, rfl, ?_, hw, ?_, fun _ _ => rfl⟩, ?_, ?_, .inl ⟨rfl, ?_⟩⟩
      · intro _ e; simp at e
      · intro hj'; exact hj hj' _ rfl rfl
      · dsimp only; rw [hdrop, h2]
      · simp [crlf]
      · dsimp only; rw [hdrop]; simp [rank, hst, crlf]; omega
    by_cases hq : q.length = 0
    · rw [if_pos hq]
      have hq0 : q = [] := List.length_eq_zero_iff.1 hq
      right
      refine ⟨_, rfl, fin l.cur (by rw [hcur, hq0]; simp) (fun h => h) ?_⟩
      intro hj s' hi hs
      exact ⟨by dsimp only; rw [hi]; exact hj.le, by dsimp only; rw [hi]; exact hj.ni, (by dsimp only; rw [hs]; intro e; cases e), hj.emp⟩
    · rw [if_neg hq, htake]
      by_cases hbr : l.s.broken = true
      · rw [if_pos hbr]
        rcases hext q (by omega) hbr with ⟨e, ns⟩ | ⟨cap, e, _⟩
        · left; rw [e]; exact ⟨rfl, ns⟩
        · right
          rw [e]
          refine ⟨_, rfl, fin _ (datas_setLast hcur) ?_ ?_⟩
          · intro hw a ha c hc
            rcases mem_setLast ha with ha | ha
            · exact hw a ha c hc
            · rw [ha] at hc; cases hc
          · intro hj s' hi _; exact setLast_J hj hst hi _ hpos (fun _ c e => by cases e)
      · rw [if_neg hbr]
        right
        have hp0 := hp (by simpa using hbr)
        refine ⟨_, rfl, fin _ (by rw [datas_setLast hcur, hp0]; rfl) ?_ ?_⟩
        · intro hw a ha c hc
          rcases mem_setLast ha with ha | ha
          · exact hw a ha c hc
          · rw [ha] at hc; cases hc; rfl
        · intro hj s' hi _
          exact setLast_J hj hst hi _ hpos (fun e => absurd (congrArg List.length e) hq)
  · rw [if_neg hfull]
    have h' : str ++ fut = q ++ (crlf ++ encArgs todo ++ tail) := by simpa using h
    have part : ∀ (cur' : List Arg) (s' : S) (len : Nat), len ≤ q.length → len ≤ str.length → s'.st = .bulk → s'.rem = l.s.rem →
        s'.bulkLen = q.length - len → s'.call = l.s.call → s'.idx = l.s.idx → s'.ast = l.s.ast →
        datas cur' = done ++ [p ++ str.take len] → (s'.broken = false → p ++ str.take len = []) →
        (Safe l → Safe ⟨s', cur'⟩) → (W l → W ⟨s', cur'⟩) → (J l → J ⟨s', cur'⟩) →
        ((∀ a ∈ as, a.length ≤ 30) → l.s.broken = false → s'.broken = false) →
        Good as l str fut tail (.more, len, ⟨s', cur'⟩) := by
      intro cur' s' len hl1 hl2 k1 k2 k3 k4 k5 k6 k7 k8 k9 k10 k11 k12
      have hpre : str.take len = q.take len := by
        have := congrArg (List.take len) h'
        rwa [List.take_append_of_le_length hl2, List.take_append_of_le_length hl1] at this
      have hsp : as = done ++ ((p ++ str.take len) ++ q.drop len) :: todo := by
        rw [has, hpre, List.append_assoc, List.take_append_drop]
      refine ⟨q.drop len ++ crlf ++ encArgs todo, .body done _ _ todo hsp k1 (k2.trans hrem) k7 (by simp [k3]) k8,
        ⟨k4, k5, k6, k9, k10, k11, k12⟩, ?_, hl2, .inr ⟨rfl, .inr (.inr k1), ?_, ?_⟩⟩
      · dsimp only
        have := congrArg (List.drop len) h'
        rw [List.drop_append_of_le_length hl2, List.drop_append_of_le_length hl1] at this
        rw [this]; simp
      · simp [crlf]; omega
      · intro _; simp [k3]; omega
    by_cases h32 : str.length ≥ 32
    · rw [if_pos h32]
      have hm : (str.take (min str.length q.length)).length ≤ q.length := by simp; omega
      by_cases hbr : l.s.broken = true
      · rw [if_pos hbr]
        rcases hext (str.take (min str.length q.length)) hm hbr with ⟨e, ns⟩ | ⟨cap, e, hcap⟩
        · left; rw [e]; exact ⟨rfl, ns⟩
        · right
          rw [e]
          refine ⟨_, rfl, part _ _ _ (by omega) (by omega) hst rfl rfl rfl rfl rfl (datas_setLast hcur) ?_ ?_ ?_ ?_ ?_⟩
          · intro e'; dsimp only at e'; rw [hbr] at e'; cases e'
          · intro hs _ _
            refine ⟨cap, by rw [lastArg_setLast], ?_⟩
            have := hcap hs
            rw [lastArg_setLast]
            simp
            omega
          · intro hw a ha c hc
            rcases mem_setLast ha with ha | ha
            · exact hw a ha c hc
            · rw [ha] at hc; cases hc
          · intro hj; refine setLast_J hj hst ?_ _ hpos (fun _ c e => by cases e); rfl
          · intro _ e'; rw [hbr] at e'; cases e'
      · rw [if_neg hbr]
        right
        have hp0 := hp (by simpa using hbr)
        refine ⟨_, rfl, part _ _ _ (by omega) (by omega) hst rfl rfl rfl rfl rfl
          (by rw [datas_setLast hcur, hp0]; rfl) ?_ ?_ ?_ ?_ ?_⟩
        · intro e'; cases e'
        · intro hs _ _
          refine ⟨q.length, by rw [lastArg_setLast], ?_⟩
          rw [lastArg_setLast]
          simp
          omega
        · intro hw a ha c hc
          rcases mem_setLast ha with ha | ha
          · exact hw a ha c hc
          · rw [ha] at hc; cases hc
        · intro hj; refine setLast_J hj hst ?_ _ hpos (fun _ c e => by cases e); rfl
        · intro hsh _
          have := hsh (p ++ q) (by rw [has]; simp)
          simp at this
          omega
    · rw [if_neg h32]
      right
      refine ⟨_, rfl, part l.cur l.s 0 (by omega) (by omega) hst rfl (by simpa using hlen) rfl rfl rfl (by simpa using hcur) ?_
        (fun h => h) (fun h => h) (fun h => h) (fun _ h => h)⟩
      intro e; simpa using hp e

theorem turn_fin {as : List (List Nat)} {l : L} {str fut tail : List Nat}
    (done todo : List (List Nat)) (has : as = done ++ todo) (hst : l.s.st = .finishArg)
    (hrem : l.s.rem = some (todo.length + 1)) (hcur : datas l.cur = done) (hb : l.s.broken = false)
    (h : str ++ fut = encArgs todo ++ tail) : Good as l str fut tail (.ok, 0, finishArg l) := by
  unfold finishArg
  rw [hrem]
  dsimp only
  by_cases ht : todo = []
  · subst ht
    rw [if_neg (by simp)]
    refine ⟨[], .comp rfl (by rw [has]; simpa using hcur) hb, ⟨rfl, rfl, rfl, ?_, fun h => h, ?_, fun _ h => h⟩, ?_, by simp, .inl ⟨rfl, ?_⟩⟩
    · intro _ e; simp at e
    · intro hj; exact ⟨hj.le, hj.ni, by intro e; simp at e, hj.emp⟩
    · simpa [encArgs] using h
    · simp [rank, hst]
  · have htl := List.length_pos_iff.2 ht
    rw [if_pos (by omega)]
    refine ⟨encArgs todo, .arg done todo has ht rfl (by simp) hcur hb, ⟨rfl, rfl, rfl, ?_, fun h => h, ?_, fun _ h => h⟩, by simpa using h, by simp, .inl ⟨rfl, ?_⟩⟩
    · intro _ e; simp at e
    · intro hj; exact ⟨hj.le, hj.ni, by intro e; simp at e, hj.emp⟩
    · simp [rank, hst]

theorem turn_good {as : List (List Nat)} (ha : Allowed as) {l : L} {r str fut tail : List Nat}
    (hi : Inv as l r) (hc : l.s.st ≠ .complete) (h : str ++ fut = r ++ tail) :
    (turn l str = none ∧ ¬ Safe l) ∨ ∃ o, turn l str = some o ∧ Good as l str fut tail o := by
  unfold turn
  cases hi with
  | arr hst hrem hcur hb => right; rw [hst]; exact ⟨_, rfl, turn_arr ha hst hrem hcur hb h⟩
  | arg done todo has hne hst hrem hcur hb =>
    right; rw [hst]; exact ⟨_, rfl, turn_arg ha done todo has hne hst hrem hcur hb h⟩
  | body done p q todo has hst hrem hcur hlen hp =>
    rw [hst]; exact turn_body done p q todo has hst hrem hcur hlen hp h
  | fin done todo has hst hrem hcur hb =>
    right; rw [hst]; exact ⟨_, rfl, turn_fin done todo has hst hrem hcur hb h⟩
  | comp hst _ _ => exact absurd hst hc

/-- What the loop leaves. -/
def Done (as : List (List Nat)) (l : L) (str fut tail : List Nat) (c : Nat) (o : Status × Nat × L) : Prop :=
  ∃ n r', o.2.1 = c + n ∧ Inv as o.2.2 r' ∧ Keep as l o.2.2 ∧ str.drop n ++ fut = r' ++ tail ∧ n ≤ str.length ∧
    ((o.1 = .ok ∧ o.2.2.s.st = .complete) ∨
     (o.1 = .more ∧ Rest o.2.2.s.st ∧ (str.drop n).length < r'.length ∧
       (o.2.2.s.st = .bulk → (str.drop n).length < o.2.2.s.bulkLen + 2)))

theorem loop_good {as : List (List Nat)} (ha : Allowed as) : ∀ (fuel : Nat) (l : L) (r str fut tail : List Nat) (c : Nat),
    Inv as l r → str ++ fut = r ++ tail → 2 * str.length + rank l < fuel →
    (loop fuel l str c = none ∧ ¬ Safe l) ∨
      ∃ o, loop fuel l str c = some o ∧ Done as l str fut tail c o := by
  intro fuel
  induction fuel with
  | zero => intro l r str fut tail c _ _ h; omega
  | succ fuel ih =>
    intro l r str fut tail c hi h hf
    unfold loop
    by_cases hc : l.s.st = .complete
    · rw [if_pos hc]
      right
      refine ⟨_, rfl, 0, r, rfl, hi, .refl _ _, by simpa using h, by simp, .inl ⟨rfl, hc⟩⟩
    · rw [if_neg hc]
      rcases turn_good ha hi hc h with ⟨e, ns⟩ | ⟨⟨e, n, l'⟩, ht, r', hi', hk, h', hn, hcase⟩
      · left; rw [e]; exact ⟨rfl, ns⟩
      · rw [ht]
        dsimp only at *
        rcases hcase with ⟨he, hm⟩ | ⟨he, hm⟩
        · rw [if_pos he]
          rcases ih l' r' (str.drop n) fut tail (c + n) hi' h' (by omega) with ⟨e2, ns⟩ | ⟨o, ho, n2, r2, e2, i2, k2, f2, m2, c2⟩
          · left; exact ⟨e2, fun hs => ns (hk.safe hs)⟩
          · right
            refine ⟨o, ho, n + n2, r2, by omega, i2, hk.trans k2, ?_, ?_, ?_⟩
            · rw [← List.drop_drop]; exact f2
            · simp only [List.length_drop] at m2; omega
            · rw [← List.drop_drop]; exact c2
        · rw [if_neg (by rw [he]; decide)]
          right
          exact ⟨_, rfl, n, r', rfl, hi', hk, h', hn, .inr ⟨he, hm⟩⟩

/-! ### Calls -/

/-- The vector a call starts with. -/
def startL (s : S) : L := ⟨s, s.ast.getD []⟩

/-- Between two calls. -/
def Between (as : List (List Nat)) (s : S) (r : List Nat) : Prop :=
  (Ready s ∧ r = encode as) ∨ (Rest s.st ∧ Inv as (startL s) r)

def fresh (s : S) : Prop := s.st = .start ∨ s.st = .complete

/-- Nothing cached points into a buffer. -/
def NI (s : S) : Prop := fresh s ∨ ∀ a ∈ s.ast.getD [], ∀ c, a.place ≠ .input c

def JB (s : S) : Prop := fresh s ∨ (J (startL s) ∧ ∀ a ∈ s.ast.getD [], ∀ c, a.place ≠ .input c)

def SafeB (s : S) : Prop := fresh s ∨ Safe (startL s)

theorem rest_not_fresh {s : S} (h : Rest s.st) : ¬ fresh s := by
  rcases h with h | h | h <;> simp [fresh, h]

theorem cacheState_fields (l : L) : (cacheState l).st = l.s.st ∧ (cacheState l).broken = l.s.broken ∧
    (cacheState l).rem = l.s.rem ∧ (cacheState l).bulkLen = l.s.bulkLen ∧ (cacheState l).call = l.s.call := by
  unfold cacheState
  split <;> simp

theorem cacheState_cur (l : L) : (cacheState l).ast.getD [] =
    l.cur.take l.s.idx ++ (l.cur.drop l.s.idx).map cacheArg := by
  unfold cacheState
  split
  · rename_i h; simp [h.1]
  · simp

theorem cacheArg_data (a : Arg) : (cacheArg a).data = a.data := by unfold cacheArg; split <;> rfl

theorem cacheState_datas (l : L) : datas ((cacheState l).ast.getD []) = datas l.cur := by
  rw [cacheState_cur]
  unfold datas
  rw [List.map_append, List.map_map]
  have : (fun x : Arg => x.data) ∘ cacheArg = fun x => x.data := by
    funext a; exact cacheArg_data a
  rw [this, ← List.map_append, List.take_append_drop]

theorem cacheState_inv {as : List (List Nat)} {l : L} {r : List Nat} (h : Inv as l r) (hr : Rest l.s.st) :
    Inv as (startL (cacheState l)) r := by
  obtain ⟨f1, f2, f3, f4, f5⟩ := cacheState_fields l
  have hd := cacheState_datas l
  cases h with
  | arr hst hrem hcur hb =>
    refine .arr (f1.trans hst) (f3.trans hrem) ?_ (f2.trans hb)
    show (cacheState l).ast.getD [] = []
    rw [cacheState_cur, hcur]; simp
  | arg done todo has hne hst hrem hcur hb =>
    exact .arg done todo has hne (f1.trans hst) (f3.trans hrem) (hd.trans hcur) (f2.trans hb)
  | body done p q todo has hst hrem hcur hlen hp =>
    refine .body done p q todo has (f1.trans hst) (f3.trans hrem) (hd.trans hcur) (f4.trans hlen) ?_
    intro e; exact hp (f2.symm.trans e)
  | fin _ _ _ hst => rw [hst] at hr; rcases hr with h | h | h <;> cases h
  | comp hst => rw [hst] at hr; rcases hr with h | h | h <;> cases h

/-- What one call gives. -/
def CallOk (as : List (List Nat)) (s : S) (str fut tail : List Nat) (o : Out) : Prop :=
  o.s.call = s.call + 1 ∧
  ((o.status = .ok ∧ Ready o.s ∧ datas o.args = as ∧ str.drop o.consumed ++ fut = tail ∧
      (NI s → ∀ a ∈ o.args, valid o.s.call a = true)) ∨
   (o.status = .more ∧ ∃ r', Between as o.s r' ∧ str.drop o.consumed ++ fut = r' ++ tail ∧
      (str.drop o.consumed).length < r'.length ∧
      ((∀ a ∈ as, a.length ≤ 30) → s.broken = false → o.s.broken = false) ∧
      (o.s.st ≠ .bulk → o.s.broken = false) ∧
      (JB s → NI o.s ∧ (o.s.st ≠ .bulk → JB o.s)) ∧
      (o.s.st = .bulk → (str.drop o.consumed).length < o.s.bulkLen + 2)))

/-- What `CacheState` leaves does not point into a buffer. -/
theorem cacheState_ni {l : L} (h : J l) : ∀ a ∈ (cacheState l).ast.getD [], ∀ c, a.place ≠ .input c := by
  intro a ha c
  rw [cacheState_cur] at ha
  rcases List.mem_append.1 ha with ha | ha
  · obtain ⟨i, hi, e⟩ := List.getElem_of_mem ha
    simp only [List.length_take] at hi
    exact h.ni i a (by omega) (by
      rw [List.getElem_take] at e
      rw [← e]
      exact List.getElem?_eq_getElem (by omega)) c
  · obtain ⟨b, hb, rfl⟩ := List.mem_map.1 ha
    have hb' := List.mem_of_mem_drop hb
    unfold cacheArg
    split
    · rename_i he; exact h.emp b hb' he c
    · intro e; cases e

theorem cacheState_idx (l : L) (h : J l) : (cacheState l).idx ≤ ((cacheState l).ast.getD []).length := by
  rw [cacheState_cur]
  unfold cacheState
  have := h.le
  split
  · rename_i e; rw [e.1] at this ⊢; simp at *; exact this
  · simp; omega

theorem inv_not_bulk {as : List (List Nat)} {l : L} {r : List Nat} (h : Inv as l r) (hb : l.s.st ≠ .bulk) :
    l.s.broken = false := by
  cases h with
  | arr _ _ _ hb => exact hb
  | arg _ _ _ _ _ _ _ hb => exact hb
  | body _ _ _ _ _ hst => exact absurd hst hb
  | fin _ _ _ _ _ _ hb => exact hb
  | comp _ _ hb => exact hb

theorem inv_pos {as : List (List Nat)} {l : L} {r : List Nat} (h : Inv as l r) (hr : Rest l.s.st) :
    1 < r.length := by
  cases h with
  | arr _ _ _ hb => simp [encode, crlf]; omega
  | arg _ todo _ hne =>
    cases todo with
    | nil => exact absurd rfl hne
    | cons a t => simp [encArgs, encBulk, crlf]; omega
  | body _ _ _ _ _ hst => simp [crlf]; omega
  | fin _ _ _ hst => rw [hst] at hr; rcases hr with h | h | h <;> cases h
  | comp hst => rw [hst] at hr; rcases hr with h | h | h <;> cases h

theorem parse_good {as : List (List Nat)} (ha : Allowed as) {s : S} {r str fut tail : List Nat}
    (hb : Between as s r) (h : str ++ fut = r ++ tail) :
    (parse s str = none ∧ ¬ SafeB s) ∨ ∃ o, parse s str = some o ∧ CallOk as s str fut tail o := by
  have hrl : 1 < r.length := by
    rcases hb with ⟨_, rfl⟩ | ⟨hr, hi⟩
    · simp [encode, crlf]; omega
    · exact inv_pos hi hr
  by_cases hlen : str.length < 2
  · right
    have hp : parse s str = some ⟨.more, 0, [], { s with call := s.call + 1 }⟩ := by
      unfold parse
      match str, hlen with
      | [], _ => rfl
      | [b], _ => rfl
      | b :: c :: t, hl => simp at hl; omega
    refine ⟨_, hp, rfl, .inr ⟨rfl, r, ?_, by simpa using h, by simp; omega, fun _ h => h, ?_, ?_, ?_⟩⟩
    · rcases hb with hb | ⟨hr, hi⟩
      · exact .inl hb
      · refine .inr ⟨hr, ?_⟩
        cases hi with
        | arr h1 h2 h3 h4 => exact .arr h1 h2 h3 h4
        | arg a b h1 h2 h3 h4 h5 h6 => exact .arg a b h1 h2 h3 h4 h5 h6
        | body a b c d h1 h2 h3 h4 h5 h6 => exact .body a b c d h1 h2 h3 h4 h5 h6
        | fin a b h1 h2 h3 h4 h5 => exact .fin a b h1 h2 h3 h4 h5
        | comp h1 h2 h3 => exact .comp h1 h2 h3
    · intro hn
      rcases hb with ⟨hb, _⟩ | ⟨hr, hi⟩
      · exact hb.2
      · exact inv_not_bulk hi hn
    · intro hj
      rcases hj with hj | ⟨hj, hn⟩
      · exact ⟨.inl hj, fun _ => .inl hj⟩
      · exact ⟨.inr hn, fun _ => .inr ⟨⟨hj.le, hj.ni, hj.lt, hj.emp⟩, hn⟩⟩
    · intro _; simp; omega
  · obtain ⟨b, c, t, rfl⟩ : ∃ b c t, str = b :: c :: t := by
      match str, hlen with
      | [], hl => simp at hl
      | [b], hl => simp at hl
      | b :: c :: t, _ => exact ⟨b, c, t, rfl⟩
    -- the state the loop starts in
    have key : ∃ l : L, Inv as l r ∧ l.s.call = s.call + 1 ∧ rank l = 0 ∧ (SafeB s → Safe l) ∧ (NI s → W l) ∧ (JB s → J l) ∧
        (s.broken = false → l.s.broken = false) ∧
        parse s (b :: c :: t) = finish (loop (2 * (b :: c :: t).length + 4) l (b :: c :: t) 0) := by
      rcases hb with ⟨hrd, rfl⟩ | ⟨hr, hi⟩
      · have hb42 : b = 42 := by
          have := congrArg List.head? h
          simpa [encode] using this
        subst hb42
        refine ⟨⟨{ s with call := s.call + 1, ast := none, rem := none, idx := 0, st := .arrayLen }, []⟩,
          .arr rfl rfl rfl hrd.2, rfl, rfl, ?_, ?_, ?_, fun h => h, ?_⟩
        · intro _ e; cases e
        · intro _ a ha; simp at ha
        · intro _; exact ⟨by simp, by intro i a hi; simp at hi, (by intro e; cases e), by intro a ha; simp at ha⟩
        · unfold parse
          rcases hrd.1 with e | e <;> simp [e, initStart]
      · have hnf := rest_not_fresh hr
        have h1 : s.st ≠ .complete := fun e => hnf (.inr e)
        have h2 : s.st ≠ .start := fun e => hnf (.inl e)
        refine ⟨⟨{ s with call := s.call + 1 }, s.ast.getD []⟩, ?_, rfl, ?_, ?_, ?_, ?_, fun h => h, ?_⟩
        · cases hi with
          | arr h1 h2 h3 h4 => exact .arr h1 h2 h3 h4
          | arg a b h1 h2 h3 h4 h5 h6 => exact .arg a b h1 h2 h3 h4 h5 h6
          | body a b c d h1 h2 h3 h4 h5 h6 => exact .body a b c d h1 h2 h3 h4 h5 h6
          | fin a b h1 h2 h3 h4 h5 => exact .fin a b h1 h2 h3 h4 h5
          | comp h1 h2 h3 => exact .comp h1 h2 h3
        · unfold rank; rcases hr with e | e | e <;> simp [e]
        · rintro (hs | hs)
          · exact absurd hs hnf
          · exact hs
        · rintro (hs | hs)
          · exact absurd hs hnf
          · intro a ha c hc; exact absurd hc (hs a ha c)
        · rintro (hs | hs)
          · exact absurd hs hnf
          · exact ⟨hs.1.le, hs.1.ni, hs.1.lt, hs.1.emp⟩
        · unfold parse
          simp [h1, h2]
    obtain ⟨l, hi, hcall, hrk, k1, k2, k3, k4, hparse⟩ := key
    rcases loop_good ha (2 * (b :: c :: t).length + 4) l r (b :: c :: t) fut tail 0 hi h (by omega) with
      ⟨e, ns⟩ | ⟨⟨e, n, l'⟩, ho, n', r', hn, hi', hk, h', hle, hcase⟩
    · left
      rw [hparse, e]
      exact ⟨rfl, fun hs => ns (k1 hs)⟩
    · right
      simp only [Nat.zero_add] at hn
      subst hn
      rw [hparse, ho]
      rcases hcase with ⟨he, hst⟩ | ⟨he, hst, hlt, hbk⟩
      · simp only at he
        subst he
        refine ⟨_, rfl, by dsimp only; rw [hk.call, hcall], .inl ⟨rfl, ?_⟩⟩
        cases hi' with
        | arr e => rw [e] at hst; cases hst
        | arg _ _ _ _ e => rw [e] at hst; cases hst
        | body _ _ _ _ _ e => rw [e] at hst; cases hst
        | fin _ _ _ e => rw [e] at hst; cases hst
        | comp hst hcur hbr =>
          refine ⟨⟨.inr hst, hbr⟩, hcur, by simpa using h', ?_⟩
          intro hni a ha
          have := hk.w (k2 hni) a ha
          unfold valid
          cases hp : a.place with
          | nowhere => rfl
          | block _ => rfl
          | input c => simpa using this c hp
      · simp only at he
        subst he
        obtain ⟨f1, f2, f3, f4, f5⟩ := cacheState_fields l'
        refine ⟨_, rfl, by dsimp only; rw [f5, hk.call, hcall], .inr ⟨rfl, r', .inr ⟨?_, cacheState_inv hi' hst⟩, h', hlt, ?_, ?_, ?_, ?_⟩⟩
        · dsimp only; rw [f1]; exact hst
        · intro hsh hbr; dsimp only; rw [f2]; exact hk.short hsh (k4 hbr)
        · dsimp only; rw [f1, f2]; exact inv_not_bulk hi'
        · intro hj
          have hJ := hk.j (k3 hj)
          have hn := cacheState_ni hJ
          refine ⟨.inr hn, fun hnb => .inr ⟨⟨cacheState_idx l' hJ, ?_, ?_, fun a ha _ => hn a ha⟩, hn⟩⟩
          · intro i a _ hg
            exact hn a (List.mem_of_getElem? hg)
          · intro e; exact absurd e hnb
        · dsimp only; rw [f1, f4]; exact hbk

/-! ### The connection -/

theorem serve_any {as : List (List Nat)} (ha : Allowed as) : ∀ (ps : List (List Nat)) (s : S) (buf r tail : List Nat),
    Between as s r → buf.length < r.length → buf ++ ps.flatten = r ++ tail →
    (serve s buf ps = none ∨ Got as tail (serve s buf ps)) ∧
      ((∀ a ∈ as, a.length ≤ 30) → s.broken = false → Got as tail (serve s buf ps)) := by
  intro ps
  induction ps with
  | nil =>
    intro s buf r tail _ hl h
    have := congrArg List.length h
    simp at this
    omega
  | cons p ps ih =>
    intro s buf r tail hb hl h
    have h' : (buf ++ p) ++ ps.flatten = r ++ tail := by rw [← h]; simp
    unfold serve
    rcases parse_good ha hb h' with ⟨e, ns⟩ | ⟨o, ho, hcall, hcase⟩
    · rw [e]
      refine ⟨.inl rfl, fun _ hbr => absurd ?_ ns⟩
      refine .inr (fun _ e => ?_)
      have : s.broken = true := e
      rw [hbr] at this
      cases this
    · rw [ho]
      obtain ⟨st, n, args, s'⟩ := o
      dsimp only at hcase
      rcases hcase with ⟨rfl, hr, hd, ht, _⟩ | ⟨rfl, r', hb', hf, hlt, hsh, _⟩
      · have g : Got as tail (some (.request args s' ((buf ++ p).drop n))) :=
          ⟨args, s', _, ps.flatten, rfl, hd, hr, ht.symm⟩
        exact ⟨.inr g, fun _ _ => g⟩
      · obtain ⟨i1, i2⟩ := ih s' _ r' tail hb' hlt hf
        exact ⟨i1, fun hs hbr => i2 hs (hsh hs hbr)⟩

theorem mid_of_bulk {as : List (List Nat)} {l : L} {r u fut tail x : List Nat} (hi : Inv as l r)
    (hst : l.s.st = .bulk) (hu : u ++ fut = r ++ tail) (hx : x ++ fut = encode as ++ tail)
    (hl : u.length < l.s.bulkLen + 2) : MidBody as x := by
  cases hi with
  | arr e => rw [e] at hst; cases hst
  | arg _ _ _ _ e => rw [e] at hst; cases hst
  | fin _ _ _ e => rw [e] at hst; cases hst
  | comp e => rw [e] at hst; cases hst
  | body done p q todo has _ hrem hcur hlen hp =>
    have hu' : u ++ fut = (q ++ crlf) ++ (encArgs todo ++ tail) := by simpa using hu
    have hlu : u.length ≤ (q ++ crlf).length := by simp [crlf]; omega
    have hpre := prefix_of_append hu' hlu
    refine ⟨done, p ++ q, todo, p ++ u, (q ++ crlf).drop u.length, has, ?_, ?_, ?_⟩
    · rw [List.append_assoc, List.append_assoc]
      congr 1
      rw [← hpre]
      simp only [List.length_take]
      rw [Nat.min_eq_left hlu, List.take_append_drop]
    · intro e
      have := congrArg List.length e
      simp [crlf] at this
      omega
    · have henc : encode as = (42 :: dec as.length ++ crlf ++ encArgs done ++ (36 :: dec (p ++ q).length ++ crlf)) ++ p
          ++ (q ++ crlf ++ encArgs todo) := by
        have : encArgs as = encArgs done ++ encBulk (p ++ q) ++ encArgs todo := by
          rw [has]; simp [encArgs]
        rw [encode, this]
        simp [encBulk]
      rw [henc, List.append_assoc _ _ tail, ← hu, ← List.append_assoc] at hx
      have := List.append_cancel_right hx
      rw [this, List.append_assoc]

theorem serve_header {as : List (List Nat)} (ha : Allowed as) : ∀ (ps : List (List Nat)) (s : S) (x buf r tail : List Nat),
    Between as s r → buf.length < r.length → buf ++ ps.flatten = r ++ tail → x ++ ps.flatten = encode as ++ tail →
    JB s → s.broken = false → (∀ i, i < ps.length → ¬ MidBody as (x ++ (ps.take i).flatten)) →
    GotValid as tail (serve s buf ps) := by
  intro ps
  induction ps with
  | nil =>
    intro s x buf r tail _ hl h
    have := congrArg List.length h
    simp at this
    omega
  | cons p ps ih =>
    intro s x buf r tail hb hl h hx hj hbr hmid
    have h' : (buf ++ p) ++ ps.flatten = r ++ tail := by rw [← h]; simp
    have hx' : (x ++ p) ++ ps.flatten = encode as ++ tail := by rw [← hx]; simp
    unfold serve
    rcases parse_good ha hb h' with ⟨e, ns⟩ | ⟨o, ho, hcall, hcase⟩
    · refine absurd (.inr (fun _ e => ?_)) ns
      have : s.broken = true := e
      rw [hbr] at this
      cases this
    · rw [ho]
      obtain ⟨st, n, args, s'⟩ := o
      dsimp only at hcase
      rcases hcase with ⟨rfl, hr, hd, ht, hv⟩ | ⟨rfl, r', hb', hf, hlt, hsh, hnb, hj', hbk⟩
      · refine ⟨args, s', _, ps.flatten, rfl, hd, hr, ht.symm, ?_⟩
        apply hv
        rcases hj with hj | hj
        · exact .inl hj
        · exact .inr hj.2
      · have hpl : 0 < ps.length := by
          rcases ps with _ | ⟨_, _⟩
          · have := congrArg List.length hf
            simp at this hlt
            omega
          · simp
        have hst : s'.st ≠ .bulk := by
          intro e
          have hi : Inv as (startL s') r' := by
            rcases hb' with ⟨hr, _⟩ | ⟨_, hi⟩
            · rcases hr.1 with e' | e' <;> rw [e] at e' <;> cases e'
            · exact hi
          have := mid_of_bulk hi e hf hx' (hbk e)
          exact hmid 1 (by simp; omega) (by simpa using this)
        refine ih s' (x ++ p) _ r' tail hb' hlt hf hx' ((hj' hj).2 hst) (hnb hst) ?_
        intro i hi
        have := hmid (i + 1) (by simp; omega)
        simpa using this

end Verif.Resp
