import Verif.Resp.Lemmas

namespace Verif.Resp

/-- The words finished in `x`, and the unfinished one. -/
def scan (cur : List Nat) : List Nat → List (List Nat) × List Nat
  | [] => ([], cur)
  | b :: l => if b > 32 then scan (cur ++ [b]) l
    else if cur = [] then scan [] l else (cur :: (scan [] l).1, (scan [] l).2)

theorem words_scan : ∀ (x : List Nat) (cur y : List Nat),
    words cur (x ++ y) = (scan cur x).1 ++ words (scan cur x).2 y := by
  intro x
  induction x with
  | nil => intro cur y; simp [scan]
  | cons b x ih =>
    intro cur y
    simp only [List.cons_append, words, scan]
    split
    · exact ih _ _
    · split
      · exact ih _ _
      · simp [ih]

theorem words_eq (cur x : List Nat) : words cur x = (scan cur x).1 ++ (if (scan cur x).2 = [] then [] else [(scan cur x).2]) := by
  have := words_scan x cur []
  simpa [words] using this

theorem scan_append : ∀ (x : List Nat) (cur y : List Nat), (scan cur (x ++ y)).2 = (scan (scan cur x).2 y).2 := by
  intro x
  induction x with
  | nil => intro cur y; simp [scan]
  | cons b x ih =>
    intro cur y
    simp only [List.cons_append, scan]
    split
    · exact ih _ _
    · split
      · exact ih _ _
      · exact ih _ _

theorem scan_last (cur x : List Nat) (b : Nat) : (scan cur (x ++ [b])).2 ≠ [] ↔ b > 32 := by
  rw [scan_append]
  simp only [scan]
  split
  · simp; assumption
  · split <;> simp <;> omega

theorem words_word : ∀ (t cur y : List Nat), (∀ b ∈ t, b > 32) → words cur (t ++ y) = words (cur ++ t) y := by
  intro t
  induction t with
  | nil => intro cur y _; simp
  | cons b t ih =>
    intro cur y h
    have hb := h b (by simp)
    simp only [List.cons_append, words, if_pos hb]
    rw [ih _ _ (fun c hc => h c (by simp [hc]))]
    simp

theorem words_stop (cur y : List Nat) (hc : cur ≠ []) (hy : ∀ b, y.head? = some b → b ≤ 32) :
    words cur y = cur :: words [] y := by
  cases y with
  | nil => simp [words, hc]
  | cons b y =>
    have := hy b rfl
    simp only [words, if_neg (by omega : ¬ b > 32), if_neg hc]
    simp

theorem words_space : ∀ (t y : List Nat), (∀ b ∈ t, b ≤ 32) → words [] (t ++ y) = words [] y := by
  intro t
  induction t with
  | nil => intro y _; rfl
  | cons b t ih =>
    intro y h
    have hb := h b (by simp)
    simp only [List.cons_append, words, if_neg (by omega : ¬ b > 32), if_true]
    exact ih y (fun c hc => h c (by simp [hc]))

/-! ### `takeWhile` and `dropWhile` -/

theorem mem_takeWhile' {p : Nat → Bool} : ∀ {l : List Nat} {b : Nat}, b ∈ l.takeWhile p → p b = true
  | a :: l, b, h => by
    rw [List.takeWhile_cons] at h
    split at h
    · rcases List.mem_cons.1 h with rfl | h
      · assumption
      · exact mem_takeWhile' h
    · simp at h

theorem head_dropWhile {p : Nat → Bool} : ∀ {l : List Nat} {b : Nat}, (l.dropWhile p).head? = some b → p b = false
  | a :: l, b, h => by
    rw [List.dropWhile_cons] at h
    split at h
    · exact head_dropWhile h
    · rename_i hp
      simp at h
      rw [← h]
      simpa using hp

abbrev line (s : List Nat) : List Nat := s.takeWhile (fun b => b != 10)
abbrev afterLine (s : List Nat) : List Nat := s.dropWhile (fun b => b != 10)

theorem takeWhile_all {p : Nat → Bool} : ∀ {a : List Nat} (b : List Nat), (∀ x ∈ a, p x = true) →
    (a ++ b).takeWhile p = a ++ b.takeWhile p ∧ (a ++ b).dropWhile p = b.dropWhile p
  | [], b, _ => by simp
  | x :: a, b, h => by
    have hx := h x (by simp)
    have ⟨h1, h2⟩ := takeWhile_all (a := a) b (fun y hy => h y (by simp [hy]))
    simp only [List.cons_append, List.takeWhile_cons, List.dropWhile_cons, hx, if_true, h1, h2, and_self]

theorem line_append {a b : List Nat} (h : 10 ∉ a) : line (a ++ b) = a ++ line b ∧ afterLine (a ++ b) = afterLine b :=
  takeWhile_all b (fun x hx => by
    have : x ≠ 10 := fun e => h (e ▸ hx)
    simpa using this)

theorem tokens_spec (call : Nat) : ∀ (fuel : Nat) (rest : List Nat) (cur : List Arg), rest.length < fuel →
    ∃ new : List Arg, tokens call fuel rest cur = (cur ++ new, afterLine rest) ∧
      datas new = words [] (line rest) ∧ (∀ a ∈ new, a.place = .input call ∧ a.data ≠ []) := by
  intro fuel
  induction fuel with
  | zero => intro rest cur h; omega
  | succ fuel ih =>
    intro rest cur hlen
    unfold tokens
    dsimp only
    -- the skipped spaces
    have hsp : rest = rest.takeWhile (fun b => b != 10 && b ≤ 32) ++ rest.dropWhile (fun b => b != 10 && b ≤ 32) :=
      (List.takeWhile_append_dropWhile).symm
    have hs : ∀ b ∈ rest.takeWhile (fun b => b != 10 && b ≤ 32), b ≠ 10 ∧ b ≤ 32 := by
      intro b hb
      have := mem_takeWhile' hb
      simpa using this
    have h10 : 10 ∉ rest.takeWhile (fun b => b != 10 && b ≤ 32) := fun hm => (hs 10 hm).1 rfl
    have hhd : ∀ b, (rest.dropWhile (fun b => b != 10 && b ≤ 32)).head? = some b → b = 10 ∨ b > 32 := by
      intro b hb
      have := head_dropWhile hb
      simp only [bne, Bool.and_eq_false_iff, Bool.not_eq_false', beq_iff_eq, decide_eq_false_iff_not] at this
      omega
    generalize rest.takeWhile (fun b => b != 10 && b ≤ 32) = sp at *
    generalize rest.dropWhile (fun b => b != 10 && b ≤ 32) = rest1 at *
    have hl := line_append (b := rest1) h10
    rw [← hsp] at hl
    have hw : words [] (line rest) = words [] (line rest1) := by
      rw [hl.1]; exact words_space _ _ (fun b hb => (hs b hb).2)
    by_cases hstop : rest1 = [] ∨ rest1.head? = some 10
    · rw [if_pos hstop]
      refine ⟨[], ?_, ?_, by simp⟩
      · rw [hl.2]
        have : afterLine rest1 = rest1 := by
          rcases hstop with e | e
          · simp [e]
          · cases rest1 with
            | nil => simp
            | cons b t => simp at e; simp [e]
        rw [this]; simp
      · rw [hw]
        have : line rest1 = [] := by
          rcases hstop with e | e
          · simp [e]
          · cases rest1 with
            | nil => simp
            | cons b t => simp at e; simp [e]
        rw [this]; rfl
    · rw [if_neg hstop]
      have htk : rest1 = rest1.takeWhile (fun b => b > 32) ++ rest1.dropWhile (fun b => b > 32) :=
        (List.takeWhile_append_dropWhile).symm
      have ht : ∀ b ∈ rest1.takeWhile (fun b => b > 32), b > 32 := by
        intro b hb
        simpa using mem_takeWhile' hb
      have hne : rest1.takeWhile (fun b => b > 32) ≠ [] := by
        cases hr : rest1 with
        | nil => exact absurd (.inl hr) hstop
        | cons b t =>
          have hb32 : b > 32 := by
            rcases hhd b (by rw [hr]; rfl) with e | e
            · exact absurd (.inr (by rw [hr, e]; rfl)) hstop
            · exact e
          simp [List.takeWhile_cons, hb32]
      have hhd2 : ∀ b, (rest1.dropWhile (fun b => b > 32)).head? = some b → b ≤ 32 := by
        intro b hb
        simpa using head_dropWhile hb
      generalize rest1.takeWhile (fun b => b > 32) = tk at *
      generalize rest1.dropWhile (fun b => b > 32) = rest2 at *
      have htl := List.length_pos_iff.2 hne
      have hlen2 : rest2.length < fuel := by
        have h1 := congrArg List.length hsp
        have h2 := congrArg List.length htk
        simp only [List.length_append] at h1 h2
        omega
      obtain ⟨new, e1, e2, e3⟩ := ih rest2 (cur ++ [⟨tk, .input call⟩]) hlen2
      have h10' : 10 ∉ tk := fun hm => by have := ht 10 hm; omega
      have hl2 := line_append (b := rest2) h10'
      rw [← htk] at hl2
      refine ⟨⟨tk, .input call⟩ :: new, ?_, ?_, ?_⟩
      · rw [e1, hl.2, hl2.2]; simp
      · rw [hw, hl2.1, words_word tk [] _ ht, List.nil_append, words_stop tk _ hne]
        · simp only [datas] at *; simp [e2]
        · intro b hb
          cases hr : rest2 with
          | nil => rw [hr] at hb; simp at hb
          | cons c t =>
            rw [hr] at hb
            simp only [line, List.takeWhile_cons] at hb
            split at hb
            · simp at hb
              rw [← hb]
              exact hhd2 c (by rw [hr]; rfl)
            · simp at hb
      · intro a ha
        rcases List.mem_cons.1 ha with rfl | ha
        · exact ⟨rfl, hne⟩
        · exact e3 a ha

/-- The parser has read the bytes `x` of a line. -/
structure InvI (l : L) (x : List Nat) : Prop where
  st : l.s.st = .inline
  cur : datas l.cur = words [] x
  br : l.s.broken = true ↔ (scan [] x).2 ≠ []
  j : J l

theorem W.append {l : L} (h : W l) {new : List Arg} (hn : ∀ a ∈ new, a.place = .input l.s.call ∧ a.data ≠ []) :
    W { l with cur := l.cur ++ new } := by
  intro a ha c hc
  rcases List.mem_append.1 ha with ha | ha
  · exact h a ha c hc
  · have := (hn a ha).1
    rw [this] at hc
    cases hc
    rfl

theorem J.append {l : L} (h : J l) {c : Nat} {new : List Arg} (hn : ∀ a ∈ new, a.place = .input c ∧ a.data ≠ [])
    {s' : S} (hi : s'.idx = l.s.idx) (hs : s'.st ≠ .bulk) : J ⟨s', l.cur ++ new⟩ := by
  have hle := h.le
  refine ⟨by simp [hi]; omega, ?_, fun e => absurd e hs, ?_⟩
  · intro i a hlt hg
    dsimp only at hlt hg
    rw [hi] at hlt
    rw [List.getElem?_append_left (by omega)] at hg
    exact h.ni i a hlt hg
  · intro a ha he
    rcases List.mem_append.1 ha with ha | ha
    · exact h.emp a ha he
    · exact absurd he (hn a ha).2

/-- Extending the last word. -/
theorem extendLast_J {l : L} (h : J l) (hst : l.s.st ≠ .bulk) (hp : 0 < l.cur.length) (bs : List Nat) :
    J { l with cur := extendLast l.cur bs } := by
  refine ⟨?_, ?_, fun e => absurd e hst, ?_⟩
  · dsimp only [extendLast]; rw [setLast_length hp]; exact h.le
  · intro i a hlt hg c
    dsimp only [extendLast] at hlt hg
    have hle := h.le
    by_cases hi : i + 1 < l.cur.length
    · rw [setLast_get hi] at hg
      exact h.ni i a hlt hg c
    · have hie : i = l.cur.dropLast.length := by simp; omega
      unfold setLast at hg
      rw [hie, List.getElem?_append_right (by omega)] at hg
      simp at hg
      rw [← hg]
      intro e; cases e
  · intro a ha he c
    rcases mem_setLast ha with ha | ha
    · exact h.emp a ha he c
    · rw [ha]; intro e; cases e

theorem extendLast_W {l : L} (h : W l) (bs : List Nat) : W { l with cur := extendLast l.cur bs } := by
  intro a ha c hc
  rcases mem_setLast ha with ha | ha
  · exact h a ha c hc
  · rw [ha] at hc; cases hc

/-- The state after a word broken by the end of a packet has been completed. -/
theorem resume {l : L} {x : List Nat} (h : InvI l x) (hw : W l) (str : List Nat) :
    ∃ (cur1 : List Arg) (rest : List Nat) (br : Bool),
      rest = (if l.s.broken then str.dropWhile (fun b => b > 32) else str) ∧
      cur1 = (if l.s.broken then extendLast l.cur (str.takeWhile (fun b => b > 32)) else l.cur) ∧
      br = (if l.s.broken ∧ rest ≠ [] then false else l.s.broken) ∧
      (br = true → ∀ b ∈ str, b > 32) ∧ (rest ≠ [] → br = false) ∧
      afterLine rest = afterLine str ∧ datas cur1 ++ words [] (line rest) = words [] (x ++ line str) ∧
      J { l with cur := cur1 } ∧ W { l with cur := cur1 } := by
  by_cases hb : l.s.broken = true
  · have htk : str = str.takeWhile (fun b => b > 32) ++ str.dropWhile (fun b => b > 32) :=
      (List.takeWhile_append_dropWhile).symm
    have ht : ∀ b ∈ str.takeWhile (fun b => b > 32), b > 32 := by
      intro b hb
      simpa using mem_takeWhile' hb
    have hhd : ∀ b, (str.dropWhile (fun b => b > 32)).head? = some b → b ≤ 32 := by
      intro b hb
      simpa using head_dropWhile hb
    have h10 : 10 ∉ str.takeWhile (fun b => b > 32) := fun hm => by have := ht 10 hm; omega
    have hl := line_append (b := str.dropWhile (fun b => b > 32)) h10
    rw [← htk] at hl
    have hsc := h.br.1 hb
    have hcur := h.cur
    rw [words_eq, if_neg hsc] at hcur
    refine ⟨_, _, _, rfl, rfl, rfl, ?_, ?_, ?_, ?_, ?_, ?_⟩
    · simp only [hb, if_true, true_and]
      intro hbr b hbs
      by_cases hr : str.dropWhile (fun b => b > 32) = []
      · rw [hr, List.append_nil] at htk
        rw [htk] at hbs
        exact ht b hbs
      · rw [if_pos hr] at hbr; cases hbr
    · simp only [hb, if_true, true_and]
      intro hr
      rw [if_pos hr]
    · simp only [hb, if_true]; exact hl.2.symm
    · simp only [hb, if_true, extendLast]
      rw [datas_setLast hcur, lastArg_data hcur, words_scan, hl.1, words_word _ _ _ ht,
        words_stop ((scan [] x).2 ++ str.takeWhile (fun b => b > 32))]
      · simp
      · intro e; exact hsc (List.append_eq_nil_iff.1 e).1
      · intro b hb
        cases hr : str.dropWhile (fun b => b > 32) with
        | nil => rw [hr] at hb; simp at hb
        | cons c t =>
          rw [hr] at hb
          simp only [line, List.takeWhile_cons] at hb
          split at hb
          · simp at hb
            rw [← hb]
            exact hhd c (by rw [hr]; rfl)
          · simp at hb
    · simp only [hb, if_true]
      exact extendLast_J h.j (by rw [h.st]; decide) (cur_pos hcur) _
    · simp only [hb, if_true]
      exact extendLast_W hw _
  · have hb' : l.s.broken = false := by simpa using hb
    have hsc : (scan [] x).2 = [] := Classical.byContradiction (fun e => hb (h.br.2 e))
    refine ⟨_, _, _, rfl, rfl, rfl, ?_, ?_, ?_, ?_, ?_, ?_⟩
    · simp [hb']
    · simp [hb']
    · simp [hb']
    · simp only [hb', Bool.false_eq_true, if_false]
      have hcur := h.cur
      rw [words_eq, hsc] at hcur
      rw [hcur, words_scan, hsc]
      simp
    · simp only [hb', Bool.false_eq_true, if_false]; exact h.j
    · simp only [hb', Bool.false_eq_true, if_false]; exact hw

theorem line_self {s : List Nat} (h : 10 ∉ s) : line s = s ∧ afterLine s = [] := by
  have := line_append (b := []) h
  simpa using this

theorem afterLine_mem {s : List Nat} (h : 10 ∈ s) : afterLine s ≠ [] ∧ s = line s ++ afterLine s := by
  refine ⟨fun e => ?_, (List.takeWhile_append_dropWhile).symm⟩
  have hs : s = line s ++ afterLine s := (List.takeWhile_append_dropWhile).symm
  rw [e, List.append_nil] at hs
  rw [hs] at h
  simpa using mem_takeWhile' h

/-- A packet without a line feed is consumed. -/
theorem parseInline_more {l : L} {x str : List Nat} (h : InvI l x) (hw : W l) (h10 : 10 ∉ str) (hne : str ≠ []) :
    ∃ l', parseInline l str = (.more, str.length, l') ∧ InvI l' (x ++ str) ∧ W l' ∧
      l'.s.call = l.s.call ∧ l'.s.ast = l.s.ast := by
  obtain ⟨cur1, rest, br, e1, e2, e3, hbr, hbr2, ha, hd, hj, hw1⟩ := resume h hw str
  have hls := line_self h10
  obtain ⟨new, t1, t2, t3⟩ := tokens_spec l.s.call (rest.length + 1) rest cur1 (by omega)
  unfold parseInline
  dsimp only
  rw [← e1, ← e2, ← e3, t1]
  dsimp only
  rw [ha, hls.2, if_pos rfl]
  obtain ⟨ini, lb, hsplit⟩ : ∃ ini lb, str = ini ++ [lb] := by
    rcases List.eq_nil_or_concat str with e | ⟨a, b, e⟩
    · exact absurd e hne
    · exact ⟨a, b, by simpa using e⟩
  have hlast : str.getLast?.getD 0 = lb := by rw [hsplit]; simp
  refine ⟨_, rfl, ⟨h.st, ?_, ?_, ?_⟩, ?_, rfl, rfl⟩
  · dsimp only
    have : datas (cur1 ++ new) = datas cur1 ++ datas new := by simp [datas]
    rw [this, t2, hd, hls.1]
  · have hs : (scan [] (x ++ str)).2 ≠ [] ↔ lb > 32 := by
      rw [hsplit, ← List.append_assoc]
      exact scan_last [] (x ++ ini) lb
    dsimp only
    rw [hs, hlast]
    split
    · rename_i h32; simp [h32]
    · rename_i h32
      constructor
      · intro hb
        exact absurd (hbr hb lb (by rw [hsplit]; simp)) h32
      · intro hb; exact absurd hb h32
  · exact hj.append t3 rfl (by rw [h.st]; decide)
  · exact hw1.append t3

/-- A packet with a line feed completes the line. -/
theorem parseInline_ok {l : L} {x str : List Nat} (h : InvI l x) (hw : W l) (h10 : 10 ∈ str) :
    ∃ l', parseInline l str = (.ok, (line str).length + 1, l') ∧ datas l'.cur = words [] (x ++ line str) ∧ W l' ∧
      l'.s.st = .complete ∧ l'.s.broken = false ∧ l'.s.call = l.s.call := by
  obtain ⟨cur1, rest, br, e1, e2, e3, hbr, hbr2, ha, hd, hj, hw1⟩ := resume h hw str
  obtain ⟨hal, hsp⟩ := afterLine_mem h10
  obtain ⟨new, t1, t2, t3⟩ := tokens_spec l.s.call (rest.length + 1) rest cur1 (by omega)
  have hb : br = false := hbr2 (fun e => hal (by rw [← ha, e]; rfl))
  unfold parseInline
  dsimp only
  rw [← e1, ← e2, ← e3, t1]
  dsimp only
  rw [ha, if_neg hal]
  have hlen : str.length - (afterLine str).length = (line str).length := by
    have := congrArg List.length hsp
    rw [List.length_append] at this
    omega
  rw [hlen]
  refine ⟨_, rfl, ?_, ?_, rfl, hb, rfl⟩
  · dsimp only
    have : datas (cur1 ++ new) = datas cur1 ++ datas new := by simp [datas]
    rw [this, t2, hd]
  · exact hw1.append t3

/-- Between two calls while a line is being read. -/
def BetweenI (s : S) (x : List Nat) : Prop :=
  (Ready s ∧ x = []) ∨ (InvI (startL s) x ∧ ∀ a ∈ s.ast.getD [], ∀ c, a.place ≠ .input c)

theorem parse_inline {s : S} {x str : List Nat} (hb : BetweenI s x) (hlen : 2 ≤ str.length)
    (hf : x = [] → ∀ b, str.head? = some b → b ≠ 36 ∧ b ≠ 58 ∧ b ≠ 42) :
    ∃ l : L, InvI l x ∧ W l ∧ l.s.call = s.call + 1 ∧
      parse s str = finish (loop (2 * str.length + 4) l str 0) := by
  obtain ⟨b, c, t, rfl⟩ : ∃ b c t, str = b :: c :: t := by
    match str, hlen with
    | [], hl => simp at hl
    | [b], hl => simp at hl
    | b :: c :: t, _ => exact ⟨b, c, t, rfl⟩
  rcases hb with ⟨hrd, rfl⟩ | ⟨hi, hni⟩
  · obtain ⟨f1, f2, f3⟩ := hf rfl b rfl
    refine ⟨⟨{ s with call := s.call + 1, ast := none, rem := none, idx := 0, st := .inline }, []⟩, ⟨rfl, rfl, ?_, ?_⟩, ?_, rfl, ?_⟩
    · simp [scan, hrd.2]
    · exact ⟨by simp, by intro i a hi; simp at hi, (by intro e; cases e), by intro a ha; simp at ha⟩
    · intro a ha; simp at ha
    · unfold parse
      rcases hrd.1 with e | e <;> simp [e, initStart, f1, f2, f3]
  · have h1 : s.st = .inline := hi.st
    refine ⟨⟨{ s with call := s.call + 1 }, s.ast.getD []⟩, ⟨h1, hi.cur, hi.br, ⟨hi.j.le, hi.j.ni, hi.j.lt, hi.j.emp⟩⟩, ?_, rfl, ?_⟩
    · intro a ha c hc; exact absurd hc (hni a ha c)
    · unfold parse
      simp [h1]

theorem serve_inline (ln tail : List Nat) (h10 : 10 ∉ ln)
    (hf : ∀ b, (ln ++ [10]).head? = some b → b ≠ 36 ∧ b ≠ 58 ∧ b ≠ 42) :
    ∀ (ps : List (List Nat)) (s : S) (x : List Nat), BetweenI s x → (∀ p ∈ ps, 2 ≤ p.length) → 10 ∉ x →
      x ++ ps.flatten = ln ++ 10 :: tail → GotValid (words [] ln) tail (serve s [] ps) := by
  intro ps
  induction ps with
  | nil =>
    intro s x _ _ hx h
    exfalso
    rw [List.flatten_nil, List.append_nil] at h
    rw [h] at hx
    simp at hx
  | cons p ps ih =>
    intro s x hb hp hx h
    have hp2 := hp p (by simp)
    have hpne : p ≠ [] := by intro e; rw [e] at hp2; simp at hp2
    have hh : x = [] → ∀ b, p.head? = some b → b ≠ 36 ∧ b ≠ 58 ∧ b ≠ 42 := by
      intro e b hb
      apply hf
      rw [e] at h
      have := congrArg List.head? h
      cases p with
      | nil => exact absurd rfl hpne
      | cons c t =>
        simp only [List.nil_append, List.flatten_cons, List.cons_append, List.head?_cons] at this hb
        rw [hb] at this
        cases ln with
        | nil => simpa using this.symm
        | cons d u => simpa using this.symm
    obtain ⟨l, hi, hw, hc, hpar⟩ := parse_inline hb hp2 hh
    have h' : (x ++ p) ++ ps.flatten = ln ++ 10 :: tail := by rw [← h]; simp
    unfold serve
    rw [List.nil_append, hpar]
    have hfu : 2 * p.length + 4 = (2 * p.length + 2) + 1 + 1 := by omega
    rw [hfu]
    have hstep : ∀ o, parseInline l p = o → turn l p = some o := by
      intro o ho
      unfold turn
      rw [hi.st, ho]
    by_cases hm : 10 ∈ p
    · obtain ⟨l', e, hd, hw', hst, hbr, hcl⟩ := parseInline_ok hi hw hm
      have hl2 : loop (2 * p.length + 2 + 1 + 1) l p 0 = some (.ok, (line p).length + 1, l') := by
        rw [loop, if_neg (by rw [hi.st]; decide), hstep _ e]
        simp only [if_true]
        rw [loop, if_pos hst]
        simp
      rw [hl2]
      -- the line ends in this packet
      obtain ⟨hal, hsp⟩ := afterLine_mem hm
      have hx10 : 10 ∉ x ++ line p := by
        intro hm'
        rcases List.mem_append.1 hm' with hm' | hm'
        · exact hx hm'
        · simpa using mem_takeWhile' hm'
      have hal' : ∃ t, afterLine p = 10 :: t := by
        cases hA : afterLine p with
        | nil => exact absurd hA hal
        | cons b t =>
          have : (afterLine p).head? = some b := by rw [hA]; rfl
          have := head_dropWhile this
          have hb : b = 10 := by simpa using this
          exact ⟨t, by rw [hb]⟩
      obtain ⟨t, hA⟩ := hal'
      have heq : (x ++ line p) ++ 10 :: (t ++ ps.flatten) = ln ++ 10 :: tail := by
        rw [← h', hsp, hA]
        have : line (line p ++ 10 :: t) = line p := by
          rw [← hA, ← hsp]
        rw [this]
        simp
      have hline : x ++ line p = ln := by
        have h1 := congrArg line heq
        have a1 := (line_append (b := 10 :: (t ++ ps.flatten)) hx10).1
        have a2 := (line_append (b := 10 :: tail) h10).1
        rw [a1, a2] at h1
        simpa [line] using h1
      have htail : tail = t ++ ps.flatten := by
        rw [hline] at heq
        have := List.append_cancel_left heq
        simp at this
        exact this.symm
      refine ⟨l'.cur, l'.s, p.drop ((line p).length + 1), ps.flatten, rfl, ?_, ⟨.inr hst, hbr⟩, ?_, ?_⟩
      · rw [← hline]; exact hd
      · rw [htail]
        congr 1
        conv => rhs; rw [hsp]
        have : line (line p ++ afterLine p) = line p := by rw [← hsp]
        rw [this, ← List.drop_drop, List.drop_left, hA]
        rfl
      · intro a ha
        have := hw' a ha
        unfold valid
        cases hpl : a.place with
        | nowhere => rfl
        | block _ => rfl
        | input c => simpa using this c hpl
    · obtain ⟨l', e, hi', hw', hcl, hast⟩ := parseInline_more hi hw hm hpne
      have hl2 : loop (2 * p.length + 2 + 1 + 1) l p 0 = some (.more, p.length, l') := by
        rw [loop, if_neg (by rw [hi.st]; decide), hstep _ e]
        simp
      rw [hl2]
      obtain ⟨f1, f2, f3, f4, f5⟩ := cacheState_fields l'
      have hn := cacheState_ni hi'.j
      have hres := ih (cacheState l') (x ++ p) (.inr ⟨⟨f1.trans hi'.st, (cacheState_datas l').trans hi'.cur, ?_, ?_⟩, hn⟩)
        (fun q hq => hp q (by simp [hq])) ?_ h'
      · simpa [finish] using hres
      · show (cacheState l').broken = true ↔ _
        rw [f2]; exact hi'.br
      · refine ⟨cacheState_idx l' hi'.j, ?_, ?_, fun a ha _ => hn a ha⟩
        · intro i a _ hg; exact hn a (List.mem_of_getElem? hg)
        · intro e
          have : (cacheState l').st = .bulk := e
          rw [f1, hi'.st] at this
          cases this
      · intro hm'
        rcases List.mem_append.1 hm' with hm' | hm'
        · exact hx hm'
        · exact hm hm'

end Verif.Resp
