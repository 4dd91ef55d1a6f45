import Verif.HttpSrv.Spec
/-!
C81: who gets which page. C82: the requests of a connection do not depend on how its bytes come. C83: `/filez` stays in its folder.
-/
namespace Verif.HttpSrv
open Verif.Text

/-! ### C81 -/

/-- C81, without the consent of the functor nothing but the refusal is answered. -/
theorem C81_denied (u : Str → Str) (s : Server) (r : Req) (f : Str → Str → Str → Bool) (hf : s.auth = some f)
    (hn : f (parseQuery r.target).1 (credentials u r.auth).1 (credentials u r.auth).2 = false) : handle u s r = .denied := by
  simp [handle, Server.allows, hf, hn]

/-- C81, and with it, or without a functor, the refusal is not answered. -/
theorem C81_allowed (u : Str → Str) (s : Server) (r : Req)
    (h : ∀ f, s.auth = some f → f (parseQuery r.target).1 (credentials u r.auth).1 (credentials u r.auth).2 = true) : handle u s r ≠ .denied := by
  unfold handle
  simp only
  have hc : s.allows (parseQuery r.target).1 (credentials u r.auth).1 (credentials u r.auth).2 = true := by
    unfold Server.allows
    cases he : s.auth with
    | none => rfl
    | some f => exact h f he
  rw [if_pos hc]
  cases hr : handleRoot s r.target with
  | some pg =>
    intro e
    simp only at e
    subst e
    unfold handleRoot at hr
    simp only at hr
    split at hr
    · cases hr
    · split at hr
      · cases hh : s.hasRoot <;> simp [hh] at hr
      · repeat' split at hr
        all_goals cases hr
  | none =>
    simp only
    split <;> intro e <;> cases e

/-- C81, the functor is asked about the user and the password that the client has sent: a client that puts `user:password` in Base64
into the header, with no colon in the name, is asked about as exactly this user with exactly this password. -/
theorem C81_credentials (unb64 b64 : Str → Str) (h : ∀ x, unb64 (b64 x) = x) (user pass : Str) (hu : 58 ∉ user) :
    credentials unb64 (lit "Basic " ++ b64 (user ++ 58 :: pass)) = (user, pass) := by
  have hp : (lit "Basic ").isPrefixOf (lit "Basic " ++ b64 (user ++ 58 :: pass)) = true := by
    rw [List.isPrefixOf_iff_prefix]
    exact List.prefix_append _ _
  have hd : (lit "Basic " ++ b64 (user ++ 58 :: pass)).drop 6 = b64 (user ++ 58 :: pass) := by
    have : (lit "Basic ").length = 6 := by decide
    rw [← this, List.drop_left]
  unfold credentials
  rw [if_pos hp, hd, h]
  simp only
  have hf : ∀ u : Str, 58 ∉ u → find 58 (u ++ 58 :: pass) = some u.length := by
    intro u
    induction u with
    | nil => intro _; simp [find]
    | cons c u ih =>
      intro hn
      have h1 : c ≠ 58 := fun e => hn (by rw [e]; exact List.mem_cons_self ..)
      rw [List.cons_append, find, if_neg (by simpa using h1), ih (fun hm => hn (List.mem_cons_of_mem _ hm))]
      rfl
  rw [hf user hu]
  simp only
  rw [List.take_left]
  congr 1
  rw [← List.drop_drop, List.drop_left]
  rfl

example : credentials id (lit "Basic joe:a:b") = (lit "joe", lit "a:b") := by decide
example : credentials id (lit "Bearer x") = ([], []) := by decide

theorem split_cons_sep {c : Byte} : ∀ (p s : Str), c ∉ p → split c (p ++ c :: s) = p :: split c s
  | [], s, _ => by simp [split]
  | d :: p, s, h => by
    have hd : (d == c) = false := by simpa using fun e => h (by simp [e])
    rw [List.cons_append, split, hd, split_cons_sep p s (fun hm => h (List.mem_cons_of_mem _ hm))]
    rfl

theorem split_no {c : Byte} : ∀ (p : Str), c ∉ p → split c p = [p]
  | [], _ => rfl
  | d :: p, h => by
    have hd : (d == c) = false := by simpa using fun e => h (by simp [e])
    rw [split, hd, split_no p (fun hm => h (List.mem_cons_of_mem _ hm))]
    rfl

theorem split_intercalate {c : Byte} : ∀ (ps : List Str), ps ≠ [] → (∀ p ∈ ps, c ∉ p) → split c (List.intercalate [c] ps) = ps
  | [], h, _ => absurd rfl h
  | [p], _, h => by simpa [List.intercalate] using split_no p (h p (by simp))
  | p :: q :: ps, _, h => by
    have ih := split_intercalate (q :: ps) (by simp) fun x hx => h x (List.mem_cons_of_mem _ hx)
    have e : List.intercalate [c] (p :: q :: ps) = p ++ c :: List.intercalate [c] (q :: ps) := by simp [List.intercalate]
    rw [e, split_cons_sep _ _ (h p (by simp)), ih]

theorem handleRoot_none (s : Server) (t : Str) (hb : ¬ builtin s (parseQuery t).1) (hq : t ≠ lit "/favicon.ico") : handleRoot s t = none := by
  unfold builtin at hb
  simp only [not_or, not_and] at hb
  obtain ⟨_, b2, b3, b4, b5, b6⟩ := hb
  unfold handleRoot
  simp only
  rw [if_neg hq, if_neg b2, if_neg b3, if_neg b4, if_neg b5]
  cases hm : s.metrics with
  | false => simp
  | true =>
    have := b6 hm
    simp [this]

/-- C81, the callback that was registered first for a path is called for it, with the arguments of the query, unless the path is one
that the server answers itself. -/
theorem C81_callback_partial (u : Str → Str) (s : Server) (r : Req) (pre post : List (Str × Nat)) (id : Nat)
    (hs : s.cbs = pre ++ ((parseQuery r.target).1, id) :: post) (hn : ∀ x ∈ pre, x.1 ≠ (parseQuery r.target).1)
    (hb : ¬ builtin s (parseQuery r.target).1) (hd : handle u s r ≠ .denied) :
    handle u s r = .callback id (queryArgs r.target) := by
  have hq : r.target ≠ lit "/favicon.ico" := fun e => hb (Or.inl (by rw [e]; decide))
  have hf : s.cbs.find? (fun x => x.1 == (parseQuery r.target).1) = some ((parseQuery r.target).1, id) := by
    rw [hs, List.find?_append]
    have : pre.find? (fun x => x.1 == (parseQuery r.target).1) = none := by
      rw [List.find?_eq_none]
      intro x hx
      simpa using hn x hx
    rw [this]
    simp
  unfold handle at hd ⊢
  simp only at hd ⊢
  split at hd
  · rename_i hc
    rw [if_pos hc, handleRoot_none s _ hb hq, hf]
  · exact absurd rfl hd

/-- C81, the arguments are those between the ampersands after the first question mark, each split at its first `=`; without a question mark there are none. -/
theorem C81_arguments (path : Str) (args : List (Str × Str)) (hp : 63 ∉ path) (ha : ∀ a ∈ args, (61 ∉ a.1 ∧ 38 ∉ a.1) ∧ 38 ∉ a.2) (hne : args ≠ []) :
    queryArgs path = [] ∧ queryArgs (path ++ 63 :: List.intercalate [38] (args.map fun a => a.1 ++ 61 :: a.2)) = args := by
  refine ⟨by rw [queryArgs, if_neg hp], ?_⟩
  have hf : find 63 (path ++ 63 :: List.intercalate [38] (args.map fun a => a.1 ++ 61 :: a.2)) = some path.length := by
    rw [find_some]; simp [hp]
  rw [queryArgs, if_pos (by simp), parseQuery, hf]
  simp only
  rw [show (path ++ 63 :: List.intercalate [38] (args.map fun a => a.1 ++ 61 :: a.2)).drop (path.length + 1) = List.intercalate [38] (args.map fun a => a.1 ++ 61 :: a.2) by
    rw [← List.drop_drop, List.drop_left]; rfl]
  rw [splitQuery, split_intercalate _ (by simpa using hne) (by
    intro p hp
    obtain ⟨a, h1, h2⟩ := List.mem_map.mp hp
    subst h2
    have := ha a h1
    simp [this.1.2, this.2])]
  rw [List.map_map]
  conv => rhs; rw [← List.map_id args]
  refine List.map_congr_left fun a h => ?_
  have h1 := (ha a h).1.1
  have : find 61 (a.1 ++ 61 :: a.2) = some a.1.length := by rw [find_some]; simp [h1]
  simp only [Function.comp, splitArg, this]
  rw [← List.drop_drop, List.drop_left, List.take_left]
  rfl

example : queryArgs (lit "/a") = [] ∧ queryArgs (lit "/a?") = [([], [])] ∧ queryArgs (lit "/a?x=1&y") = [(lit "x", lit "1"), (lit "y", [])] := by decide +kernel

/-- C81, a page that is neither registered nor built in is answered as unknown. -/
theorem C81_unknown (u : Str → Str) (s : Server) (r : Req) (hs : ∀ x ∈ s.cbs, x.1 ≠ (parseQuery r.target).1)
    (hb : ¬ builtin s (parseQuery r.target).1) (hd : handle u s r ≠ .denied) : handle u s r = .unknown := by
  have hq : r.target ≠ lit "/favicon.ico" := fun e => hb (Or.inl (by rw [e]; decide))
  have hf : s.cbs.find? (fun x => x.1 == (parseQuery r.target).1) = none := by
    rw [List.find?_eq_none]
    intro x hx
    simpa using hs x hx
  unfold handle at hd ⊢
  simp only at hd ⊢
  split at hd
  · rename_i hc
    rw [if_pos hc, handleRoot_none s _ hb hq, hf]
  · exact absurd rfl hd

/-- C81, registering says whether it did, and does not disturb what was registered. -/
theorem C81_register (s : Server) (path : Str) (id : Nat) :
    ((s.register path id).2 = true ↔ ∀ x ∈ s.cbs, x.1 ≠ path) ∧
    (s.register path id).1.cbs = s.cbs ++ (if (s.register path id).2 then [(path, id)] else []) := by
  unfold Server.register
  cases h : s.cbs.find? (fun x => x.1 == path) with
  | none =>
    rw [List.find?_eq_none] at h
    exact ⟨⟨fun _ x hx => by simpa using h x hx, fun _ => rfl⟩, rfl⟩
  | some y =>
    have hm := List.mem_of_find?_eq_some h
    have he := List.find?_some h
    refine ⟨⟨fun e => (by cases e), fun hn => absurd (by simpa using he) (hn y hm)⟩, by simp⟩

/-- C81 is false for the built in names: registering a callback for one succeeds, and it is never called. -/
theorem C81_shadowed : ∃ (s : Server) (path : Str), (s.register path 7).2 = true ∧
    ∀ (u : Str → Str) (a query : Str) (id : Nat) (args : List (Str × Str)),
      handle u (s.register path 7).1 ⟨path ++ 63 :: query, a⟩ ≠ .callback id args := by
  refine ⟨⟨[], false, false, none⟩, lit "/flagz", rfl, fun u a query id args => ?_⟩
  have hp : parseQuery (lit "/flagz" ++ 63 :: query) = (lit "/flagz", query) := by
    have : lit "/flagz" ++ 63 :: query = 47 :: 102 :: 108 :: 97 :: 103 :: 122 :: 63 :: query := rfl
    rw [this]
    simp [parseQuery, find, lit]
  have hne : lit "/flagz" ++ 63 :: query ≠ lit "/favicon.ico" := by
    intro e
    have h3 : lit "/fl" = lit "/fa" := congrArg (fun l => l.take 3) e
    exact absurd h3 (by decide)
  have hr : handleRoot ((⟨[], false, false, none⟩ : Server).register (lit "/flagz") 7).1 (lit "/flagz" ++ 63 :: query) = some .flagz := by
    unfold handleRoot
    simp only [hp]
    rw [if_neg hne]
    decide
  unfold handle
  simp only [hr]
  intro e
  cases e

/-! ### C82 -/

theorem drain_reads {Q : Type} {p : Parser Q} (hp : p.Ok) : ∀ (n : Nat) (bs : List Nat), bs.length ≤ n →
    Reads p bs (drain p n bs).1 (drain p n bs).2.2 ∧
    ((drain p n bs).2.2 = none → p (drain p n bs).2.1 = .more) := by
  intro n
  induction n with
  | zero =>
    intro bs hb
    have : bs = [] := List.length_eq_zero_iff.1 (by omega)
    subst this
    exact ⟨.more hp.nil, fun _ => hp.nil⟩
  | succ n ih =>
    intro bs hb
    unfold drain
    cases h : p bs with
    | done q k =>
      have hk := hp.pos bs q k h
      obtain ⟨h1, h2⟩ := ih (bs.drop k) (by rw [List.length_drop]; omega)
      exact ⟨.next h h1, h2⟩
    | more => exact ⟨.more h, fun _ => h⟩
    | bad e => exact ⟨.bad h, fun h => (by cases h)⟩

/-- More bytes after a stream: the requests found stay, and the others are in what was left with the new bytes. -/
theorem drain_append {Q : Type} {p : Parser Q} (hp : p.Ok) : ∀ (n : Nat) (bs : List Nat), bs.length ≤ n → ∀ (cs : List Nat) (qs : List Q) (r : Option Nat),
    (drain p n bs).2.2 = none → Reads p ((drain p n bs).2.1 ++ cs) qs r → Reads p (bs ++ cs) ((drain p n bs).1 ++ qs) r := by
  intro n
  induction n with
  | zero =>
    intro bs hb cs qs r _ h
    exact h
  | succ n ih =>
    intro bs hb cs qs r hn h
    unfold drain at hn h ⊢
    cases hd : p bs with
    | done q k =>
      rw [hd] at hn h
      have hk := hp.pos bs q k hd
      have := ih (bs.drop k) (by rw [List.length_drop]; omega) cs qs r hn h
      refine .next (hp.keep bs cs q k hd) ?_
      rw [List.drop_append_of_le_length hk.2]
      exact this
    | more => rw [hd] at h; exact h
    | bad e => rw [hd] at hn; cases hn

theorem reads_bad {Q : Type} {p : Parser Q} (hp : p.Ok) {bs cs : List Nat} {qs : List Q} {e : Nat} (h : Reads p bs qs (some e)) :
    Reads p (bs ++ cs) qs (some e) := by
  generalize hr : some e = r at h
  induction h with
  | more h => cases hr
  | bad h => cases hr; exact .bad (hp.bad _ _ _ h)
  | next h _ ih =>
    refine .next (hp.keep _ cs _ _ h) ?_
    rw [List.drop_append_of_le_length (hp.pos _ _ _ h).2]
    exact ih hr

/-- C82, the meaning of the bytes is unique. -/
theorem C82_unique {Q : Type} {p : Parser Q} {bs : List Nat} {qs qs' : List Q} {r r' : Option Nat} (h : Reads p bs qs r) (h' : Reads p bs qs' r') :
    qs = qs' ∧ r = r' := by
  induction h generalizing qs' r' with
  | more h => cases h' with
    | more _ => exact ⟨rfl, rfl⟩
    | bad h2 => rw [h] at h2; cases h2
    | next h2 _ => rw [h] at h2; cases h2
  | bad h => cases h' with
    | more h2 => rw [h] at h2; cases h2
    | bad h2 => rw [h] at h2; cases h2; exact ⟨rfl, rfl⟩
    | next h2 _ => rw [h] at h2; cases h2
  | next h _ ih => cases h' with
    | more h2 => rw [h] at h2; cases h2
    | bad h2 => rw [h] at h2; cases h2
    | next h2 h3 =>
      rw [h] at h2; cases h2
      obtain ⟨a, b⟩ := ih h3
      exact ⟨by rw [a], b⟩

/-- C82, the requests handled on a connection are those of the whole stream of bytes, each once and in order, in whatever pieces the
socket gave it. -/
theorem C82_pieces {Q : Type} {p : Parser Q} (hp : p.Ok) : ∀ (chunks : List (List Nat)) (buf : List Nat),
    Reads p (buf ++ chunks.flatten) (serve p buf chunks).1 (serve p buf chunks).2
  | [], buf => by
    rw [List.flatten_nil, List.append_nil]
    exact (drain_reads hp buf.length buf (Nat.le_refl _)).1
  | c :: cs, buf => by
    unfold serve
    simp only
    cases h : (drain p buf.length buf).2.2 with
    | some e =>
      have := (drain_reads hp buf.length buf (Nat.le_refl _)).1
      rw [h] at this
      exact reads_bad hp this
    | none =>
      have ih := C82_pieces hp cs ((drain p buf.length buf).2.1 ++ c)
      rw [List.append_assoc] at ih
      rw [List.flatten_cons]
      exact drain_append hp buf.length buf (Nat.le_refl _) _ _ _ h ih

/-- C82, the same if the first bytes were given to `ParseFromBuffer`, unless it reports an error: together the requests handled are those
of the whole stream. -/
theorem C82_from_buffer_partial {Q : Type} {p : Parser Q} (hp : p.Ok) (bs : List Nat) (chunks : List (List Nat)) (c : Conn Q)
    (h : parseFromBuffer p ⟨[], []⟩ bs = some (c, none)) :
    Reads p (bs ++ chunks.flatten) (c.handled ++ (serve p c.buf chunks).1) (serve p c.buf chunks).2 := by
  unfold parseFromBuffer at h
  simp only at h
  split at h
  · cases h
  · rename_i hn
    split at h
    · cases h
    · split at h
      · cases h
      · cases h
        simp only [List.nil_append]
        have := C82_pieces hp chunks (drain p bs.length bs).2.1
        exact drain_append hp bs.length bs (Nat.le_refl _) _ _ _ hn this

/-- C82, the error is that of the parser or that more than 4096 bytes of a request were left, and up to there the requests are handled. -/
theorem C82_buffer_error {Q : Type} {p : Parser Q} (hp : p.Ok) (bs : List Nat) (c : Conn Q) (e : Nat)
    (h : parseFromBuffer p ⟨[], []⟩ bs = some (c, some e)) :
    Reads p bs c.handled (some e) ∨ (e = EOVERFLOW ∧ Reads p bs c.handled none ∧ 4096 < bs.length) := by
  have hr := (drain_reads hp bs.length bs (Nat.le_refl _)).1
  unfold parseFromBuffer at h
  simp only at h
  split at h
  · rename_i e' he
    cases h
    rw [he] at hr
    exact Or.inl (by simpa using hr)
  · rename_i hn
    rw [hn] at hr
    split at h
    · rename_i hl
      cases h
      refine Or.inr ⟨rfl, by simpa using hr, ?_⟩
      have : ∀ (n : Nat) (bs : List Nat), (drain p n bs).2.1.length ≤ bs.length := by
        intro n
        induction n with
        | zero => intro bs; exact Nat.le_refl _
        | succ n ih =>
          intro bs
          unfold drain
          cases hd : p bs with
          | done q k => exact Nat.le_trans (ih _) (by rw [List.length_drop]; omega)
          | more => exact Nat.le_refl _
          | bad e => exact Nat.le_refl _
      have := this bs.length bs
      unfold maxBuf at hl
      omega
    · split at h <;> cases h

/-- A small parser for examples: the first byte says how many bytes follow, 255 is an error. -/
def toy : Parser (List Nat)
  | [] => .more
  | n :: bs => if n = 255 then .bad 1 else if n ≤ bs.length then .done (bs.take n) (n + 1) else .more

theorem toy_ok : toy.Ok where
  pos := by
    intro bs q n h
    cases bs with
    | nil => cases h
    | cons k bs =>
      simp only [toy] at h
      split at h
      · cases h
      · split at h
        · cases h; simp; omega
        · cases h
  keep := by
    intro bs cs q n h
    cases bs with
    | nil => cases h
    | cons k bs =>
      simp only [toy] at h
      rw [List.cons_append]
      simp only [toy]
      split at h
      · cases h
      · rename_i h1
        split at h
        · rename_i h2
          cases h
          rw [if_neg h1, if_pos (by rw [List.length_append]; omega), List.take_append_of_le_length h2]
        · cases h
  bad := by
    intro bs cs e h
    cases bs with
    | nil => cases h
    | cons k bs =>
      simp only [toy] at h
      rw [List.cons_append]
      simp only [toy]
      split at h
      · rename_i h1
        rw [if_pos h1]; exact h
      · split at h <;> cases h
  nil := rfl

example : serve toy [] [[2, 5], [6, 0, 1], [7]] = ([[5, 6], [], [7]], none) := by decide
example : (parseFromBuffer toy ⟨[], []⟩ [1, 9, 2, 5]).map (fun r => (r.1.handled, r.1.buf, r.2)) = some ([[9]], [2, 5], none) := by decide

/-- C82 is false if `ParseFromBuffer` is called twice: the second call does not go on where the first one ended. -/
theorem C82_twice : ∃ c c' : Conn (List Nat), parseFromBuffer toy ⟨[], []⟩ [2, 5] = some (c, none) ∧
    parseFromBuffer toy c [1, 3] = some (c', none) ∧ c'.handled = [[3]] ∧ Reads toy ([2, 5] ++ [1, 3]) [[5, 1]] none :=
  ⟨⟨[2, 5], []⟩, ⟨[2, 5], [[3]]⟩, rfl, rfl, rfl, .next (q := [5, 1]) (n := 3) rfl (.more rfl)⟩

/-! ### C83 -/

theorem lexRel_noprefix : ∀ (b p : Path), canonical p → b ++ lexRel b p = p → ∃ rest, rest ≠ [] ∧ p = b ++ rest := by
  have key : ∀ (b p q : Path), (∀ c ∈ q ++ p, c ≠ ".." ∧ c ≠ ".") → (q ++ b) ++ lexRel b p = q ++ p → ∃ rest, rest ≠ [] ∧ p = b ++ rest := by
    intro b
    induction b with
    | nil =>
      intro p q hc he
      cases p with
      | nil =>
        exfalso
        simp [lexRel] at he
      | cons x p => exact ⟨x :: p, by simp, rfl⟩
    | cons y b ih =>
      intro p q hc he
      cases p with
      | nil =>
        exfalso
        have := congrArg List.length he
        simp [lexRel] at this
      | cons x p =>
        unfold lexRel at he
        split at he
        · rename_i e
          subst e
          obtain ⟨rest, h1, h2⟩ := ih p (q ++ [y]) (by simpa using hc) (by simpa using he)
          exact ⟨rest, h1, by rw [h2]; rfl⟩
        · exfalso
          have := congrArg List.length he
          simp at this
          omega
  intro b p hc he
  exact key b p [] (by rw [List.nil_append]; exact hc) (by simpa using he)

/-- C83, a file is sent only if its name leads, when it is checked, to something below the folder. -/
theorem C83_inside (folder : Path) (c : Canon) (o : Option Path) (q : Path) (hcan : ∀ p, c = .abs p → canonical p)
    (h : filez folder c o = .sent q) : ∃ rest, rest ≠ [] ∧ c = .abs (folder ++ rest) := by
  unfold filez at h
  cases c with
  | throws => cases h
  | rel => cases h
  | abs p =>
    simp only at h
    split at h
    · cases h
    · rename_i he
      obtain ⟨rest, h1, h2⟩ := lexRel_noprefix folder p (hcan p rfl) (Classical.not_not.1 he)
      exact ⟨rest, h1, by rw [h2]⟩

/-- C83, and if the file system does not change in between, this is the file that is sent. -/
theorem C83_sent_partial (folder : Path) (p q : Path) (hcan : canonical p) (o : Option Path) (hsame : ∀ q, o = some q → q = p)
    (h : filez folder (.abs p) o = .sent q) : ∃ rest, rest ≠ [] ∧ q = folder ++ rest := by
  obtain ⟨rest, h1, h2⟩ := C83_inside folder (.abs p) o q (fun p' e => by cases e; exact hcan) h
  refine ⟨rest, h1, ?_⟩
  unfold filez at h
  simp only at h
  split at h
  · cases h
  · cases o with
    | none => cases h
    | some q' =>
      cases h
      cases h2
      exact hsame q rfl

theorem lexRel_below : ∀ (b rest : Path), rest ≠ [] → lexRel b (b ++ rest) = rest
  | [], rest, h => by
    cases rest with
    | nil => exact absurd rfl h
    | cons x r => rfl
  | y :: b, rest, h => by
    rw [List.cons_append, lexRel, if_pos rfl]
    exact lexRel_below b rest h

/-- C83, every file below the folder that can be opened is sent. -/
theorem C83_served (folder rest q : Path) (h : rest ≠ []) : filez folder (.abs (folder ++ rest)) (some q) = .sent q := by
  unfold filez
  simp only
  rw [lexRel_below folder rest h, if_neg (by simp)]

example : filez ["tmp", "profile"] (.abs ["etc", "passwd"]) (some ["etc", "passwd"]) = .unauthorized := by decide
example : filez ["tmp", "profile"] (.abs ["tmp", "profile", "a.svg"]) (some ["tmp", "profile", "a.svg"]) = .sent ["tmp", "profile", "a.svg"] := by decide

/-- C83 is false if a link changes between the check and the opening, because the name is opened and not the path that was checked. -/
theorem C83_race : filez ["tmp", "profile"] (.abs ["tmp", "profile", "x"]) (some ["etc", "shadow"]) = .sent ["etc", "shadow"] := by decide

/-- C83, a name that the library cannot look up (too long, or in a directory without permission) ends the process. -/
theorem C83_crash (folder : Path) (o : Option Path) : filez folder .throws o = .crash := rfl

end Verif.HttpSrv
