import Verif.TlsHand.Spec
/-!
# C120: the TLS handshake
-/
namespace Verif.TlsHand

/-- What holds between two points of a call: the log only grows; what is produced is sent or pending, what is received is fed. -/
structure Ok (pre : List Nat) (s : S) : Prop where
  out : sent s.log ++ s.out = produced s.log
  fed : s.fed = pre ++ received s.log

theorem sendLoop_spec (pre : List Nat) : ∀ (l : List WAns) (s : S), Ok pre s → s.out ≠ [] → s.isOpen = true →
    ∃ t, (sendLoop s l).2.log = s.log ++ t ∧ Ok pre (sendLoop s l).2 ∧ (sendLoop s l).2.isOpen = true ∧ connects t = 0 ∧
      ((sendLoop s l).1 = .ok → (sendLoop s l).2.out = [] ∧ (∀ e ∈ t, ∃ bs, e = .sent bs) ∧ (sendLoop s l).2.wr.length < l.length) ∧
      (∀ e, (sendLoop s l).1 = .fail e → ∃ x, e = .net x ∧ (sendLoop s l).2.log.getLast? = some (.sendErr x)) ∧
      (sendLoop s l).1 ≠ .rounds ∧ (sendLoop s l).2.rd = s.rd
  | [], s, I, _, ho => ⟨[], by simp [sendLoop], ⟨I.out, I.fed⟩, ho, rfl, by simp [sendLoop], by simp [sendLoop], by simp [sendLoop], rfl⟩
  | .err e :: l, s, I, _, ho => by
    refine ⟨[.sendErr e], rfl, ⟨?_, ?_⟩, ho, rfl, by simp [sendLoop], ?_, by simp [sendLoop], rfl⟩
    · have := I.out; simpa [sendLoop, S.emit, sent, produced] using this
    · have := I.fed; simpa [sendLoop, S.emit, received] using this
    · intro x hx; simp only [sendLoop, Res.fail.injEq] at hx; exact ⟨e, hx.symm, by simp [sendLoop, S.emit]⟩
  | .took k :: l, s, I, hne, ho => by
    by_cases hk : k = 0
    · refine ⟨[], by simp [sendLoop, hk], ?_, ?_, rfl, by simp [sendLoop, hk], by simp [sendLoop, hk], by simp [sendLoop, hk], by simp [sendLoop, hk]⟩
      · simp only [sendLoop, hk, if_true]; exact ⟨I.out, I.fed⟩
      · simp only [sendLoop, hk, if_true]; exact ho
    · let s' := S.emit { s with out := s.out.drop k, wr := l } (.sent (s.out.take k))
      have I' : Ok pre s' := by
        constructor
        · have := I.out
          simp only [s', S.emit, sent, produced, List.flatMap_append, List.flatMap_cons, List.flatMap_nil, List.append_nil] at this ⊢
          rw [List.append_assoc, List.take_append_drop]; exact this
        · have := I.fed
          simpa [s', S.emit, received] using this
      have hl : s'.log = s.log ++ [.sent (s.out.take k)] := rfl
      have e : sendLoop s (.took k :: l) = if s'.out.isEmpty then (.ok, s') else sendLoop s' l := by
        rw [sendLoop, if_neg hk]
      rw [e]
      split
      · rename_i hem
        refine ⟨[.sent (s.out.take k)], hl, I', ho, rfl, ?_, by simp, by simp, rfl⟩
        intro _
        exact ⟨by simpa using hem, by simp, by simp [s', S.emit]⟩
      · rename_i hem
        obtain ⟨t, a, b, c, d, f, g, h, i⟩ := sendLoop_spec pre l s' I' (by simpa using hem) ho
        refine ⟨.sent (s.out.take k) :: t, by rw [a, hl]; simp, b, c, by simpa [connects] using d, ?_, g, h, i⟩
        intro hok
        obtain ⟨x, y, z⟩ := f hok
        refine ⟨x, ?_, by simp; omega⟩
        intro ev hev
        simp only [List.mem_cons] at hev
        rcases hev with rfl | hev
        · exact ⟨_, rfl⟩
        · exact y ev hev

theorem sendOutput_spec (pre : List Nat) (s : S) (I : Ok pre s) (ho : s.isOpen = true) :
    ∃ t, (sendOutput s).2.log = s.log ++ t ∧ Ok pre (sendOutput s).2 ∧ (sendOutput s).2.isOpen = true ∧ connects t = 0 ∧
      ((sendOutput s).1 = .ok → (sendOutput s).2.out = [] ∧ (∀ e ∈ t, ∃ bs, e = .sent bs) ∧
        (if s.out = [] then (sendOutput s).2.wr = s.wr else (sendOutput s).2.wr.length < s.wr.length)) ∧
      (∀ e, (sendOutput s).1 = .fail e → ∃ x, e = .net x ∧ (sendOutput s).2.log.getLast? = some (.sendErr x)) ∧
      (sendOutput s).1 ≠ .rounds ∧ (sendOutput s).2.rd = s.rd := by
  unfold sendOutput
  split
  · rename_i h
    have h' : s.out = [] := by simpa using h
    exact ⟨[], by simp, I, ho, rfl, fun _ => ⟨h', by simp, by simp [h']⟩, by simp, by simp, rfl⟩
  · rename_i h
    have h' : s.out ≠ [] := by simpa using h
    obtain ⟨t, a, b, c, d, f, g, i, j⟩ := sendLoop_spec pre s.wr s I h' ho
    exact ⟨t, a, b, c, d, fun hok => ⟨(f hok).1, (f hok).2.1, by rw [if_neg h']; exact (f hok).2.2⟩, g, i, j⟩

theorem handleOp_spec (pre : List Nat) (s : S) (I : Ok pre s) (ho : s.isOpen = true) (hem : s.out = []) (r : HRes) :
    ∃ t, (handleOp s r).2.log = s.log ++ t ∧ Ok pre (handleOp s r).2 ∧ (handleOp s r).2.isOpen = true ∧ connects t = 0 ∧
      (∀ e, (handleOp s r).1 = .fail e → ∃ ev, (handleOp s r).2.log.getLast? = some ev ∧ Cause .reset e ev ∧ (∀ r o, ev ≠ .hand r o) ∧ ∀ x, ev ≠ .conn x) ∧
      (handleOp s r).1 ≠ .rounds ∧
      ((handleOp s r).1 = .ok → (handleOp s r).2.wr = s.wr ∧ (r = .needRead → (handleOp s r).2.rd.length < s.rd.length) ∧ (handleOp s r).2.rd.length ≤ s.rd.length) := by
  have hs : sendOutput s = (.ok, s) := by simp [sendOutput, hem]
  cases r with
  | needRead =>
    simp only [handleOp, readInput, hs]
    split
    · exact ⟨[], by simp, I, ho, rfl, by simp, by simp, by simp⟩
    · rename_i e l hrd
      refine ⟨[.gotErr e], rfl, ⟨?_, ?_⟩, ho, rfl, ?_, by simp, by simp⟩
      · have := I.out; simpa [S.emit, sent, produced] using this
      · have := I.fed; simpa [S.emit, received] using this
      · intro x hx; cases hx; exact ⟨.gotErr e, by simp [S.emit], rfl, by simp, by simp⟩
    · rename_i l hrd
      refine ⟨[.gotEof], rfl, ⟨?_, ?_⟩, ho, rfl, ?_, by simp, by simp⟩
      · have := I.out; simpa [S.emit, sent, produced] using this
      · have := I.fed; simpa [S.emit, received] using this
      · intro x hx; cases hx; exact ⟨.gotEof, by simp [S.emit], rfl, by simp, by simp⟩
    · rename_i bs l hrd
      split
      · refine ⟨[.gotEof], rfl, ⟨?_, ?_⟩, ho, rfl, ?_, by simp, by simp⟩
        · have := I.out; simpa [S.emit, sent, produced] using this
        · have := I.fed; simpa [S.emit, received] using this
        · intro x hx; cases hx; exact ⟨.gotEof, by simp [S.emit], rfl, by simp, by simp⟩
      · refine ⟨[.got bs], rfl, ⟨?_, ?_⟩, ho, rfl, by simp, by simp, ?_⟩
        · have := I.out; simpa [S.emit, sent, produced] using this
        · have := I.fed; simp [S.emit, received] at this ⊢; rw [this]; simp
        · intro _; exact ⟨rfl, fun _ => by simp [S.emit, hrd], by simp [S.emit, hrd]⟩
  | needWrite =>
    simp only [handleOp, hs]
    exact ⟨[], by simp, I, ho, rfl, by simp, by simp, by simp⟩
  | _ => exact ⟨[], by simp [handleOp], I, ho, rfl, by simp [handleOp], by simp [handleOp], by simp [handleOp]⟩

theorem handshake_ok {pre : List Nat} {E : Engine} {s : S} (I : Ok pre s) : Ok pre (handshake E s).2 := by
  constructor
  · have := I.out
    simp only [handshake, S.emit, sent, produced, List.flatMap_append, List.flatMap_cons, List.flatMap_nil, List.append_nil] at this ⊢
    rw [← List.append_assoc, this]
  · have := I.fed
    simpa [handshake, S.emit, received] using this

theorem connects_append (a b : List Ev) : connects (a ++ b) = connects a + connects b := by simp [connects]

theorem connectNext_spec (pre : List Nat) (c : Option Nat) (s : S) (I : Ok pre s) : ∃ r, connectNext c s = r ∧ Ok pre r.2 ∧
    (r.1 ≠ .ok → ∃ x, r.1 = .fail (.net x) ∧ r.2.log = s.log ++ [.conn (some x)] ∧ s.isOpen = false) ∧
    (r.1 = .ok → r.2.isOpen = true ∧ ∃ t, r.2.log = s.log ++ t ∧ (∀ e ∈ t, e = .conn none) ∧ connects t = if s.isOpen then 0 else 1) := by
  refine ⟨_, rfl, ?_⟩
  unfold connectNext
  split
  · rename_i ho
    exact ⟨I, by simp, fun _ => ⟨ho, [], by simp, by simp, rfl⟩⟩
  · rename_i ho
    split
    · refine ⟨⟨?_, ?_⟩, by simp, fun _ => ⟨rfl, [.conn none], rfl, by simp, rfl⟩⟩
      · have := I.out; simpa [S.emit, sent, produced] using this
      · have := I.fed; simpa [S.emit, received] using this
    · rename_i x
      refine ⟨⟨?_, ?_⟩, fun _ => ⟨x, rfl, rfl, by simpa using ho⟩, by simp⟩
      · have := I.out; simpa [S.emit, sent, produced] using this
      · have := I.fed; simpa [S.emit, received] using this

/-- Everything about a call at once. -/
theorem loop_spec (pre : List Nat) (E : Engine) (eof : Err) (c : Option Nat) : ∀ (n : Nat) (s : S), Ok pre s →
    Ok pre (loop E eof c n s).2 ∧
    connects (loop E eof c n s).2.log ≤ connects s.log + (if s.isOpen then 0 else 1) ∧
    ((loop E eof c n s).1 = .ok → (loop E eof c n s).2.out = [] ∧ (loop E eof c n s).2.isOpen = true ∧
      ∃ a o t, (loop E eof c n s).2.log = a ++ .hand .done o :: t ∧ ∀ e ∈ t, (∃ bs, e = .sent bs) ∨ e = .conn none) ∧
    (∀ e, (loop E eof c n s).1 = .fail e → ∃ ev, (loop E eof c n s).2.log.getLast? = some ev ∧ Cause eof e ev)
  | 0, s, I => ⟨I, by simp [loop], by simp [loop], by simp [loop]⟩
  | n + 1, s, I => by
    have I1 : Ok pre (handshake E s).2 := handshake_ok I
    have ho1 : (handshake E s).2.isOpen = s.isOpen := rfl
    have hl1 : (handshake E s).2.log = s.log ++ [.hand (handshake E s).1 (E s.calls s.fed).2] := rfl
    have hc1 : connects (handshake E s).2.log = connects s.log := by rw [hl1, connects_append]; rfl
    rw [loop]
    split
    · rename_i hr
      refine ⟨I1, by rw [hc1]; omega, by simp, ?_⟩
      intro e he
      cases he
      refine ⟨_, by rw [hl1, List.getLast?_append]; rfl, ?_⟩
      rcases hr with hr | hr <;> rw [hr] <;> rfl
    · rename_i hr
      obtain ⟨r, hre, I2, hcf, hcok⟩ := connectNext_spec pre c (handshake E s).2 I1
      rw [hre]
      split
      · rename_i s1
        obtain ⟨o1, t1, a1, ht1, d1⟩ := hcok rfl
        simp only at I2 o1 a1
        rw [ho1] at d1
        obtain ⟨t, a, b, o, d, f, g, _, _⟩ := sendOutput_spec pre s1 I2 o1
        have hc2 : connects (sendOutput s1).2.log = connects s.log + connects t1 := by
          rw [a, connects_append, d, a1, connects_append, hc1]; rfl
        split
        · rename_i s2 hs2
          rw [hs2] at a b o f hc2
          simp only at a b o f hc2
          have f' := f trivial
          split
          · rename_i hd
            refine ⟨b, by rw [hc2, d1]; exact Nat.le_refl _, ?_, by simp⟩
            intro _
            refine ⟨f'.1, o, s.log, (E s.calls s.fed).2, t1 ++ t, ?_, ?_⟩
            · rw [a, a1, hl1, hd]; simp
            · intro e he
              rcases List.mem_append.1 he with he | he
              · exact .inr (ht1 e he)
              · exact .inl (f'.2.1 e he)
          · obtain ⟨t2, a2, b2, o2, d2, g2, n2, _⟩ := handleOp_spec pre s2 b o f'.1 (handshake E s).1
            split
            · rename_i s3 hs3
              rw [hs3] at a2 b2 o2
              simp only at a2 b2 o2
              obtain ⟨j1, j2, j3, j4⟩ := loop_spec pre E eof c n s3 b2
              refine ⟨j1, ?_, j3, j4⟩
              have : connects s3.log = connects s.log + connects t1 := by rw [a2, connects_append, d2, hc2]; rfl
              rw [o2, this, d1] at j2
              simpa using j2
            · rename_i hne
              refine ⟨b2, ?_, ?_, ?_⟩
              · rw [a2, connects_append, d2, hc2, d1]; exact Nat.le_refl _
              · intro hok; exact (hne _ (Prod.ext hok rfl)).elim
              · intro e he
                obtain ⟨ev, h1, h2, h3, h4⟩ := g2 e he
                refine ⟨ev, h1, ?_⟩
                cases ev <;> simp_all [Cause]
        · rename_i hne
          refine ⟨b, by rw [hc2, d1]; exact Nat.le_refl _, ?_, ?_⟩
          · intro hok; exact (hne _ (Prod.ext hok rfl)).elim
          · intro e he
            obtain ⟨x, h1, h2⟩ := g e he
            exact ⟨_, h2, h1⟩
      · rename_i hne
        have hno : r.1 ≠ .ok := fun h => hne _ (Prod.ext h rfl)
        obtain ⟨x, h1, h2, h3⟩ := hcf hno
        refine ⟨I2, ?_, fun h => absurd h hno, ?_⟩
        · rw [h2, connects_append, hc1, ← ho1, h3]; exact Nat.le_refl _
        · intro e he
          rw [h1] at he
          cases he
          exact ⟨.conn (some x), by rw [h2]; simp, rfl⟩

theorem sendLoop_log : ∀ (l : List WAns) (s : S), s.log <+: (sendLoop s l).2.log
  | [], s => List.prefix_refl _
  | .err e :: l, s => ⟨[.sendErr e], rfl⟩
  | .took k :: l, s => by
    rw [sendLoop]
    split
    · exact List.prefix_refl _
    · simp only
      split
      · exact ⟨[.sent (s.out.take k)], rfl⟩
      · have := sendLoop_log l (S.emit { s with out := s.out.drop k, wr := l } (.sent (s.out.take k)))
        exact List.IsPrefix.trans ⟨[.sent (s.out.take k)], rfl⟩ this

theorem sendOutput_log (s : S) : s.log <+: (sendOutput s).2.log := by
  unfold sendOutput; split
  · exact List.prefix_refl _
  · exact sendLoop_log _ _

theorem handleOp_log (s : S) (r : HRes) : s.log <+: (handleOp s r).2.log := by
  cases r with
  | needRead =>
    simp only [handleOp, readInput]
    have := sendOutput_log s
    split
    · rename_i s2 hs2
      rw [hs2] at this
      refine List.IsPrefix.trans this ?_
      split
      · exact List.prefix_refl _
      · exact ⟨_, rfl⟩
      · exact ⟨_, rfl⟩
      · split <;> exact ⟨_, rfl⟩
    · exact this
  | needWrite => exact sendOutput_log s
  | _ => exact List.prefix_refl _

theorem loop_log (E : Engine) (eof : Err) (c : Option Nat) : ∀ (n : Nat) (s : S), s.log <+: (loop E eof c n s).2.log
  | 0, s => List.prefix_refl _
  | n + 1, s => by
    have h1 : s.log <+: (handshake E s).2.log := ⟨_, rfl⟩
    have h2 : (handshake E s).2.log <+: (connectNext c (handshake E s).2).2.log := by
      unfold connectNext; split
      · exact List.prefix_refl _
      · split <;> exact ⟨_, rfl⟩
    rw [loop]
    split
    · exact h1
    · split
      · rename_i s2 hs2
        rw [hs2] at h2
        have h3 := sendOutput_log s2
        split
        · rename_i s3 hs3
          rw [hs3] at h3
          split
          · exact (h1.trans h2).trans h3
          · have h4 := handleOp_log s3 (handshake E s).1
            split
            · rename_i s4 hs4
              rw [hs4] at h4
              exact (((h1.trans h2).trans h3).trans h4).trans (loop_log E eof c n s4)
            · exact ((h1.trans h2).trans h3).trans h4
        · exact (h1.trans h2).trans h3
      · exact h1.trans h2

theorem fresh_ok (o : Bool) (pre : List Nat) (wr : List WAns) (rd : List RAns) : Ok pre (fresh o pre wr rd) := ⟨rfl, by simp [fresh, received]⟩

/-- (Partial: that the pending rest is empty whenever a call returns is false, `C120_alert_not_sent`; it is empty after success.) Whatever the engine and the network do and however a call of `Accept` or `Connect` ends: the socket below got a prefix of what the engine put
out, once and in order, the rest is pending; and the engine was fed exactly the bytes that were given to `InitSSL` and those that came from the
peer, in order. -/
theorem C120_streams_partial (E : Engine) (c : Option Nat) (n : Nat) (o : Bool) (pre : List Nat) (wr : List WAns) (rd : List RAns) (s : S)
    (h : (accept E n (fresh true pre wr rd)).2 = s ∨ (connect E c n (fresh o pre wr rd)).2 = s) :
    sent s.log ++ s.out = produced s.log ∧ s.fed = pre ++ received s.log := by
  rcases h with rfl | rfl
  · have := (loop_spec pre E .reset none n _ (fresh_ok true pre wr rd)).1
    exact ⟨this.out, this.fed⟩
  · have := (loop_spec pre E .refused c n _ (fresh_ok o pre wr rd)).1
    exact ⟨this.out, this.fed⟩

/-- A call succeeds only after the engine said that the handshake is done, and then everything that the engine put out has been sent. -/
theorem C120_success (E : Engine) (c : Option Nat) (n : Nat) (o : Bool) (pre : List Nat) (wr : List WAns) (rd : List RAns) (s : S)
    (h : accept E n (fresh true pre wr rd) = (.ok, s) ∨ connect E c n (fresh o pre wr rd) = (.ok, s)) :
    sent s.log = produced s.log ∧ s.isOpen = true ∧
    ∃ a out t, s.log = a ++ .hand .done out :: t ∧ ∀ e ∈ t, (∃ bs, e = .sent bs) ∨ e = .conn none := by
  rcases h with h | h
  · obtain ⟨a, _, b, _⟩ := loop_spec pre E .reset none n _ (fresh_ok true pre wr rd)
    unfold accept at h
    rw [h] at a b
    have b' := b rfl
    have := a.out
    rw [b'.1] at this
    exact ⟨by simpa using this, b'.2⟩
  · obtain ⟨a, _, b, _⟩ := loop_spec pre E .refused c n _ (fresh_ok o pre wr rd)
    unfold connect at h
    rw [h] at a b
    have b' := b rfl
    have := a.out
    rw [b'.1] at this
    exact ⟨by simpa using this, b'.2⟩

/-- A call fails because of the last thing that happened, and the error says what it was. -/
theorem C120_errors (E : Engine) (c : Option Nat) (n : Nat) (o : Bool) (pre : List Nat) (wr : List WAns) (rd : List RAns) (s : S) (e : Err) :
    (accept E n (fresh true pre wr rd) = (.fail e, s) → ∃ ev, s.log.getLast? = some ev ∧ Cause .reset e ev) ∧
    (connect E c n (fresh o pre wr rd) = (.fail e, s) → ∃ ev, s.log.getLast? = some ev ∧ Cause .refused e ev) := by
  constructor
  · intro h
    obtain ⟨_, _, _, b⟩ := loop_spec pre E .reset none n _ (fresh_ok true pre wr rd)
    unfold accept at h
    rw [h] at b
    exact b e rfl
  · intro h
    obtain ⟨_, _, _, b⟩ := loop_spec pre E .refused c n _ (fresh_ok o pre wr rd)
    unfold connect at h
    rw [h] at b
    exact b e rfl

/-- An open socket is never connected again, a closed one at most once. -/
theorem C120_connects_once (E : Engine) (c : Option Nat) (n : Nat) (o : Bool) (pre : List Nat) (wr : List WAns) (rd : List RAns) :
    connects (connect E c n (fresh o pre wr rd)).2.log ≤ (if o then 0 else 1) := by
  have := (loop_spec pre E .refused c n _ (fresh_ok o pre wr rd)).2.1
  have h0 : connects (fresh o pre wr rd).log = 0 := rfl
  rw [h0, Nat.zero_add] at this
  exact this

/-- On a closed socket the engine is asked once, for its first bytes; then, before anything else, the socket is connected; if that fails the call
ends. -/
theorem C120_connects_first (E : Engine) (c : Option Nat) (n : Nat) (pre : List Nat) (wr : List WAns) (rd : List RAns) :
    ∃ t, (connect E c (n + 1) (fresh false pre wr rd)).2.log = .hand (E 0 pre).1 (E 0 pre).2 :: t ∧
      (t = [] ∨ t = [.conn c] ∨ (c = none ∧ ∃ t', t = .conn none :: t')) := by
  unfold connect
  rw [loop]
  have hl1 : (handshake E (fresh false pre wr rd)).2.log = [.hand (E 0 pre).1 (E 0 pre).2] := rfl
  split
  · exact ⟨[], hl1, .inl rfl⟩
  · cases c with
    | some x =>
      have hcn : connectNext (some x) (handshake E (fresh false pre wr rd)).2 =
          (.fail (.net x), (handshake E (fresh false pre wr rd)).2.emit (.conn (some x))) := rfl
      rw [hcn]
      exact ⟨[.conn (some x)], rfl, .inr (.inl rfl)⟩
    | none =>
      obtain ⟨s1, hcn, hlog⟩ : ∃ s1, connectNext none (handshake E (fresh false pre wr rd)).2 = (.ok, s1) ∧
          s1.log = [.hand (E 0 pre).1 (E 0 pre).2, .conn none] := ⟨_, rfl, rfl⟩
      rw [hcn]
      have key : ∀ s : S, s1.log <+: s.log →
          ∃ t, s.log = .hand (E 0 pre).1 (E 0 pre).2 :: t ∧ (t = [] ∨ t = [.conn none] ∨ (none = (none : Option Nat) ∧ ∃ t', t = .conn none :: t')) := by
        rintro s ⟨t, ht⟩
        rw [hlog] at ht
        exact ⟨.conn none :: t, ht.symm, .inr (.inr ⟨rfl, t, rfl⟩)⟩
      have h3 := sendOutput_log s1
      dsimp only
      split
      · rename_i s3 hs3
        rw [hs3] at h3
        split
        · exact key _ h3
        · have h4 := handleOp_log s3 (handshake E (fresh false pre wr rd)).1
          split
          · rename_i s4 hs4
            rw [hs4] at h4
            exact key _ ((h3.trans h4).trans (loop_log E .refused none n s4))
          · exact key _ (h3.trans h4)
      · exact key _ h3

/-- With an engine that asks to write only when it has something to write, every round uses up an answer of the socket below: a call does not spin. -/
theorem loop_rounds (pre : List Nat) (E : Engine) (hE : Sane E) (eof : Err) (c : Option Nat) : ∀ (n : Nat) (s : S), Ok pre s → s.out = [] →
    s.wr.length + s.rd.length < n → (loop E eof c n s).1 ≠ .rounds
  | 0, s, _, _, h => by omega
  | n + 1, s, I, hem, h => by
    have I1 : Ok pre (handshake E s).2 := handshake_ok I
    rw [loop]
    split
    · simp
    · rename_i hr
      have hcn : ∃ r, connectNext c (handshake E s).2 = r ∧ (r.1 = .ok → Ok pre r.2 ∧ r.2.isOpen = true ∧ r.2.wr = s.wr ∧ r.2.rd = s.rd ∧ r.2.out = (E s.calls s.fed).2) ∧ r.1 ≠ .rounds := by
        refine ⟨_, rfl, ?_, ?_⟩
        · unfold connectNext
          split
          · rename_i ho; intro _; exact ⟨I1, ho, rfl, rfl, by simp [handshake, S.emit, hem]⟩
          · split
            · intro _
              refine ⟨⟨?_, ?_⟩, rfl, rfl, rfl, by simp [handshake, S.emit, hem]⟩
              · have := I1.out; simpa [S.emit, sent, produced] using this
              · have := I1.fed; simpa [S.emit, received] using this
            · simp
        · unfold connectNext; split
          · simp
          · split <;> simp
      obtain ⟨r, hre, hok, hnr⟩ := hcn
      rw [hre]
      split
      · rename_i s2
        obtain ⟨I2, o2, w2, r2, u2⟩ := hok rfl
        simp only at I2 o2 w2 r2 u2
        obtain ⟨t, a, b, o, d, f, g, nr, i⟩ := sendOutput_spec pre s2 I2 o2
        split
        · rename_i s3 hs3
          rw [hs3] at b o f i
          simp only at b o f i
          have f' := f trivial
          split
          · simp
          · rename_i hdone
            obtain ⟨t2, a2, b2, o2', d2, g2, n2, k2⟩ := handleOp_spec pre s3 b o f'.1 (handshake E s).1
            split
            · rename_i s4 hs4
              rw [hs4] at b2 k2
              simp only at b2 k2
              have k := k2 trivial
              have hout : s4.out = [] := by
                revert hs4
                have hs : sendOutput s3 = (.ok, s3) := by simp [sendOutput, f'.1]
                cases (handshake E s).1 with
                | needRead =>
                  simp only [handleOp, readInput, hs]
                  split
                  · simp
                  · simp
                  · simp
                  · split
                    · simp
                    · intro hx; cases hx; exact f'.1
                | needWrite => simp only [handleOp, hs]; intro hx; cases hx; exact f'.1
                | _ => simp only [handleOp]; intro hx; cases hx; exact f'.1
              refine loop_rounds pre E hE eof c n s4 b2 hout ?_
              have hrd : s4.rd.length ≤ s.rd.length := by have := k.2.2; rw [i, r2] at this; exact this
              have hrd' : (handshake E s).1 = .needRead → s4.rd.length < s.rd.length := by
                intro hx; have := k.2.1 hx; rw [i, r2] at this; exact this
              have hwr : s4.wr = s3.wr := k.1
              have hw := f'.2.2
              by_cases hnw : (handshake E s).1 = .needWrite
              · have := hE s.calls s.fed hnw
                rw [u2, if_neg this, w2] at hw
                rw [hwr]; omega
              · have hnr' : (handshake E s).1 = .needRead := by
                  revert hr hnw hdone
                  cases (handshake E s).1 <;> simp
                have := hrd' hnr'
                have hle : s3.wr.length ≤ s.wr.length := by
                  split at hw
                  · rw [hw, w2]; exact Nat.le_refl _
                  · rw [w2] at hw; omega
                rw [hwr]; omega
            · exact n2
        · exact nr
      · exact hnr

/-- A call of `Accept` or `Connect` with such an engine takes no more rounds than the socket below gives answers, and one. -/
theorem C120_no_spin (E : Engine) (hE : Sane E) (c : Option Nat) (o : Bool) (pre : List Nat) (wr : List WAns) (rd : List RAns) (n : Nat)
    (h : wr.length + rd.length < n) :
    (accept E n (fresh true pre wr rd)).1 ≠ .rounds ∧ (connect E c n (fresh o pre wr rd)).1 ≠ .rounds :=
  ⟨loop_rounds pre E hE .reset none n _ (fresh_ok true pre wr rd) rfl h, loop_rounds pre E hE .refused c n _ (fresh_ok o pre wr rd) rfl h⟩

/-- When the engine gives up, the bytes that it put out in that call, which say why, are not sent, although the code says that it is important. -/
theorem C120_alert_not_sent (E : Engine) (n : Nat) (pre : List Nat) (wr : List WAns) (rd : List RAns)
    (h : (E 0 pre).1 = .abrupt) : accept E (n + 1) (fresh true pre wr rd) =
      (.fail .reset, { fresh true pre wr rd with out := (E 0 pre).2, calls := 1, log := [.hand .abrupt (E 0 pre).2] }) := by
  unfold accept
  rw [loop]
  have : (handshake E (fresh true pre wr rd)).1 = .abrupt := h
  rw [if_pos (.inl this)]
  simp only [handshake, fresh, S.emit, h, List.nil_append]

/-- An engine as a server: it reads a hello, answers, reads a last message. Byte 9 makes it put out an alert and give up. -/
def server : Engine := fun _ fed =>
  if 9 ∈ fed then (.abrupt, [21]) else if fed = [1] then (.needRead, [2, 3]) else if fed = [1, 4] then (.done, [5]) else (.needRead, [])

/-- It succeeds, with what it puts out sent in pieces; and a peer that sends nonsense sees no alert. -/
theorem C120_case :
    (∃ s, accept server 9 (fresh true [] [.took 1, .took 1, .took 7] [.data [1], .data [4]]) = (.ok, s) ∧ sent s.log = [2, 3, 5]) ∧
    (∃ s, accept server 9 (fresh true [] [.took 1] [.data [9]]) = (.fail .reset, s) ∧ sent s.log = [] ∧ s.out = [21]) :=
  ⟨⟨_, rfl, rfl⟩, ⟨_, rfl, rfl, rfl⟩⟩

example : Sane server := by
  intro k fed
  simp only [server]
  repeat' split
  all_goals simp

/-- An engine that asks to write with nothing to write makes the call spin. -/
theorem C120_spins (n : Nat) (s : S) (hs : s.isOpen = true) (ho : s.out = []) : (accept (fun _ _ => (.needWrite, [])) n s).1 = .rounds := by
  unfold accept
  induction n generalizing s with
  | zero => rfl
  | succ n ih =>
    rw [loop]
    have h1 : (handshake (fun _ _ => (.needWrite, [])) s).1 = .needWrite := rfl
    have h2 : (handshake (fun _ _ => (.needWrite, [])) s).2.out = [] := by simp [handshake, S.emit, ho]
    have h3 : (handshake (fun _ _ => (.needWrite, [])) s).2.isOpen = true := hs
    rw [if_neg (by rw [h1]; simp)]
    have h4 : connectNext none (handshake (fun _ _ => (.needWrite, [])) s).2 = (.ok, (handshake (fun _ _ => (.needWrite, [])) s).2) := by
      simp [connectNext, h3]
    have h5 : sendOutput (handshake (fun _ _ => (.needWrite, [])) s).2 = (.ok, (handshake (fun _ _ => (.needWrite, [])) s).2) := by
      simp [sendOutput, h2]
    rw [h4]
    simp only [h5]
    rw [if_neg (by rw [h1]; simp), h1]
    simp only [handleOp, h5]
    exact ih _ h3 h2

/-- A prefix that is longer than the input buffer of a new engine fails a CHECK. -/
theorem C120_prefix (cap : Nat) (pre : List Nat) (s : S) : initSSL cap pre s = none ↔ cap < pre.length := by
  unfold initSSL; split <;> simp <;> omega

end Verif.TlsHand
