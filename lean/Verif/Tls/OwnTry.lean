import Verif.Tls.OwnAsync

/-! # The invariant `Own`: non-blocking calls, and whole histories -/
namespace Verif.Tls

/-- Log entries of non-blocking calls. -/
def Obs.isT : Obs → Bool
  | .call .try_ _ | .enc .try_ _ | .ret .try_ _ | .fail .try_ _ | .rcall .try_ | .dec .try_ _
  | .rret .try_ _ | .rfail .try_ _ | .empty => true
  | _ => false

/-- What the loops of the non-blocking calls leave alone. -/
structure FrameT (s s1 : S) : Prop where
  fib : s1.fib = s.fib
  req : s1.req = s.req
  wown : s1.wown = s.wown
  rown : s1.rown = s.rown
  blk : s1.blocked = s.blocked
  drain : s1.drain = s.drain
  hook : s1.hook = s.hook
  shut : s1.shut = s.shut
  next : s1.nextShut = s.nextShut
  mark : s1.wmark = s.wmark
  log : ∃ l, s1.log = s.log ++ l ∧ ∀ o ∈ l, o.isT = true
  scr : s1.e.script.length ≤ s.e.script.length
  pro : s.e.produced <+: s1.e.produced

theorem FrameT.refl (s : S) : FrameT s s :=
  ⟨rfl, rfl, rfl, rfl, rfl, rfl, rfl, rfl, rfl, rfl, ⟨[], by simp⟩, Nat.le_refl _, List.prefix_refl _⟩

theorem FrameT.trans {a b c : S} (h : FrameT a b) (k : FrameT b c) : FrameT a c := by
  obtain ⟨h1, h2, h3, h4, h5, h6, h7, h8, h9, h9', ⟨l, h10, h11⟩, h12, h13⟩ := h
  obtain ⟨k1, k2, k3, k4, k5, k6, k7, k8, k9, k9', ⟨m, k10, k11⟩, k12, k13⟩ := k
  refine ⟨k1.trans h1, k2.trans h2, k3.trans h3, k4.trans h4, k5.trans h5, k6.trans h6, k7.trans h7,
    k8.trans h8, k9.trans h9, k9'.trans h9', ⟨l ++ m, by simp [k10, h10], ?_⟩, Nat.le_trans k12 h12, h13.trans k13⟩
  intro o ho
  rcases List.mem_append.1 ho with ho | ho
  · exact h11 o ho
  · exact k11 o ho

theorem frameT_emit (s : S) (l : List Obs) (h : ∀ o ∈ l, o.isT = true) : FrameT s (s.emit l) :=
  ⟨rfl, rfl, rfl, rfl, rfl, rfl, rfl, rfl, rfl, rfl, ⟨l, rfl, h⟩, Nat.le_refl _, List.prefix_refl _⟩

theorem frameT_ext (s : S) {e1 : Eng} (h : Ext s.e e1) : FrameT s { s with e := e1 } :=
  ⟨rfl, rfl, rfl, rfl, rfl, rfl, rfl, rfl, rfl, rfl, ⟨[], by simp⟩, h.scr, by obtain ⟨x, _, hx⟩ := h.q; exact ⟨x, hx.symm⟩⟩

theorem ans_spec {s s1 : S} {a : UpAns} (h : s.ans = (a, s1)) : ∃ l, s1 = { s with ups := l } := by
  unfold S.ans at h
  split at h
  · simp only [Prod.mk.injEq] at h; exact ⟨s.ups, h.2.symm⟩
  · simp only [Prod.mk.injEq] at h; exact ⟨_, h.2.symm⟩

/-- Flushing what the engine has produced. -/
theorem flushTry_spec {s s1 : S} {r : Except Err Bool} (h : Own s) (hw : s.wown = none) (e : s.flushTry = (r, s1)) :
    Own s1 ∧ FrameT s s1 ∧ s1.e.fed = s.e.fed ∧ s1.e.accepted = s.e.accepted ∧ s1.e.given = s.e.given ∧
      s1.log = s.log ∧ s1.arrived = s.arrived ∧ s1.e.script = s.e.script ∧
      s1.e.produced = s.e.produced ∧ s.wire <+: s1.wire ∧
      (r = .ok true → s1.e.out = []) ∧ (r = .ok false → s1.e.out ≠ []) ∧
      (∀ x, r = .error x → s1.e = s.e ∧ (x = .again ∨ x = .net)) := by
  unfold S.flushTry at e
  cases ha : s.ans with
  | mk a s2 =>
    rw [ha] at e
    obtain ⟨l, rfl⟩ := ans_spec ha
    have h2 : Own { s with ups := l } := own_congr h rfl rfl rfl rfl rfl rfl rfl
    have f2 : FrameT s { s with ups := l } :=
      ⟨rfl, rfl, rfl, rfl, rfl, rfl, rfl, rfl, rfl, rfl, ⟨[], by simp⟩, Nat.le_refl _, List.prefix_refl _⟩
    cases a with
    | sent k =>
      simp only [Prod.mk.injEq] at e; obtain ⟨rfl, rfl⟩ := e
      have hx : s.e.out.take (k + 1) = s.e.out.take (min (k + 1) s.e.out.length) := by
        by_cases hk : k + 1 ≤ s.e.out.length
        · rw [Nat.min_eq_left hk]
        · rw [Nat.min_eq_right (by omega), List.take_of_length_le (by omega), List.take_length]
      refine ⟨own_sent h2 hx hw, ⟨rfl, rfl, rfl, rfl, rfl, rfl, rfl, rfl, rfl, rfl, ⟨[], by simp⟩, Nat.le_refl _, List.prefix_refl _⟩, rfl, rfl,
        rfl, rfl, rfl, rfl, rfl, List.prefix_append _ _, ?_, ?_, by simp⟩
      · intro hd
        simp only [Except.ok.injEq, decide_eq_true_eq] at hd
        simp only [Eng.consume]
        rw [Nat.min_eq_right hd, List.drop_length]
      · intro hd
        simp only [Except.ok.injEq, decide_eq_false_iff_not] at hd
        simp only [Eng.consume]
        intro h0
        have := congrArg List.length h0
        simp at this
        omega
    | err =>
      simp only [Prod.mk.injEq] at e; obtain ⟨rfl, rfl⟩ := e
      exact ⟨h2, f2, rfl, rfl, rfl, rfl, rfl, rfl, rfl, List.prefix_refl _, by simp, by simp,
        fun x hx => ⟨rfl, by cases hx; simp⟩⟩
    | _ =>
      simp only [Prod.mk.injEq] at e; obtain ⟨rfl, rfl⟩ := e
      exact ⟨h2, f2, rfl, rfl, rfl, rfl, rfl, rfl, rfl, List.prefix_refl _, by simp, by simp,
        fun x hx => ⟨rfl, by cases hx; simp⟩⟩

/-- Reading from the socket below. -/
theorem fillTry_spec {s s1 : S} {r : Except Err Unit} (h : Own s) (e : s.fillTry = (r, s1)) :
    Own s1 ∧ FrameT s s1 ∧ s1.e.accepted = s.e.accepted ∧ s1.e.given = s.e.given ∧
      s1.log = s.log ∧ s1.e.script = s.e.script ∧ s1.e.out = s.e.out ∧
      s1.e.produced = s.e.produced ∧ s1.wire = s.wire ∧
      (∃ bs, s1.e.fed = s.e.fed ++ bs ∧ s1.arrived = s.arrived ++ bs) := by
  unfold S.fillTry at e
  cases ha : s.ans with
  | mk a s2 =>
    rw [ha] at e
    obtain ⟨l, rfl⟩ := ans_spec ha
    have h2 : Own { s with ups := l } := own_congr h rfl rfl rfl rfl rfl rfl rfl
    have f2 : FrameT s { s with ups := l } :=
      ⟨rfl, rfl, rfl, rfl, rfl, rfl, rfl, rfl, rfl, rfl, ⟨[], by simp⟩, Nat.le_refl _, List.prefix_refl _⟩
    cases a with
    | data bs =>
      simp only at e
      split at e
      · simp only [Prod.mk.injEq] at e; obtain ⟨rfl, rfl⟩ := e
        exact ⟨h2, f2, rfl, rfl, rfl, rfl, rfl, rfl, rfl, [], by simp⟩
      · simp only [Prod.mk.injEq] at e; obtain ⟨rfl, rfl⟩ := e
        exact ⟨own_commit h2, ⟨rfl, rfl, rfl, rfl, rfl, rfl, rfl, rfl, rfl, rfl, ⟨[], by simp⟩, Nat.le_refl _, List.prefix_refl _⟩,
          rfl, rfl, rfl, rfl, rfl, rfl, rfl, bs, rfl, rfl⟩
    | _ =>
      simp only [Prod.mk.injEq] at e; obtain ⟨rfl, rfl⟩ := e
      exact ⟨h2, f2, rfl, rfl, rfl, rfl, rfl, rfl, rfl, [], by simp⟩

/-- The optional flush of both loops. -/
theorem flushOpt_spec {s s1 : S} {r : Except Err Bool} (h : Own s) (hw : s.wown = none)
    (e : (if s.e.out = [] then (.ok true, s) else s.flushTry) = (r, s1)) :
    Own s1 ∧ FrameT s s1 ∧ s1.e.fed = s.e.fed ∧ s1.e.accepted = s.e.accepted ∧ s1.e.given = s.e.given ∧
      s1.log = s.log ∧ s1.arrived = s.arrived ∧ s1.e.script = s.e.script ∧
      s1.e.produced = s.e.produced ∧ s.wire <+: s1.wire ∧
      (r = .ok true → s1.e.out = []) ∧ (r = .ok false → s1.e.out ≠ []) ∧
      (∀ x, r = .error x → s1.e.out ≠ [] ∧ (x = .again ∨ x = .net)) := by
  by_cases ho : s.e.out = []
  · rw [if_pos ho] at e
    simp only [Prod.mk.injEq] at e; obtain ⟨rfl, rfl⟩ := e
    exact ⟨h, FrameT.refl _, rfl, rfl, rfl, rfl, rfl, rfl, rfl, List.prefix_refl _, fun _ => ho, by simp, by simp⟩
  · rw [if_neg ho] at e
    obtain ⟨a1, a2, a3, a4, a5, a6, a7, a8, a9, a10, a11, a12, a13⟩ := flushTry_spec h hw e
    exact ⟨a1, a2, a3, a4, a5, a6, a7, a8, a9, a10, a11, a12, fun x hx => ⟨by rw [(a13 x hx).1]; exact ho, (a13 x hx).2⟩⟩

theorem dropWhile_flatten (l : List (List Nat)) : (l.dropWhile (·.isEmpty)).flatten = l.flatten := by
  induction l with
  | nil => rfl
  | cons v l ih =>
    cases v with
    | nil => simpa [List.dropWhile] using ih
    | cons _ _ => simp [List.dropWhile]

/-- What the loop of `TrySend` did. -/
def TSent (s : S) (iov : List (List Nat)) (sent : Nat) (s1 : S) (sent1 : Nat) : Prop :=
  Own s1 ∧ FrameT s s1 ∧ s1.e.given = s.e.given ∧ sent ≤ sent1 ∧ sent1 - sent ≤ iov.flatten.length ∧
  s1.e.accepted = s.e.accepted ++ iov.flatten.take (sent1 - sent) ∧
  (∃ l : List (List Nat), s1.log = s.log ++ l.map (Obs.enc .try_) ∧
    l.flatten = iov.flatten.take (sent1 - sent)) ∧
  (s.e.fed = s.arrived → s1.e.fed = s1.arrived) ∧ (s.rown ≠ none → s1.e.fed = s.e.fed) ∧ s.wire <+: s1.wire

/-- The loop of `TrySend`: what it takes is a prefix of what it was given. -/
theorem tsLoop_spec (fuel : Nat) : ∀ (s : S) (iov : List (List Nat)) (sent : Nat) (s1 : S) (sent1 : Nat)
    (st : Option Err), Own s → s.wown = none →
    S.tsLoop fuel s iov sent = some (s1, sent1, st) →
    TSent s iov sent s1 sent1 := by
  induction fuel with
  | zero =>
    intro s iov sent s1 sent1 st h hw e
    simp only [S.tsLoop, Option.some.injEq, Prod.mk.injEq] at e
    obtain ⟨rfl, rfl, rfl⟩ := e
    exact ⟨h, FrameT.refl _, rfl, Nat.le_refl _, by simp, by simp, ⟨[], by simp⟩, fun x => x, fun _ => rfl, List.prefix_refl _⟩
  | succ fuel ih =>
    intro s iov sent s1 sent1 st h hw e
    rw [S.tsLoop] at e
    by_cases h0 : iov = [] ∧ s.e.out = []
    · rw [if_pos h0] at e
      simp only [Option.some.injEq, Prod.mk.injEq] at e
      obtain ⟨rfl, rfl, rfl⟩ := e
      exact ⟨h, FrameT.refl _, rfl, Nat.le_refl _, by simp, by simp, ⟨[], by simp⟩, fun x => x, fun _ => rfl, List.prefix_refl _⟩
    rw [if_neg h0] at e
    cases hfl : (if s.e.out = [] then ((.ok true, s) : Except Err Bool × S) else s.flushTry) with
    | mk r s2 =>
      rw [hfl] at e
      obtain ⟨a1, a2, a3, a4, a5, a6, a7, a8, a9, a10, a11, a12, a13⟩ := flushOpt_spec h hw hfl
      have stop : s1 = s2 → sent1 = sent →
          TSent s iov sent s1 sent1 := by
        rintro rfl rfl
        exact ⟨a1, a2, a5, Nat.le_refl _, by simp, by simp [a4], ⟨[], by simp [a6]⟩,
          fun x => by rw [a3, a7, x], fun _ => a3, a10⟩
      cases r with
      | error x =>
        simp only [Option.some.injEq, Prod.mk.injEq] at e
        exact stop e.1.symm e.2.1.symm
      | ok b =>
        cases b with
        | false =>
          simp only [Option.some.injEq, Prod.mk.injEq] at e
          exact stop e.1.symm e.2.1.symm
        | true =>
          simp only at e
          by_cases h1 : iov.dropWhile (·.isEmpty) = []
          · rw [if_pos h1] at e
            simp only [Option.some.injEq, Prod.mk.injEq] at e
            exact stop e.1.symm e.2.1.symm
          rw [if_neg h1] at e
          have hd := dropWhile_flatten iov
          generalize iov.dropWhile (·.isEmpty) = iov1 at e hd h1
          split at e
          · simp at e
          rename_i p hp
          have hp := push_spec hp
          obtain ⟨p1, p2, p3, p4, p5, p6, p7, p8, p9⟩ := hp
          simp only [Nat.sub_zero] at p4 p5
          obtain ⟨iov2, hadv, hadv2, _⟩ := advance_spec iov1 p.written p4
          rw [hadv] at e
          simp only at e
          rw [hd] at hadv2 p4 p5 e
          have o2 := own_emit (own_ext a1 p1) [.enc .try_ (iov.flatten.take p.written)]
          have f2 := (a2.trans (frameT_ext s2 p1)).trans
            (frameT_emit _ [.enc .try_ (iov.flatten.take p.written)] (by simp [Obs.isT]))
          generalize hs3 : ({ s2 with e := p.eng }.emit [.enc .try_ (iov.flatten.take p.written)] : S) = s3 at e o2 f2
          have q1 : s3.e = p.eng := by rw [← hs3]; rfl
          have q2 : s3.log = s.log ++ [.enc .try_ (iov.flatten.take p.written)] := by rw [← hs3, ← a6]; rfl
          have q3 : s3.arrived = s.arrived := by rw [← hs3, ← a7]; rfl
          have q4 : s3.wire = s2.wire := by rw [← hs3]; rfl
          have done : ∀ s4 : S, Own s4 → FrameT s3 s4 → s4.e.given = s3.e.given → s4.e.accepted = s3.e.accepted →
              s4.log = s3.log → (s3.e.fed = s3.arrived → s4.e.fed = s4.arrived) →
              (s.rown ≠ none → s4.e.fed = s3.e.fed) → s4.wire = s3.wire → s1 = s4 → sent1 = sent + p.written →
              TSent s iov sent s1 sent1 := by
            rintro s4 b1 b2 b3 b4 b5 b6 b7 b8 rfl rfl
            refine ⟨b1, f2.trans b2, by rw [b3, q1, p2, a5], by omega, by omega, ?_, ?_, ?_, ?_, ?_⟩
            · rw [b4, q1, p5, a4, show sent + p.written - sent = p.written by omega]
            · exact ⟨[iov.flatten.take p.written], by rw [b5, q2]; rfl, by simp [show sent + p.written - sent = p.written by omega]⟩
            · intro hx; exact b6 (by rw [q1, q3, p1.fed, a3, hx])
            · intro hx; rw [b7 hx, q1, p1.fed, a3]
            · rw [b8, q4]; exact a10
          have go : ∀ s4 : S, Own s4 → FrameT s3 s4 → s4.e.given = s3.e.given → s4.e.accepted = s3.e.accepted →
              s4.log = s3.log → (s3.e.fed = s3.arrived → s4.e.fed = s4.arrived) →
              (s.rown ≠ none → s4.e.fed = s3.e.fed) → s4.wire = s3.wire →
              S.tsLoop fuel s4 iov2 (sent + p.written) = some (s1, sent1, st) →
              TSent s iov sent s1 sent1 := by
            intro s4 b1 b2 b3 b4 b5 b6 b7 b8 e4
            have hw4 : s4.wown = none := by rw [(f2.trans b2).wown, hw]
            obtain ⟨c1, c2, c3, c4, c5, c6, ⟨l, c7, c7'⟩, c8, c9, c10⟩ := ih s4 iov2 _ _ _ _ b1 hw4 e4
            have hsub : sent1 - sent = p.written + (sent1 - (sent + p.written)) := by omega
            have htk : iov.flatten.take (sent1 - sent) =
                iov.flatten.take p.written ++ iov2.flatten.take (sent1 - (sent + p.written)) := by
              rw [hsub, List.take_add, hadv2]
            have hlen2 : iov2.flatten.length = iov.flatten.length - p.written := by rw [hadv2, List.length_drop]
            refine ⟨c1, (f2.trans b2).trans c2, by rw [c3, b3, q1, p2, a5], by omega, by omega, ?_, ?_, ?_, ?_, ?_⟩
            · rw [c6, b4, q1, p5, a4, htk, List.append_assoc]
            · exact ⟨iov.flatten.take p.written :: l, by rw [c7, b5, q2]; simp, by rw [htk, ← c7']; simp⟩
            · intro hx; exact c8 (b6 (by rw [q1, q3, p1.fed, a3, hx]))
            · intro hx; rw [c9 (by rw [(f2.trans b2).rown]; exact hx), b7 hx, q1, p1.fed, a3]
            · refine List.IsPrefix.trans ?_ c10; rw [b8, q4]; exact a10
          split at e
          · exact go s3 o2 (FrameT.refl _) rfl rfl rfl (fun x => x) (fun _ => rfl) rfl e
          · exact go s3 o2 (FrameT.refl _) rfl rfl rfl (fun x => x) (fun _ => rfl) rfl e
          · split at e
            · simp only [Option.some.injEq, Prod.mk.injEq] at e
              exact done s3 o2 (FrameT.refl _) rfl rfl rfl (fun x => x) (fun _ => rfl) rfl e.1.symm e.2.1.symm
            · rename_i hrn
              cases hfi : s3.fillTry with
              | mk r4 s4 =>
                rw [hfi] at e
                obtain ⟨d1, d2, d3, d4, d5, d6, d7, d8, d9, bs, d10, d11⟩ := fillTry_spec o2 hfi
                cases r4 with
                | ok u => exact go s4 d1 d2 d4 d3 d5 (fun x => by rw [d10, d11, x]) (fun x => absurd x (by simpa using hrn)) d9 e
                | error x =>
                  simp only [Option.some.injEq, Prod.mk.injEq] at e
                  exact done s4 d1 d2 d4 d3 d5 (fun x => by rw [d10, d11, x]) (fun x => absurd x (by simpa using hrn)) d9 e.1.symm e.2.1.symm
          · simp only [Option.some.injEq, Prod.mk.injEq] at e
            exact done s3 o2 (FrameT.refl _) rfl rfl rfl (fun x => x) (fun _ => rfl) rfl e.1.symm e.2.1.symm
          · simp only [Option.some.injEq, Prod.mk.injEq] at e
            exact done s3 o2 (FrameT.refl _) rfl rfl rfl (fun x => x) (fun _ => rfl) rfl e.1.symm e.2.1.symm

/-- A background write is started. -/
theorem startFlush_spec {s s1 : S} {d : Bool} (h : Own s) (hw : s.wown = none) (e : s.startFlush d = some s1) :
    Own s1 ∧ s.req .writer = none ∧ s.e.out ≠ [] ∧
      s1 = { s with
        drain := s.drain || d
        wown := some (.req .writer)
        req := fun g => if g = .writer then some ⟨.flush d, 0, false, .wr s.e.out⟩ else s.req g } := by
  unfold S.startFlush at e
  split at e
  · simp at e
  rename_i hq
  have hq : s.req .writer = none := Classical.byContradiction hq
  have hb : s.blocked ≠ some .writer := fun hb => (h.bl _ hb).2 hq
  have hf := h.freeQ_none hq hb
  have h1 : Own { s with drain := s.drain || d } := own_congr h rfl rfl rfl rfl rfl rfl rfl
  have h2 := own_setReq (ρ := .writer) (q := some ⟨.flush d, 0, false, .none⟩) h1 ⟨hf.w, hf.r, hf.b⟩ (by simp)
    (by simp [Kind.ok])
  have h3 := own_startUpW h2 ⟨hf.w, hf.r, hf.b⟩ (by rw [setReq_same]; simp) e
  unfold S.startUpW at e
  simp only [S.setReq, hw] at e
  split at e
  · simp at e
  · rename_i ho
    simp only [Option.some.injEq] at e
    refine ⟨h3, hq, ho, ?_⟩
    rw [← e]
    simp only [S.modReq, S.setReq, if_true, Option.map_some]
    congr 1
    funext g
    by_cases hg : g = .writer <;> simp [hg]

/-- What the loop of `TryRecv` did. -/
structure TRecv (s : S) (got : Nat) (s1 : S) (got1 : Nat) (st : Option Err) : Prop where
  own : Own s1
  fib : s1.fib = s.fib
  rown : s1.rown = s.rown
  blk : s1.blocked = s.blocked
  hook : s1.hook = s.hook
  shut : s1.shut = s.shut
  next : s1.nextShut = s.nextShut
  mark : s1.wmark = s.wmark
  pro : s.e.produced <+: s1.e.produced
  rreq : s1.req .reader = s.req .reader
  acc : s1.e.accepted = s.e.accepted
  ge : got ≤ got1
  dat : ∃ l : List (List Nat), ∃ l2, s1.log = s.log ++ (l.map (Obs.dec .try_) ++ l2) ∧
    l.flatten.length = got1 - got ∧ s1.e.given = s.e.given ++ l.flatten ∧
    (l2 = [] ∨ l2 = [.empty] ∧ st = some .again)
  arr : s.e.fed = s.arrived → s1.e.fed = s1.arrived
  fed : s.rown ≠ none → s1.e.fed = s.e.fed
  ext : s.wire <+: s1.wire
  bg : (s1.wown = s.wown ∧ s1.req = s.req ∧ s1.drain = s.drain) ∨
    (s.wown = none ∧ s.req .writer = none ∧ s1.drain = true ∧ s1.wown = some (.req .writer) ∧
      ∃ buf, s1.req .writer = some ⟨.flush true, 0, false, .wr buf⟩)
  again : st = some .again → (s1.drain = true ∧ s1.wown ≠ none) ∨ .empty ∈ s1.log.drop s.log.length
  busy : st = some .busy → s1.wown ≠ none ∧ s1.drain = false ∨ s1.rown ≠ none

/-- Doing more before. -/
theorem TRecv.after {s s2 s1 : S} {got got2 got1 : Nat} {st : Option Err} (h : TRecv s2 got2 s1 got1 st)
    (f : FrameT s s2) (acc : s2.e.accepted = s.e.accepted) (ge : got ≤ got2)
    (dat : ∃ l : List (List Nat), s2.log = s.log ++ l.map (Obs.dec .try_) ∧ l.flatten.length = got2 - got ∧
      s2.e.given = s.e.given ++ l.flatten)
    (arr : s.e.fed = s.arrived → s2.e.fed = s2.arrived) (fed : s.rown ≠ none → s2.e.fed = s.e.fed)
    (ext : s.wire <+: s2.wire) : TRecv s got s1 got1 st := by
  obtain ⟨l, d1, d2, d3⟩ := dat
  obtain ⟨m, m2, e1, e2, e3, e4⟩ := h.dat
  refine ⟨h.own, h.fib.trans f.fib, h.rown.trans f.rown, h.blk.trans f.blk, h.hook.trans f.hook, h.shut.trans f.shut,
    h.next.trans f.next, h.mark.trans f.mark, f.pro.trans h.pro, h.rreq.trans (by rw [f.req]), h.acc.trans acc, Nat.le_trans ge h.ge,
    ⟨l ++ m, m2, by rw [e1, d1]; simp, ?_, by rw [e3, d3]; simp, e4⟩, fun x => h.arr (arr x),
    fun x => (h.fed (by rw [f.rown]; exact x)).trans (fed x), ext.trans h.ext, ?_, ?_, h.busy⟩
  · have := h.ge; simp only [List.flatten_append, List.length_append]; omega
  · rcases h.bg with b | b
    · exact Or.inl ⟨b.1.trans f.wown, b.2.1.trans f.req, b.2.2.trans f.drain⟩
    · exact Or.inr ⟨f.wown ▸ b.1, f.req ▸ b.2.1, b.2.2⟩
  · intro x
    rcases h.again x with b | b
    · exact Or.inl b
    · refine Or.inr ?_
      rw [e1, d1] at b ⊢
      simp only [List.append_assoc, List.drop_left] at b ⊢
      have : ((s.log ++ List.map (Obs.dec Src.try_) l) ++ (List.map (Obs.dec Src.try_) m ++ m2)).drop
          (s.log ++ List.map (Obs.dec Src.try_) l).length = List.map (Obs.dec Src.try_) m ++ m2 := List.drop_left
      rw [List.append_assoc] at this
      rw [this] at b
      exact List.mem_append_right _ b

/-- Stopping. -/
theorem TRecv.stop {s s1 : S} {got : Nat} {st : Option Err} (o : Own s1) (f : FrameT s s1)
    (acc : s1.e.accepted = s.e.accepted) (log : s1.log = s.log) (giv : s1.e.given = s.e.given)
    (arr : s.e.fed = s.arrived → s1.e.fed = s1.arrived) (fed : s.rown ≠ none → s1.e.fed = s.e.fed)
    (ext : s.wire <+: s1.wire) (again : st = some .again → s.drain = true ∧ s.wown ≠ none)
    (busy : st = some .busy → s.wown ≠ none ∧ s.drain = false ∨ s.rown ≠ none) : TRecv s got s1 got st :=
  ⟨o, f.fib, f.rown, f.blk, f.hook, f.shut, f.next, f.mark, f.pro, by rw [f.req], acc, Nat.le_refl _,
    ⟨[], [], by simp [log], by simp, by simp [giv], Or.inl rfl⟩, arr, fed, ext, Or.inl ⟨f.wown, f.req, f.drain⟩,
    fun x => Or.inl (by rw [f.drain, f.wown]; exact again x), fun x => by rw [f.drain, f.wown, f.rown]; exact busy x⟩

/-- Stopping with a background write. -/
theorem TRecv.flush {s s2 s1 : S} {got : Nat} (o : Own s2) (f : FrameT s s2) (hw : s.wown = none)
    (acc : s2.e.accepted = s.e.accepted) (log : s2.log = s.log) (giv : s2.e.given = s.e.given)
    (arr : s.e.fed = s.arrived → s2.e.fed = s2.arrived) (fed : s.rown ≠ none → s2.e.fed = s.e.fed)
    (ext : s.wire <+: s2.wire) (e : s2.startFlush true = some s1) : TRecv s got s1 got (some .again) := by
  obtain ⟨o1, q, ho, rfl⟩ := startFlush_spec o (by rw [f.wown, hw]) e
  refine ⟨o1, f.fib, f.rown, f.blk, f.hook, f.shut, f.next, f.mark, f.pro, ?_, acc, Nat.le_refl _,
    ⟨[], [], by simp [log], by simp, by simp [giv], Or.inl rfl⟩, arr, fed, ext,
    Or.inr ⟨hw, by rw [← f.req]; exact q, by simp, rfl, s2.e.out, by simp⟩, fun _ => Or.inl ⟨by simp, by simp⟩, by simp⟩
  simp [f.req]

theorem trLoop_spec (fuel : Nat) : ∀ (s : S) (n got : Nat) (s1 : S) (got1 : Nat) (st : Option Err), Own s →
    S.trLoop fuel s n got = some (s1, got1, st) → TRecv s got s1 got1 st := by
  induction fuel with
  | zero =>
    intro s n got s1 got1 st h e
    simp only [S.trLoop, Option.some.injEq, Prod.mk.injEq] at e
    obtain ⟨rfl, rfl, rfl⟩ := e
    exact .stop h (FrameT.refl _) rfl rfl rfl (fun x => x) (fun _ => rfl) (List.prefix_refl _) (by simp) (by simp)
  | succ fuel ih =>
    intro s n got s1 got1 st h e
    cases n with
    | zero =>
      simp only [S.trLoop, Option.some.injEq, Prod.mk.injEq] at e
      obtain ⟨rfl, rfl, rfl⟩ := e
      exact .stop h (FrameT.refl _) rfl rfl rfl (fun x => x) (fun _ => rfl) (List.prefix_refl _) (by simp) (by simp)
    | succ n =>
      rw [S.trLoop] at e
      cases hr : s.e.read (n + 1) with
      | mk r e1 =>
        rw [hr] at e
        have hs := read_spec hr
        have x2 := own_ext h hs.1
        have f2 := frameT_ext s hs.1
        have hfed := hs.1.fed
        have hacc := hs.2.1
        cases r with
        | ok bs =>
          simp only at e
          obtain ⟨_, _, r1, r2, r3, r4⟩ := hs
          have := ih _ _ _ _ _ _ (own_emit x2 [.dec .try_ bs]) e
          refine this.after (f2.trans (frameT_emit _ _ (by simp [Obs.isT]))) hacc (by omega)
            ⟨[bs], rfl, by simp, by simpa [S.emit] using r3⟩ (fun x => ?_) (fun _ => hfed) (List.prefix_refl _)
          show e1.fed = s.arrived
          rw [hfed, x]
        | error o =>
          have harr : s.e.fed = s.arrived → e1.fed = s.arrived := fun x => by rw [hfed, x]
          have hgiv : e1.given = s.e.given := hs.2.2.1
          have main : ∀ o', (o = .needRead ∨ o = .needWrite) →
              (if s.wown ≠ none then some (({ s with e := e1 } : S), got, some (if s.drain then Err.again else .busy))
              else match (if e1.out = [] then (.ok true, ({ s with e := e1 } : S)) else S.flushTry { s with e := e1 }) with
                | (.error .again, s2) =>
                  match s2.startFlush true with
                  | none => none
                  | some s3 => some (s3, got, some .again)
                | (.error e, s2) => some (s2, got, some e)
                | (.ok false, s2) =>
                  match s2.startFlush true with
                  | none => none
                  | some s3 => some (s3, got, some .again)
                | (.ok true, s2) =>
                  if o' = Op.needWrite then S.trLoop fuel s2 (n + 1) got
                  else if s.rown ≠ none then some (s2, got, some .busy)
                  else match s2.fillTry with
                  | (.ok _, s3) => S.trLoop fuel s3 (n + 1) got
                  | (.error .again, s3) => some (s3.emit [.empty], got, some .again)
                  | (.error e, s3) => some (s3, got, some e)) = some (s1, got1, st) →
              TRecv s got s1 got1 st := by
            intro o' _ e
            by_cases hw : s.wown = none
            · rw [if_neg (by simp [hw])] at e
              cases hfl : (if e1.out = [] then ((.ok true, ({ s with e := e1 } : S)) : Except Err Bool × S)
                  else S.flushTry { s with e := e1 }) with
              | mk r s2 =>
                rw [hfl] at e
                obtain ⟨a1, a2, a3, a4, a5, a6, a7, a8, a9, a10, a11, a12, a13⟩ := flushOpt_spec x2 hw hfl
                have f3 := f2.trans a2
                have b1 : s2.e.accepted = s.e.accepted := a4.trans hacc
                have b2 : s2.e.given = s.e.given := a5.trans hgiv
                have b3 : s.e.fed = s.arrived → s2.e.fed = s2.arrived := fun x => by rw [a3, a7]; exact harr x
                have b4 : s.rown ≠ none → s2.e.fed = s.e.fed := fun _ => a3.trans hfed
                cases r with
                | error x =>
                  rcases (a13 x rfl).2 with rfl | rfl
                  · simp only at e
                    split at e
                    · simp at e
                    · rename_i s3 he
                      simp only [Option.some.injEq, Prod.mk.injEq] at e
                      obtain ⟨rfl, rfl, rfl⟩ := e
                      exact .flush a1 f3 hw b1 a6 b2 b3 b4 a10 he
                  · simp only [Option.some.injEq, Prod.mk.injEq] at e
                    obtain ⟨rfl, rfl, rfl⟩ := e
                    exact .stop a1 f3 b1 a6 b2 b3 b4 a10 (by simp) (by simp)
                | ok b =>
                  cases b with
                  | false =>
                    simp only at e
                    split at e
                    · simp at e
                    · rename_i s3 he
                      simp only [Option.some.injEq, Prod.mk.injEq] at e
                      obtain ⟨rfl, rfl, rfl⟩ := e
                      exact .flush a1 f3 hw b1 a6 b2 b3 b4 a10 he
                  | true =>
                    simp only at e
                    by_cases ho : o' = Op.needWrite
                    · rw [if_pos ho] at e
                      have := ih _ _ _ _ _ _ a1 e
                      exact this.after f3 b1 (Nat.le_refl _) ⟨[], by simpa using a6, by simp, by simpa using b2⟩ b3 b4 a10
                    · rw [if_neg ho] at e
                      by_cases hrn : s.rown = none
                      · rw [if_neg (by simp [hrn])] at e
                        cases hfi : s2.fillTry with
                        | mk r4 s4 =>
                          rw [hfi] at e
                          obtain ⟨d1, d2, d3, d4, d5, d6, d7, d8, d9, bs, d10, d11⟩ := fillTry_spec a1 hfi
                          have f4 := f3.trans d2
                          have c1 : s4.e.accepted = s.e.accepted := d3.trans b1
                          have c2 : s4.e.given = s.e.given := d4.trans b2
                          have c3 : s.e.fed = s.arrived → s4.e.fed = s4.arrived := fun x => by rw [d10, d11, b3 x]
                          have c4 : s.rown ≠ none → s4.e.fed = s.e.fed := fun x => absurd hrn x
                          have c5 : s4.log = s.log := d5.trans a6
                          have c6 : s.wire <+: s4.wire := by rw [d9]; exact a10
                          cases r4 with
                          | ok u =>
                            have := ih _ _ _ _ _ _ d1 e
                            exact this.after f4 c1 (Nat.le_refl _) ⟨[], by simpa using c5, by simp, by simpa using c2⟩ c3 c4 c6
                          | error x =>
                            by_cases hx : x = .again
                            · subst hx
                              simp only [Option.some.injEq, Prod.mk.injEq] at e
                              obtain ⟨rfl, rfl, rfl⟩ := e
                              refine ⟨own_emit d1 _, f4.fib, f4.rown, f4.blk, f4.hook, f4.shut, f4.next, f4.mark, f4.pro,
                                by rw [← f4.req]; rfl, c1, Nat.le_refl _,
                                ⟨[], [.empty], by simp [S.emit, c5], by simp, by simpa [S.emit] using c2, Or.inr ⟨rfl, rfl⟩⟩, c3, c4, c6,
                                Or.inl ⟨f4.wown, f4.req, f4.drain⟩, fun _ => Or.inr ?_, by simp⟩
                              simp [S.emit, c5]
                            · have : some (s4, got, some x) = some (s1, got1, st) := by
                                rw [← e]
                                cases x <;> simp_all
                              simp only [Option.some.injEq, Prod.mk.injEq] at this
                              obtain ⟨rfl, rfl, rfl⟩ := this
                              refine .stop d1 f4 c1 c5 c2 c3 c4 c6 (fun hy => absurd (Option.some.inj hy) hx) ?_
                              intro hb
                              simp only [Option.some.injEq] at hb
                              subst hb
                              exfalso
                              unfold S.fillTry at hfi
                              repeat' split at hfi
                              all_goals simp at hfi
                      · rw [if_pos hrn] at e
                        simp only [Option.some.injEq, Prod.mk.injEq] at e
                        obtain ⟨rfl, rfl, rfl⟩ := e
                        exact .stop a1 f3 b1 a6 b2 b3 b4 a10 (by simp) (fun _ => Or.inr hrn)
            · rw [if_pos hw] at e
              simp only [Option.some.injEq, Prod.mk.injEq] at e
              obtain ⟨rfl, rfl, rfl⟩ := e
              refine .stop x2 f2 hacc rfl hgiv harr (fun _ => hfed) (List.prefix_refl _) ?_ ?_
              · intro hx; by_cases hdr : s.drain = true
                · exact ⟨hdr, hw⟩
                · simp [hdr] at hx
              · intro hx; by_cases hdr : s.drain = true
                · simp [hdr] at hx
                · exact Or.inl ⟨hw, by simpa using hdr⟩
          cases o with
          | abrupt =>
            simp only [Option.some.injEq, Prod.mk.injEq] at e
            obtain ⟨rfl, rfl, rfl⟩ := e
            exact .stop x2 f2 hacc rfl hgiv harr (fun _ => hfed) (List.prefix_refl _) (by simp) (by simp)
          | graceful =>
            simp only [Option.some.injEq, Prod.mk.injEq] at e
            obtain ⟨rfl, rfl, rfl⟩ := e
            exact .stop x2 f2 hacc rfl hgiv harr (fun _ => hfed) (List.prefix_refl _) (by simp) (by simp)
          | needRead => exact main .needRead (Or.inl rfl) e
          | needWrite => exact main .needWrite (Or.inr rfl) e

theorem total_eq (iov : List (List Nat)) : total iov = iov.flatten.length := by
  simp [total, List.length_flatten]

/-- What `TrySend` did: it took the first `n` bytes and said so, or took nothing and failed. -/
structure TSend (s : S) (iov : List (List Nat)) (s1 : S) : Prop where
  own : Own s1
  fib : s1.fib = s.fib
  rown : s1.rown = s.rown
  blk : s1.blocked = s.blocked
  hook : s1.hook = s.hook
  shut : s1.shut = s.shut
  next : s1.nextShut = s.nextShut
  mark : s1.wmark = s.wmark
  pro : s.e.produced <+: s1.e.produced
  drain : s1.drain = s.drain
  rreq : s1.req .reader = s.req .reader
  giv : s1.e.given = s.e.given
  arr : s.e.fed = s.arrived → s1.e.fed = s1.arrived
  fed : s.rown ≠ none → s1.e.fed = s.e.fed
  wir : s.wire <+: s1.wire
  dat : ∃ (l : List (List Nat)) (n : Nat) (o : Obs),
    s1.log = s.log ++ ([.call .try_ iov.flatten] ++ l.map (Obs.enc .try_) ++ [o]) ∧
    l.flatten = iov.flatten.take n ∧ n ≤ iov.flatten.length ∧
    s1.e.accepted = s.e.accepted ++ iov.flatten.take n ∧
    (o = .ret .try_ n ∨ n = 0 ∧ ∃ e, o = .fail .try_ e) ∧
    (o = .ret .try_ iov.flatten.length → iov.flatten ≠ [] → s1.e.out ≠ [] → s1.wown = some (.req .writer))
  bg : (s1.wown = s.wown ∧ s1.req = s.req) ∨
    (s.wown = none ∧ s.req .writer = none ∧ s1.wown = some (.req .writer) ∧
      ∃ buf, s1.req .writer = some ⟨.flush false, 0, false, .wr buf⟩)

theorem trySend_spec {s s1 : S} {iov : List (List Nat)} (h : Own s) (e : s.trySend iov = some s1) :
    TSend s iov s1 := by
  unfold S.trySend at e
  simp only at e
  have h1 := own_emit h [.call .try_ iov.flatten]
  by_cases h0 : total iov = 0
  · rw [if_pos h0] at e
    simp only [Option.some.injEq] at e; subst e
    have hf : iov.flatten = [] := List.length_eq_zero_iff.1 ((total_eq iov).symm.trans h0)
    exact ⟨own_emit h1 _, rfl, rfl, rfl, rfl, rfl, rfl, rfl, List.prefix_refl _, rfl, rfl, rfl, fun x => x, fun _ => rfl, List.prefix_refl _,
      ⟨[], 0, .ret .try_ 0, by simp [S.emit], by simp, by simp, by simp [S.emit], Or.inl rfl, fun _ hx => absurd hf hx⟩,
      Or.inl ⟨rfl, rfl⟩⟩
  rw [if_neg h0] at e
  have hne : iov.flatten ≠ [] := fun hx => h0 ((total_eq iov).trans (by rw [hx]; rfl))
  by_cases hw : s.wown = none
  · rw [if_neg (by simp [S.emit, hw])] at e
    generalize hl : S.tsLoop _ (s.emit [.call .try_ iov.flatten]) iov 0 = r at e
    cases r with
    | none => simp at e
    | some x =>
      obtain ⟨s2, sent, st⟩ := x
      obtain ⟨c1, c2, c3, c4, c5, c6, ⟨l, c7, c7'⟩, c8, c9, c10⟩ := tsLoop_spec _ _ _ _ _ _ _ h1 hw hl
      simp only [Nat.sub_zero] at c5 c6 c7'
      simp only at e
      have hlog : ∀ o, s2.log ++ [o] = s.log ++ ([.call .try_ iov.flatten] ++ l.map (Obs.enc .try_) ++ [o]) := by
        intro o; rw [c7]; simp [S.emit]
      have hw2 : s2.wown = none := c2.wown.trans hw
      by_cases hs : sent > 0
      · rw [if_pos hs] at e
        by_cases hc : sent = total iov ∧ s2.e.out ≠ []
        · rw [if_pos hc] at e
          cases hsf : s2.startFlush false with
          | none => rw [hsf] at e; simp at e
          | some s3 =>
            rw [hsf] at e
            simp only [Option.some.injEq] at e; subst e
            obtain ⟨k1, k2, k3, rfl⟩ := startFlush_spec c1 hw2 hsf
            refine ⟨own_emit k1 _, c2.fib, c2.rown, c2.blk, c2.hook, c2.shut, c2.next, c2.mark, c2.pro, ?_, ?_, c3, c8, c9, c10,
              ⟨l, sent, .ret .try_ sent, hlog _, c7', c5, c6, Or.inl rfl, fun _ _ _ => rfl⟩,
              Or.inr ⟨hw, ?_, rfl, s2.e.out, by simp [S.emit]⟩⟩
            · simp only [S.emit, Bool.or_false]; exact c2.drain
            · simp only [S.emit]; rw [if_neg (by simp), c2.req]; rfl
            · rw [c2.req] at k2; exact k2
        · rw [if_neg hc] at e
          simp only [Option.some.injEq] at e; subst e
          refine ⟨own_emit c1 _, c2.fib, c2.rown, c2.blk, c2.hook, c2.shut, c2.next, c2.mark, c2.pro, c2.drain, ?_, c3, c8, c9, c10,
            ⟨l, sent, .ret .try_ sent, hlog _, c7', c5, c6, Or.inl rfl, ?_⟩,
            Or.inl ⟨c2.wown, c2.req⟩⟩
          · rw [show (s2.emit [.ret .try_ sent]).req = s2.req from rfl, c2.req]; rfl
          · intro x _ y
            simp only [Obs.ret.injEq, true_and] at x
            exact absurd ⟨by rw [total_eq]; exact x, y⟩ hc
      · rw [if_neg hs] at e
        have hs : sent = 0 := by omega
        subst hs
        cases st with
        | none =>
          simp only [Option.some.injEq] at e; subst e
          refine ⟨own_emit c1 _, c2.fib, c2.rown, c2.blk, c2.hook, c2.shut, c2.next, c2.mark, c2.pro, c2.drain, ?_, c3, c8, c9, c10,
            ⟨l, 0, .ret .try_ 0, hlog _, c7', c5, c6, Or.inl rfl, ?_⟩,
            Or.inl ⟨c2.wown, c2.req⟩⟩
          · rw [show (s2.emit [.ret .try_ 0]).req = s2.req from rfl, c2.req]; rfl
          · intro x hx _
            simp only [Obs.ret.injEq, true_and] at x
            exact absurd (List.length_eq_zero_iff.1 x.symm) hx
        | some er =>
          simp only [Option.some.injEq] at e; subst e
          refine ⟨own_emit c1 _, c2.fib, c2.rown, c2.blk, c2.hook, c2.shut, c2.next, c2.mark, c2.pro, c2.drain, ?_, c3, c8, c9, c10,
            ⟨l, 0, .fail .try_ er, hlog _, c7', c5, c6, Or.inr ⟨rfl, er, rfl⟩, by simp⟩,
            Or.inl ⟨c2.wown, c2.req⟩⟩
          rw [show (s2.emit [.fail .try_ er]).req = s2.req from rfl, c2.req]; rfl
  · rw [if_pos (by simpa [S.emit] using hw)] at e
    simp only [Option.some.injEq] at e; subst e
    exact ⟨own_emit h1 _, rfl, rfl, rfl, rfl, rfl, rfl, rfl, List.prefix_refl _, rfl, rfl, rfl, fun x => x, fun _ => rfl, List.prefix_refl _,
      ⟨[], 0, .fail .try_ .again, by simp [S.emit], by simp, by simp, by simp [S.emit], Or.inr ⟨rfl, _, rfl⟩, by simp⟩,
      Or.inl ⟨rfl, rfl⟩⟩

/-- What `TryRecv` did: it put `n` bytes into the buffer and said so, or none and failed. -/
structure TRecvd (s s1 : S) : Prop where
  own : Own s1
  fib : s1.fib = s.fib
  rown : s1.rown = s.rown
  blk : s1.blocked = s.blocked
  hook : s1.hook = s.hook
  shut : s1.shut = s.shut
  next : s1.nextShut = s.nextShut
  mark : s1.wmark = s.wmark
  pro : s.e.produced <+: s1.e.produced
  rreq : s1.req .reader = s.req .reader
  acc : s1.e.accepted = s.e.accepted
  arr : s.e.fed = s.arrived → s1.e.fed = s1.arrived
  fed : s.rown ≠ none → s1.e.fed = s.e.fed
  dat : ∃ (l : List (List Nat)) (l2 : List Obs) (o : Obs),
    s1.log = s.log ++ ([.rcall .try_] ++ l.map (Obs.dec .try_) ++ l2 ++ [o]) ∧
    s1.e.given = s.e.given ++ l.flatten ∧ (l2 = [] ∨ l2 = [.empty]) ∧
    (o = .rret .try_ l.flatten.length ∨ l.flatten = [] ∧ ∃ e, o = .rfail .try_ e) ∧
    (o = .rfail .try_ .again → (s1.drain = true ∧ s1.wown ≠ none) ∨ l2 = [.empty]) ∧
    (o = .rfail .try_ .busy → s1.wown ≠ none ∧ s1.drain = false ∨ s1.rown ≠ none) ∧
    (s.fib .r ≠ .idle → l = [] ∧ o = .rfail .try_ .inProgress)
  wir : s.wire <+: s1.wire
  bg : (s1.wown = s.wown ∧ s1.req = s.req ∧ s1.drain = s.drain) ∨
    (s.wown = none ∧ s.req .writer = none ∧ s1.drain = true ∧ s1.wown = some (.req .writer) ∧
      ∃ buf, s1.req .writer = some ⟨.flush true, 0, false, .wr buf⟩)

theorem tryRecv_spec {s s1 : S} {n : Nat} (h : Own s) (e : s.tryRecv n = some s1) : TRecvd s s1 := by
  unfold S.tryRecv at e
  simp only at e
  have h1 := own_emit h [.rcall .try_]
  by_cases hr : s.fib .r = .idle
  · rw [if_neg (by simp [S.emit, hr])] at e
    generalize hl : S.trLoop _ (s.emit [.rcall .try_]) n 0 = r at e
    cases r with
    | none => simp at e
    | some x =>
      obtain ⟨s2, got, st⟩ := x
      have t := trLoop_spec _ _ _ _ _ _ _ h1 hl
      simp only at e
      obtain ⟨l, l2, d1, d2, d3, d4⟩ := t.dat
      simp only [Nat.sub_zero] at d2
      have hlog : ∀ o, s2.log ++ [o] = s.log ++ ([.rcall .try_] ++ l.map (Obs.dec .try_) ++ l2 ++ [o]) := by
        intro o; rw [d1]; simp [S.emit]
      have d4' : l2 = [] ∨ l2 = [.empty] := d4.imp id (·.1)
      have fin : ∀ o, (o = .rret .try_ l.flatten.length ∨ l.flatten = [] ∧ ∃ e, o = .rfail .try_ e ∧ st = some e) →
          TRecvd s (s2.emit [o]) := by
        intro o ho
        refine ⟨own_emit t.own _, t.fib, t.rown, t.blk, t.hook, t.shut, t.next, t.mark, t.pro, t.rreq, t.acc, t.arr, t.fed,
          ⟨l, l2, o, hlog _, d3, d4', ?_, ?_, ?_, fun x => absurd hr x⟩, t.ext, t.bg⟩
        · rcases ho with rfl | ⟨a, e, rfl, _⟩
          · exact Or.inl rfl
          · exact Or.inr ⟨a, e, rfl⟩
        · rintro rfl
          rcases ho with ho | ⟨a, e, ho, he⟩
          · simp at ho
          · simp only [Obs.rfail.injEq, true_and] at ho; subst ho
            rcases t.again he with x | x
            · exact Or.inl x
            · refine Or.inr ?_
              rw [d1, List.drop_left] at x
              rcases d4 with rfl | d4
              · simp at x
              · exact d4.1
        · rintro rfl
          rcases ho with ho | ⟨a, e, ho, he⟩
          · simp at ho
          · simp only [Obs.rfail.injEq, true_and] at ho; subst ho
            exact t.busy he
      by_cases hs : got > 0
      · rw [if_pos hs] at e
        simp only [Option.some.injEq] at e; subst e
        exact fin _ (Or.inl (by rw [d2]))
      · rw [if_neg hs] at e
        have hs : got = 0 := by omega
        have hfl : l.flatten = [] := List.length_eq_zero_iff.1 (by omega)
        cases st with
        | none =>
          simp only [Option.some.injEq] at e; subst e
          exact fin _ (Or.inl (by rw [hfl]; rfl))
        | some er =>
          simp only [Option.some.injEq] at e; subst e
          exact fin _ (Or.inr ⟨hfl, er, rfl, rfl⟩)
  · rw [if_pos (by simpa [S.emit] using hr)] at e
    simp only [Option.some.injEq] at e; subst e
    exact ⟨own_emit h1 _, rfl, rfl, rfl, rfl, rfl, rfl, rfl, List.prefix_refl _, rfl, rfl, fun x => x, fun _ => rfl,
      ⟨[], [], .rfail .try_ .inProgress, by simp [S.emit], by simp [S.emit], Or.inl rfl, Or.inr ⟨by simp, _, rfl⟩, by simp, by simp,
        fun _ => ⟨rfl, rfl⟩⟩, List.prefix_refl _, Or.inl ⟨rfl, rfl, rfl⟩⟩

/-- Every step keeps `Own`. -/
theorem own_step {s s1 : S} {a : Act} (h : Own s) (e : s.step a = some s1) : Own s1 := by
  cases a with
  | write iov =>
    simp only [S.step] at e
    split at e
    · rename_i hi
      exact own_wLoop (own_emit h _) (h.free_of_idle (by rw [hi]; rfl) (by rw [hi]; rfl)) e
    · simp only [Option.some.injEq] at e; subst e; exact h
  | recv caps =>
    simp only [S.step] at e
    split at e
    · rename_i hi
      split at e
      · simp at e
      · rename_i hc
        simp only [Option.some.injEq] at e; subst e
        exact own_rLoop (own_emit h _) (h.free_of_idle (by rw [hi]; rfl) (by rw [hi]; rfl)) (fun x => hc (Or.inr x))
    · simp only [Option.some.injEq] at e; subst e; exact h
  | shutdown =>
    simp only [S.step] at e
    split at e
    · rename_i hi
      have hf := h.free_of_idle (f := .h) (by rw [hi.1]; rfl) (by rw [hi.1]; rfl)
      cases hs : s.e.shutdown with
      | mk b e1 =>
        rw [hs] at e
        have h1 : Own { s with e := e1, shut := .inProgress } :=
          own_congr (own_ext h (shutdown_spec hs).1) rfl rfl rfl rfl rfl rfl rfl
        simp only at e
        split at e
        · rename_i hc
          simp only [Option.some.injEq] at e; subst e
          exact own_netW h1 hc.2.1 hf.2 hc.2.2 ⟨rfl, trivial⟩
        · simp only [Option.some.injEq] at e; subst e
          exact own_hNext h1 hf
    · simp only [Option.some.injEq] at e; subst e; exact h
  | trySend iov => exact (trySend_spec h e).own
  | tryRecv n => exact (tryRecv_spec h e).own
  | asyncRead n =>
    simp only [S.step] at e
    have h1 := own_emit h [.rcall .async]
    refine own_asyncRead h1 ?_ e
    intro hb
    have hq : (s.emit [.rcall .async]).req .reader ≠ none := (h.bl _ hb).2
    unfold S.asyncRead at e
    rw [if_pos (Or.inl hq)] at e
    simp at e
  | asyncWrite iov =>
    simp only [S.step] at e
    have h1 := own_emit h [.call .async iov.flatten]
    refine own_asyncWrite h1 ?_ e
    intro hb
    have hq : (s.emit [.call .async iov.flatten]).req .writer ≠ none := (h.bl _ hb).2
    unfold S.asyncWrite at e
    rw [if_pos hq] at e
    simp at e
  | setHook on =>
    simp only [S.step, Option.some.injEq] at e; subst e
    exact own_congr h rfl rfl rfl rfl rfl rfl rfl
  | netW f k => exact own_netWDone h e
  | netR f r => exact own_netRDone h e
  | resume f => exact own_resume h e
  | aW ρ k => exact own_aWDone h e
  | aR ρ r => exact own_aRDone h e

/-- An invariant of the steps is an invariant of the histories. -/
theorem run_inv {P : S → Prop} (hp : ∀ s s1 a, P s → s.step a = some s1 → P s1) :
    ∀ (l : List Act) (s s1 : S), P s → s.run l = some s1 → P s1 := by
  intro l
  induction l with
  | nil => intro s s1 h e; simp only [S.run, Option.some.injEq] at e; subst e; exact h
  | cons a l ih =>
    intro s s1 h e
    simp only [S.run] at e
    cases hs : s.step a with
    | none => rw [hs] at e; simp at e
    | some s2 => rw [hs] at e; exact ih s2 s1 (hp s s2 a h hs) e

theorem own_run {s s1 : S} {l : List Act} (h : Own s) (e : s.run l = some s1) : Own s1 :=
  run_inv (fun _ _ _ h e => own_step h e) l s s1 h e

end Verif.Tls
