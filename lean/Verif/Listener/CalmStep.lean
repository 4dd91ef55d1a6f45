import Verif.Listener.Calm
/-! The shutdown invariant is kept by every step of a run without migrations during the shutdown. -/
namespace Verif.Listener
open Verif.Common

theorem lists_some {s : S} (st : Str s) {t : Nat} (ht : t < s.n) (hp : s.phase = .accepting) :
    (s.lists t).isSome = true ∧ s.sd t = .none := by
  have := st.sh t ht
  unfold Shape at this
  rw [hp] at this
  exact ⟨this.2.1, this.1⟩

/-- A linked connection: the listener is alive. -/
theorem not_dead {s : S} (st : Str s) {t : Nat} (ht : t < s.n) (h : (s.lists t).isSome = true) : s.phase ≠ .dead := by
  intro hp
  have := st.sh t ht
  unfold Shape at this
  rw [hp] at this
  rw [this.1] at h
  cases h

theorem no_shutting {s : S} (st : Str s) (hp : s.phase = .accepting) (t c : Nat) : s.sd t ≠ .shutting c := by
  intro h
  by_cases ht : t < s.n
  · rw [(lists_some st ht hp).2] at h; cases h
  · rw [(st.out t (by omega)).2] at h; cases h

theorem K.acc {s : S} (k : K s) {c : Nat} {x : Conn} (hx : s.conns[c]? = some x) (hm : x.migrating = true) :
    s.phase = .accepting := Classical.byContradiction fun hn => by
  rw [k.mig hn c x hx] at hm
  cases hm

/-- What a started, unfinished connection that is not between lists knows. -/
theorem K.here {s : S} (st : Str s) (k : K s) {c : Nat} {x : Conn} (hx : s.conns[c]? = some x) (h1 : x.pc ≠ .queued)
    (h2 : x.pc ≠ .gone) (h3 : ∀ d, x.pc ≠ .transit d) :
    x.hook = some x.th ∧ (∃ l, s.lists x.th = some l) ∧ s.phase ≠ .dead := by
  have hk := k.link c x hx h1 h2 h3
  have hs := st.l.hk c x _ hx hk
  exact ⟨hk, Option.isSome_iff_exists.1 hs, not_dead st (st.c c x hx).th hs⟩

theorem shape_ne {s : S} (st : Str s) {t : Nat} (ht : t < s.n) (h : s.queue t ≠ []) : (s.lists t).isSome = true := by
  have sh := st.sh t ht
  unfold Shape at sh
  cases hp : s.phase <;> rw [hp] at sh <;> simp only at sh
  · exact sh.2.1
  · exact sh.1
  · rcases sh with sh | sh
    · exact sh.1
    · exact absurd sh.2.2 h
  · exact absurd sh.2.2 h
  · exact absurd sh.2.2 h

theorem k_pop {s s1 : S} (st : Str s) (k : K s) {t : Nat} (ht : t < s.n) (h : pop s t = some s1) : K s1 := by
  have sh := st.sh t ht
  unfold pop at h
  split at h
  · cases h
  split at h
  · cases h
  · rename_i c q e
    obtain ⟨x, hx, hp, hth⟩ := st.q1 t c (by rw [e]; simp [mem_qc])
    have hne : s.queue t ≠ [] := by rw [e]; simp
    obtain ⟨l, hl⟩ := Option.isSome_iff_exists.1 (shape_ne st ht hne)
    rw [hx, hl] at h
    simp only at h
    cases h
    have hsd : s.sd t = .none := by
      unfold Shape at sh
      cases hph : s.phase <;> rw [hph] at sh <;> simp [e] at sh
      · exact sh.1
      · exact sh.2.1
    refine k.conn (y := { x with pc := .running, hook := some t }) hx rfl rfl rfl k.bad rfl ?_ rfl ?_ ?_ (Or.inl rfl)
    · intro u m hm
      by_cases he : u = t
      · subst he; rw [hsd]; trivial
      · simp only [upd_ne _ _ he] at hm
        exact k.sd u m hm
    · simp [Conn.migrating]
    · intro _ _ _
      rw [hth]
  · rename_i q e
    have hne : s.queue t ≠ [] := by rw [e]; simp
    obtain ⟨l, hl⟩ := Option.isSome_iff_exists.1 (shape_ne st ht hne)
    rw [hl] at h
    simp only at h
    refine k_sdGo (s := { s with queue := upd s.queue t q }) st.l st.c (k.same rfl rfl rfl (fun _ _ => Or.inl) k.bad rfl) hl (head_ok l) ?_ h
    exact fun c hc => List.mem_of_mem_head? hc
  · rename_i q e
    have hne : s.queue t ≠ [] := by rw [e]; simp
    obtain ⟨l, hl⟩ := Option.isSome_iff_exists.1 (shape_ne st ht hne)
    rw [hl] at h
    simp only at h
    cases h
    have hsd : s.sd t = .cleaned := by
      unfold Shape at sh
      cases hph : s.phase <;> rw [hph] at sh <;> simp [e] at sh
      · obtain ⟨_, _, cs, h3⟩ := sh
        cases cs <;> simp at h3
      · obtain ⟨_, _, cs, h3⟩ := sh
        cases cs <;> simp at h3
      · exact sh.2.1
    refine ⟨k.mig, k.wt, k.link, k.bad, k.dead, ?_, ?_⟩
    · intro u m hm
      by_cases he : u = t
      · subst he
        simp only [upd_same]
        have := k.sd u m hm
        rw [hsd] at this
        exact this
      · simp only [upd_ne _ _ he]
        exact k.sd u m hm
    · intro u c x hs hx
      by_cases he : u = t
      · subst he; simp only [upd_same] at hs; cases hs
      · simp only [upd_ne _ _ he] at hs; exact k.own u c x hs hx

theorem k_enter {s s0 s1 : S} (st : Str s) (k : K s) {i : Nat} {r : Tr} {l : List Nat} (hr : s.trs[i]? = some r)
    (h1 : s0.conns = s.conns) (h2 : s0.lists = s.lists) (h3 : s0.phase = s.phase) (h4 : s0.trs = s.trs) (h5 : s0.bad = s.bad)
    (h6 : s0.sd = s.sd) (hl : s.lists r.th = some l) (hf : s.fromOk i = true) (h : enter s0 i r = some s1) : K s1 := by
  have hd : s.phase ≠ .dead := not_dead st (st.tr i r hr).1 (by rw [hl]; rfl)
  have get : ∀ (q : Tr), q.pc ≠ .waiting → ∀ (j : Nat) (z : Tr), (s0.trs.set i q)[j]? = some z → s.trs[j]? = some z ∨
      (s.phase = .accepting) ∨ (z.pc ≠ .waiting ∧ (s.phase ≠ .dead)) ∨ (∃ ret, z.pc = .done ret) := by
    intro q hq j z hz
    rw [h4] at hz
    rcases get_set hz with ⟨rfl, rfl⟩ | ⟨he, hz⟩
    · exact Or.inr (Or.inr (Or.inl ⟨hq, hd⟩))
    · exact Or.inl hz
  unfold enter at h
  rw [h2, hl] at h
  simp only at h
  split at h
  · cases h
    exact k.same h1 h2 h3 (get _ (by simp)) (by rw [← k.bad, ← h5]; rfl) h6
  · rename_i c hc
    have : c ∈ l := by
      unfold S.fromOk at hf
      rw [hr] at hf
      simp only [hc, hl] at hf
      simpa using hf
    rw [if_pos this] at h
    cases h
    exact k.same h1 h2 h3 (get _ (by simp)) (by rw [← k.bad, ← h5]; rfl) h6

theorem k_step {s s1 : S} (g : Gate s) (st : Str s) (k : K s) {a : Act} (hc : calm s a = true) (h : stepA s a = some s1) :
    K s1 := by
  cases a with
  | setMax m =>
    simp only [stepA] at h
    split at h <;> cases h
    exact k.same rfl rfl rfl (fun _ _ => Or.inl) k.bad rfl
  | setPause b =>
    simp only [stepA] at h
    split at h <;> cases h
    exact k.same rfl rfl rfl (fun _ _ => Or.inl) k.bad rfl
  | accept t =>
    simp only [stepA, accept] at h
    split at h
    · cases h
    rename_i hp
    have hp : s.phase = .accepting := Classical.byContradiction hp
    split at h
    · cases h; exact k.same rfl rfl rfl (fun _ _ => Or.inl) k.bad rfl
    split at h
    · cases h; exact k.same rfl rfl rfl (fun _ _ => Or.inl) k.bad rfl
    split at h
    · cases h
    · cases h
      refine ⟨fun hn => absurd hp hn, k.wt, ?_, k.bad, k.dead, ?_, ?_⟩
      · intro c x hx h1
        rcases get_append_one hx with h2 | ⟨_, rfl⟩
        · exact k.link c x h2 h1
        · exact absurd rfl h1
      · intro t l hl
        refine (k.sd t l hl).mono fun d hd => ?_
        obtain ⟨x, hx, h1⟩ := hd
        exact ⟨x, by simp only; rw [List.getElem?_append_left (lt_of_get hx)]; exact hx, h1⟩
      · intro t c x hs
        exact absurd hs (no_shutting st hp t c)
  | pop t =>
    simp only [stepA] at h
    split at h
    · exact k_pop st k (by assumption) h
    · cases h
  | migBegin c d =>
    have hp : s.phase = .accepting := of_decide_eq_true hc
    simp only [stepA, migBegin] at h
    split at h
    · cases h
    rename_i x hx
    split at h
    · cases h
    rename_i hc
    have hr : x.pc = .running := Classical.byContradiction fun hn => hc (Or.inl hn)
    rw [if_neg (by simp [hp])] at h
    split at h
    · cases h; exact k
    · cases h
      refine k.conn hx rfl rfl rfl k.bad rfl k.sd rfl (fun _ => Or.inr hp) (fun _ _ _ => ?_) (Or.inl rfl)
      exact k.link c x hx (by simp [hr]) (by simp [hr]) (by simp [hr])
  | migAdd c =>
    simp only [stepA, migAdd] at h
    split at h
    · cases h
    rename_i x hx
    split at h
    · rename_i d hp
      have hm : x.migrating = true := by simp [Conn.migrating, hp]
      split at h
      · cases h
      rw [if_neg (by simp [k.acc hx hm])] at h
      cases h
      refine k.conn hx rfl rfl rfl k.bad rfl k.sd rfl (fun _ => Or.inl hm) (fun _ _ _ => ?_) (Or.inl rfl)
      exact k.link c x hx (by simp [hp]) (by simp [hp]) (by simp [hp])
    · cases h
  | migBack c =>
    simp only [stepA, migBack] at h
    split at h
    · cases h
    rename_i x hx
    split at h
    · rename_i d hp
      have hm : x.migrating = true := by simp [Conn.migrating, hp]
      split at h
      · cases h
      rw [if_neg (by simp [k.acc hx hm])] at h
      cases h
      refine k.conn hx rfl rfl rfl k.bad rfl k.sd rfl (fun _ => Or.inl hm) (fun _ _ _ => ?_) (Or.inl rfl)
      exact k.link c x hx (by simp [hp]) (by simp [hp]) (by simp [hp])
    · cases h
  | migUnlink c =>
    simp only [stepA, migUnlink] at h
    split at h
    · cases h
    rename_i x hx
    split at h
    · rename_i d hp
      have hm : x.migrating = true := by simp [Conn.migrating, hp]
      obtain ⟨hk, ⟨l, hl⟩, _⟩ := k.here st hx (by simp [hp]) (by simp [hp]) (by simp [hp])
      split at h
      · cases h
      rw [hl, hk] at h
      simp only at h
      cases h
      refine k.conn hx rfl rfl rfl k.bad rfl (SdOk.eraseL st k hl) rfl (fun _ => Or.inl hm) (fun _ _ h3 => ?_) (Or.inl rfl)
      exact absurd rfl (h3 d)
    · cases h
  | migArrive c =>
    simp only [stepA, migArrive] at h
    split at h
    · cases h
    rename_i x hx
    split at h
    · rename_i d hp
      have hm : x.migrating = true := by simp [Conn.migrating, hp]
      have ha := k.acc hx hm
      have hd := (st.c c x hx).dest d (by simp [hp])
      obtain ⟨hs, hn⟩ := lists_some st hd ha
      obtain ⟨l, hl⟩ := Option.isSome_iff_exists.1 hs
      split at h
      · cases h
      rw [hl] at h
      simp only at h
      cases h
      refine k.conn hx rfl rfl rfl k.bad rfl ?_ rfl (fun _ => Or.inl hm) (fun _ _ _ => rfl) (Or.inr (no_shutting st ha))
      intro u m hm
      by_cases he : u = d
      · subst he; rw [hn]; trivial
      · simp only [upd_ne _ _ he] at hm
        exact k.sd u m hm
    · cases h
  | migRelease c =>
    simp only [stepA, migRelease] at h
    split at h
    · cases h
    rename_i x hx
    split at h
    · rename_i hp
      split at h
      · cases h
      obtain ⟨hk, ⟨l, hl⟩, hd⟩ := k.here st hx (by simp [hp]) (by simp [hp]) (by simp [hp])
      rw [if_neg hd] at h
      cases h
      refine k.conn hx rfl rfl rfl k.bad rfl k.sd rfl (fun hm => ?_) (fun _ _ _ => hk) (Or.inl rfl)
      cases hm
    · cases h
  | finish c =>
    simp only [stepA, finish] at h
    split at h
    · cases h
    rename_i x hx
    split at h
    · rename_i hp
      split at h
      · cases h
      obtain ⟨hk, ⟨l, hl⟩, hd⟩ := k.here st hx (by simp [hp]) (by simp [hp]) (by simp [hp])
      rw [if_neg hd] at h
      cases h
      refine k.conn hx rfl rfl rfl k.bad rfl k.sd rfl (fun hm => ?_) (fun _ _ _ => hk) (Or.inl rfl)
      cases hm
    · cases h
  | close c =>
    simp only [stepA, close] at h
    split at h
    · cases h
    rename_i x hx
    split at h
    · rename_i hp
      split at h
      · cases h
      obtain ⟨hk, ⟨l, hl⟩, hd⟩ := k.here st hx (by simp [hp]) (by simp [hp]) (by simp [hp])
      rw [if_neg hd, hk, hl] at h
      simp only at h
      cases h
      refine k.conn hx rfl rfl rfl k.bad rfl (SdOk.eraseL st k hl) rfl (fun hm => ?_) (fun _ h2 _ => ?_) (Or.inl rfl)
      · cases hm
      · exact absurd rfl h2
    · cases h
  | callAll =>
    simp only [stepA, callAll] at h
    split at h
    · cases h
    · rename_i hd
      cases h
      refine k.same rfl rfl rfl (fun i r hr => ?_) k.bad rfl
      simp only [List.getElem?_append] at hr
      split at hr
      · exact Or.inl hr
      · have := List.mem_of_getElem? hr
        rw [List.mem_map] at this
        obtain ⟨t, ht, rfl⟩ := this
        exact Or.inr (Or.inr (Or.inl ⟨by simp, hd⟩))
  | callOne t l fr =>
    simp only [stepA, callOne] at h
    split at h
    · cases h
    · rename_i hd
      cases h
      refine k.same rfl rfl rfl (fun i r hr => ?_) k.bad rfl
      rcases get_append_one hr with h1 | ⟨_, rfl⟩
      · exact Or.inl h1
      · exact Or.inr (Or.inr (Or.inl ⟨by simp, fun h => hd (Or.inl h)⟩))
  | trAdd i =>
    simp only [stepA, trAdd] at h
    split at h
    · cases h
    rename_i r hr
    split at h
    · cases h
    rename_i hcc
    have hp : r.pc = .idle := Classical.byContradiction fun hn => hcc (Or.inl hn)
    have hd : s.phase ≠ .dead := by
      intro hd
      obtain ⟨ret, hret⟩ := k.dead hd i r hr
      rw [hp] at hret
      cases hret
    rw [if_neg hd] at h
    split at h
    · cases h
      refine k.same rfl rfl rfl (fun j z hz => ?_) k.bad rfl
      rcases get_set hz with ⟨rfl, rfl⟩ | ⟨he, hz⟩
      · exact Or.inr (Or.inr (Or.inr ⟨_, rfl⟩))
      · exact Or.inl hz
    · rename_i l hl
      split at h
      · exact k_enter (s0 := { s with word := add64 s.word 1 }) st k hr rfl rfl rfl rfl rfl rfl hl hc h
      · rename_i hw
        cases h
        have ha : s.phase = .accepting := by
          have : 0 < s.conns.countP Conn.counted := by
            rcases Nat.eq_zero_or_pos (s.conns.countP Conn.counted) with h | h
            · exact absurd ((gate_high g).2 h) hw
            · exact h
          rw [List.countP_pos_iff] at this
          obtain ⟨x, hx, hcx⟩ := this
          obtain ⟨c, hx⟩ := List.getElem?_of_mem hx
          refine k.acc hx ?_
          unfold Conn.counted at hcx
          unfold Conn.migrating
          revert hcx
          cases x.pc <;> simp
        exact k.same rfl rfl rfl (fun j z hz => Or.inr (Or.inl ha)) k.bad rfl
  | trCheck i =>
    simp only [stepA, trCheck] at h
    split at h
    · cases h
    rename_i r hr
    split at h
    · cases h
    rename_i hcc
    have hp : r.pc = .waiting := Classical.byContradiction fun hn => hcc (Or.inl hn)
    have ha : s.phase = .accepting := Classical.byContradiction fun hn => k.wt hn i r hr hp
    rw [if_neg (by simp [ha])] at h
    obtain ⟨l, hl⟩ := Option.isSome_iff_exists.1 (lists_some st (st.tr i r hr).1 ha).1
    split at h
    · exact k_enter st k hr rfl rfl rfl rfl rfl rfl hl hc h
    · cases h; exact k
  | trVisit i =>
    simp only [stepA, trVisit] at h
    split at h
    · cases h
    rename_i r hr
    split at h
    · rename_i cur hp
      split at h
      · rename_i c l hl
        have hd : s.phase ≠ .dead := not_dead st (st.tr i r hr).1 (by rw [hl]; rfl)
        split at h
        · cases h
          refine k.same rfl rfl rfl (fun j z hz => ?_) k.bad rfl
          rcases get_set hz with ⟨rfl, rfl⟩ | ⟨he, hz⟩
          · exact Or.inr (Or.inr (Or.inl ⟨by simp, hd⟩))
          · exact Or.inl hz
        · cases h
          refine k.same rfl rfl rfl (fun j z hz => ?_) k.bad rfl
          rcases get_set hz with ⟨rfl, rfl⟩ | ⟨he, hz⟩
          · exact Or.inr (Or.inr (Or.inr ⟨_, rfl⟩))
          · exact Or.inl hz
      · cases h
        refine k.same rfl rfl rfl (fun j z hz => ?_) k.bad rfl
        rcases get_set hz with ⟨rfl, rfl⟩ | ⟨he, hz⟩
        · exact Or.inr (Or.inr (Or.inr ⟨_, rfl⟩))
        · exact Or.inl hz
    · cases h
  | stop =>
    simp only [calm, Bool.and_eq_true, List.all_eq_true] at hc
    simp only [stepA, stop] at h
    split at h
    · cases h
    · cases h
      refine ⟨?_, ?_, k.link, k.bad, fun hd => (by cases hd), k.sd, k.own⟩
      · intro _ c x hx
        have := hc.1 x (List.mem_of_getElem? hx)
        simpa using this
      · intro _ i r hr
        have := hc.2 r (List.mem_of_getElem? hr)
        simpa using this
  | sdNext t =>
    simp only [stepA, sdNext] at h
    split at h
    · cases h
    split at h
    · rename_i c e
      split at h
      · rename_i x l hx hl
        have sdk := k.sd t l hl
        rw [e] at sdk
        split at h
        · exact k_sdGo st.l st.c k hl (head_ok l) (fun c hc => List.mem_of_mem_head? hc) h
        · rename_i u hu
          have e1 : u = t := by rw [((st.c c x hx).hook u hu).1]; exact k.own t c x e hx
          subst e1
          rw [if_pos rfl] at h
          have hm : c ∈ l := (st.l.mem _ _ c hl).2 ⟨x, hx, hu⟩
          refine k_sdGo st.l st.c k hl (after_ok (st.l.nd _ _ hl) hm sdk.1 (sdk.2 hm)) ?_ h
          intro d hd
          unfold after at hd
          have := List.mem_of_mem_head? hd
          exact (List.dropWhile_sublist _).subset (List.mem_of_mem_tail this)
      · cases h
    · cases h
  | stop2 =>
    simp only [stepA, stop2] at h
    split at h
    · rename_i hp
      cases h
      have hn : s.phase ≠ .accepting := by rw [hp.1]; simp
      exact ⟨fun _ => k.mig hn, fun _ => k.wt hn, k.link, k.bad, fun hd => (by cases hd), k.sd, k.own⟩
    · cases h
  | emptied t =>
    simp only [stepA, emptied] at h
    split at h
    · cases h
    split at h
    · cases h
      refine ⟨k.mig, k.wt, k.link, k.bad, k.dead, ?_, ?_⟩
      · intro u m hm
        by_cases he : u = t
        · subst he; simp only [upd_same] at hm; cases hm
        · simp only [upd_ne _ _ he] at hm ⊢
          exact k.sd u m hm
      · intro u c x hs hx
        by_cases he : u = t
        · subst he; simp only [upd_same] at hs; cases hs
        · simp only [upd_ne _ _ he] at hs; exact k.own u c x hs hx
    · cases h
  | post =>
    simp only [stepA, post] at h
    split at h
    · rename_i hp
      cases h
      have hn : s.phase ≠ .accepting := by rw [hp.1]; simp
      exact ⟨fun _ => k.mig hn, fun _ => k.wt hn, k.link, k.bad, fun hd => (by cases hd), k.sd, k.own⟩
    · cases h
  | destroy =>
    simp only [calm, List.all_eq_true] at hc
    simp only [stepA, destroy] at h
    split at h
    · rename_i hp
      cases h
      have hn : s.phase ≠ .accepting := by rw [hp]; simp
      refine ⟨fun _ => k.mig hn, fun _ => k.wt hn, k.link, k.bad, fun _ i r hr => ?_, k.sd, k.own⟩
      have := hc r (List.mem_of_getElem? hr)
      cases hpc : r.pc <;> rw [hpc] at this <;> simp at this
      exact ⟨_, rfl⟩
    · cases h

theorem k_of {s : S} (h : Reachable Init calmStep s) : K s := by
  refine (Reachable.invariant (fun s => Inv s ∧ K s) (fun s hi => ⟨inv_init hi, ?_⟩) (fun s a s' hI hst => ?_) h).2
  · obtain ⟨n, max, _, _, rfl⟩ := hi
    refine ⟨by simp [S.init], by simp [S.init], by simp [S.init], rfl, by simp [S.init], ?_, by simp [S.init]⟩
    intro t l _
    trivial
  · obtain ⟨hc, hb, hst⟩ := calm_eq hst
    have g : Gate s := hI.1.g.resolve_right (by simp [hb])
    refine ⟨inv_step (a := a) hI.1 ?_, k_step g hI.1.t hI.2 hc hst⟩
    · unfold step
      rw [if_neg (by simp [hb])]
      exact hst

end Verif.Listener
