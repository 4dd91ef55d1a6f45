import Verif.Tls.Spec

/-! # Lemmas on the engine and on pushing data into it -/
namespace Verif.Tls

/-- What every call of the engine does to its queues. -/
structure Ext (e e1 : Eng) : Prop where
  q : ∃ x, e1.out = e.out ++ x ∧ e1.produced = e.produced ++ x
  fed : e1.fed = e.fed
  scr : e1.script.length ≤ e.script.length

theorem Ext.refl (e : Eng) : Ext e e := ⟨⟨[], by simp⟩, rfl, Nat.le_refl _⟩

theorem Ext.trans {a b c : Eng} (h : Ext a b) (k : Ext b c) : Ext a c := by
  obtain ⟨⟨x, h1, h2⟩, h3, h4⟩ := h
  obtain ⟨⟨y, k1, k2⟩, k3, k4⟩ := k
  exact ⟨⟨x ++ y, by simp [k1, h1], by simp [k2, h2]⟩, by rw [k3, h3], Nat.le_trans k4 h4⟩

theorem pop_ext (e : Eng) (r : ERes) (rs : List ERes) (h : e.script = r :: rs) : Ext e (e.pop r rs) :=
  ⟨⟨r.emit, rfl, rfl⟩, rfl, by simp [Eng.pop, h]⟩

theorem pop_ext' (e : Eng) (r r' : ERes) (rs : List ERes) (h : e.script = r :: rs) : Ext e (e.pop r' rs) :=
  ⟨⟨r'.emit, rfl, rfl⟩, rfl, by simp [Eng.pop, h]⟩

theorem op_needWrite {e : Eng} {x : Ret} (h : e.op x = .needWrite) : e.out ≠ [] := by
  intro he
  cases x <;> simp [Eng.op, he] at h

/-- `Engine::Write`. -/
theorem write_spec {e e1 : Eng} {buf : List Nat} {r : Except Op Nat} (h : e.write buf = (r, e1)) :
    Ext e e1 ∧ e1.given = e.given ∧
    (match r with
    | .ok k => k ≤ buf.length ∧ (buf ≠ [] → 0 < k) ∧ e1.out ≠ [] ∧
        e1.accepted = e.accepted ++ buf.take k ∧ e1.script.length < e.script.length
    | .error o => e1.accepted = e.accepted ∧ (o = .needWrite → e1.out ≠ []) ∧
        (o = .needRead ∨ o = .needWrite → e1.script.length < e.script.length)) := by
  unfold Eng.write at h
  cases hs : e.script with
  | nil => rw [hs] at h; simp at h; obtain ⟨rfl, rfl⟩ := h; simp [Ext.refl]
  | cons x xs =>
    rw [hs] at h
    cases hx : x.ret with
    | took n =>
      simp [hx] at h; obtain ⟨rfl, rfl⟩ := h
      have he := pop_ext' e x { x with emit := if x.emit = [] then [0] else x.emit } xs hs
      refine ⟨⟨?_, ?_, ?_⟩, rfl, Nat.min_le_right _ _, ?_, ?_, rfl, ?_⟩
      · exact he.q
      · exact he.fed
      · exact he.scr
      · intro hb; cases buf with
        | nil => exact absurd rfl hb
        | cons _ _ => simp
      · simp only [Eng.pop]; split <;> simp_all
      · simp [Eng.pop]
    | _ =>
      simp [hx] at h; obtain ⟨rfl, rfl⟩ := h
      exact ⟨pop_ext e x xs hs, rfl, rfl, op_needWrite, fun _ => by simp [Eng.pop]⟩

/-- `Engine::Read`. -/
theorem read_spec {e e1 : Eng} {n : Nat} {r : Except Op (List Nat)} (h : e.read n = (r, e1)) :
    Ext e e1 ∧ e1.accepted = e.accepted ∧
    (match r with
    | .ok bs => bs ≠ [] ∧ bs.length ≤ n ∧ e1.given = e.given ++ bs ∧ e1.script.length < e.script.length
    | .error o => e1.given = e.given ∧ (o = .needWrite → e1.out ≠ []) ∧
        (o = .needRead ∨ o = .needWrite → e1.script.length < e.script.length)) := by
  unfold Eng.read at h
  cases hs : e.script with
  | nil => rw [hs] at h; simp at h; obtain ⟨rfl, rfl⟩ := h; simp [Ext.refl]
  | cons x xs =>
    rw [hs] at h
    cases hx : x.ret with
    | gave bs =>
      by_cases hb : bs.take n = []
      · simp only [hx] at h
        rw [if_pos hb] at h
        simp only [Prod.mk.injEq] at h
        obtain ⟨rfl, rfl⟩ := h
        exact ⟨pop_ext e x xs hs, rfl, rfl, by simp, by simp⟩
      · simp only [hx] at h
        rw [if_neg hb] at h
        simp only [Prod.mk.injEq] at h
        obtain ⟨rfl, rfl⟩ := h
        have he := pop_ext e x xs hs
        exact ⟨⟨he.q, he.fed, he.scr⟩, rfl, hb, by simp; omega, rfl, by simp [Eng.pop]⟩
    | _ =>
      simp [hx] at h; obtain ⟨rfl, rfl⟩ := h
      exact ⟨pop_ext e x xs hs, rfl, rfl, op_needWrite, fun _ => by simp [Eng.pop]⟩

theorem shutdown_spec {e e1 : Eng} {b : Bool} (h : e.shutdown = (b, e1)) :
    Ext e e1 ∧ e1.accepted = e.accepted ∧ e1.given = e.given := by
  unfold Eng.shutdown at h
  cases hs : e.script with
  | nil => rw [hs] at h; simp at h; obtain ⟨rfl, rfl⟩ := h; simp [Ext.refl]
  | cons x xs =>
    rw [hs] at h; simp only [Prod.mk.injEq] at h; obtain ⟨rfl, rfl⟩ := h
    exact ⟨pop_ext e x xs hs, rfl, rfl⟩

/-! ### Chunks -/

theorem grow_flatten (l : List (List Nat)) : ∀ acc, (grow acc l).1 ++ (grow acc l).2.flatten = acc ++ l.flatten := by
  induction l with
  | nil => intro acc; simp [grow]
  | cons v l ih => intro acc; unfold grow; split
                   · rw [ih]; simp
                   · simp

theorem chunk_flatten (l : List (List Nat)) : (chunk l).1 ++ (chunk l).2.flatten = l.flatten := by
  cases l with
  | nil => rfl
  | cons v l => rw [chunk]; split
                · simp
                · rw [grow_flatten]; simp

theorem grow_suffix (l : List (List Nat)) : ∀ acc, (grow acc l).2 <:+ l := by
  induction l with
  | nil => intro acc; simp [grow]
  | cons v l ih => intro acc; unfold grow; split
                   · exact (ih _).trans (List.suffix_cons v l)
                   · simp

theorem chunk_suffix (v : List Nat) (l : List (List Nat)) : (chunk (v :: l)).2 <:+ l := by
  rw [chunk]; split
  · simp
  · exact grow_suffix l v

/-- The batch buffer is never overrun. -/
theorem grow_le (l : List (List Nat)) : ∀ acc, acc.length ≤ batchSize → (grow acc l).1.length ≤ batchSize := by
  induction l with
  | nil => intro acc h; simpa [grow] using h
  | cons v l ih => intro acc h; unfold grow; split
                   · rename_i hc; exact ih _ (by simpa using hc)
                   · exact h

theorem grow_ne (l : List (List Nat)) : ∀ acc, acc ≠ [] → (grow acc l).1 ≠ [] := by
  induction l with
  | nil => intro acc h; simpa [grow] using h
  | cons v l ih => intro acc h; unfold grow; split
                   · exact ih _ (by simp [h])
                   · exact h

theorem chunk_ne (v : List Nat) (l : List (List Nat)) (h : v ≠ []) : (chunk (v :: l)).1 ≠ [] := by
  rw [chunk]; split
  · exact h
  · exact grow_ne l v h

/-- What pushing data did: `n` bytes of `d` were accepted. -/
structure Pushed (e : Eng) (d : List Nat) (w0 : Nat) (p : Push) : Prop where
  ext : Ext e p.eng
  given : p.eng.given = e.given
  ge : w0 ≤ p.written
  le : p.written - w0 ≤ d.length
  acc : p.eng.accepted = e.accepted ++ d.take (p.written - w0)
  nw : p.op = some .needWrite → p.eng.out ≠ []
  out : p.op = none → d ≠ [] → p.eng.out ≠ []
  scr : p.op = none ∧ d ≠ [] ∨ p.op = some .needWrite ∨ p.op = some .needRead →
    p.eng.script.length < e.script.length
  pos : p.op = none → d ≠ [] → w0 < p.written

theorem pushLoop_spec (fuel : Nat) : ∀ (e : Eng) (w : Nat) (l : List (List Nat)) (p : Push), l.length ≤ fuel →
    pushLoop fuel e w l = some p → Pushed e l.flatten w p := by
  induction fuel with
  | zero =>
    intro e w l p hl h
    have : l = [] := by cases l <;> simp_all
    subst this
    simp [pushLoop] at h; subst h
    exact ⟨Ext.refl _, rfl, Nat.le_refl _, by simp, by simp, by simp, by simp, by simp, by simp⟩
  | succ fuel ih =>
    intro e w l p hl h
    cases l with
    | nil =>
      simp [pushLoop] at h; subst h
      exact ⟨Ext.refl _, rfl, Nat.le_refl _, by simp, by simp, by simp, by simp, by simp, by simp⟩
    | cons v l =>
      rw [pushLoop] at h
      have hfl := chunk_flatten (v :: l)
      generalize (v :: l).flatten = d at hfl ⊢
      subst hfl
      by_cases hc : (chunk (v :: l)).1 = []
      · rw [if_pos hc] at h; simp at h
      rw [if_neg hc] at h
      have hsuf := chunk_suffix v l
      have hlen : (chunk (v :: l)).2.length ≤ fuel := by
        have := hsuf.length_le; simp only [List.length_cons] at hl; omega
      generalize chunk (v :: l) = c at h hc hlen ⊢
      obtain ⟨c1, c2⟩ := c
      dsimp only at *
      cases hw : e.write c1 with
      | mk r e1 =>
        rw [hw] at h
        have hs := write_spec hw
        cases r with
        | error o =>
          simp at h; subst h
          obtain ⟨h1, h2, h3, h4, h5⟩ := hs
          exact ⟨h1, h2, Nat.le_refl _, by simp, by simpa using h3, by simpa using h4, by simp,
            by simpa [or_comm] using h5, by simp⟩
        | ok k =>
          obtain ⟨h1, h2, h3, h4, h5, h6, h7⟩ := hs
          have h4 := h4 hc
          simp only at h
          by_cases hk : k = c1.length
          · rw [if_pos hk] at h
            have hp := ih e1 (w + k) c2 p hlen h
            have hge := hp.ge
            have hle := hp.le
            have hsub : p.written - w = c1.length + (p.written - (w + k)) := by omega
            refine ⟨h1.trans hp.ext, by rw [hp.given, h2], by omega, by rw [List.length_append]; omega, ?_, hp.nw, ?_, ?_, ?_⟩
            · rw [hp.acc, h6, hsub, List.take_append, Nat.add_sub_cancel_left,
                List.take_of_length_le (by omega : c1.length ≤ c1.length + _),
                List.take_of_length_le (by omega : c1.length ≤ k), List.append_assoc]
            · intro ho _
              by_cases hc2 : c2.flatten = []
              · obtain ⟨⟨x, hx, _⟩, _⟩ := hp.ext
                rw [hx]; simp [h5]
              · exact hp.out ho hc2
            · intro ho
              have := hp.ext.scr
              omega
            · intro _ _; omega
          · rw [if_neg hk] at h
            simp at h; subst h
            refine ⟨h1, h2, by simp, by simp; omega, ?_, by simp, fun _ _ => h5, fun _ => h7, fun _ _ => by simp; omega⟩
            rw [show w + k - w = k from by omega, List.take_append, h6]
            simp; omega

theorem push_spec {e : Eng} {l : List (List Nat)} {p : Push} (h : push e l = some p) :
    Pushed e l.flatten 0 p := pushLoop_spec _ e 0 l p (Nat.le_refl _) h

theorem pushLoop_some (fuel : Nat) : ∀ (e : Eng) (w : Nat) (l : List (List Nat)), [] ∉ l →
    ∃ p, pushLoop fuel e w l = some p := by
  induction fuel with
  | zero => intro e w l _; exact ⟨_, rfl⟩
  | succ fuel ih =>
    intro e w l hl
    cases l with
    | nil => exact ⟨_, rfl⟩
    | cons v l =>
      rw [pushLoop]
      rw [if_neg (chunk_ne v l (by simp at hl; exact hl.1))]
      have hsuf := chunk_suffix v l
      have : [] ∉ (chunk (v :: l)).2 := fun h => hl (List.mem_cons_of_mem _ (hsuf.subset h))
      split
      · exact ⟨_, rfl⟩
      · split
        · exact ih _ _ _ this
        · exact ⟨_, rfl⟩

theorem push_some {e : Eng} {l : List (List Nat)} (h : [] ∉ l) : ∃ p, push e l = some p :=
  pushLoop_some _ e 0 l h

/-! ### Advancing -/

theorem advance_spec (l : List (List Nat)) : ∀ n, n ≤ l.flatten.length →
    ∃ l1, advance l n = some l1 ∧ l1.flatten = l.flatten.drop n ∧ ([] ∉ l → [] ∉ l1) := by
  induction l with
  | nil => intro n h; simp at h; subst h; exact ⟨[], by simp [advance]⟩
  | cons v l ih =>
    intro n h
    cases n with
    | zero => exact ⟨v :: l, by simp [advance]⟩
    | succ n =>
      simp only [List.flatten_cons, List.length_append] at h
      by_cases hc : v.length ≤ n + 1
      · obtain ⟨l1, h1, h2, h3⟩ := ih (n + 1 - v.length) (by omega)
        refine ⟨l1, by simp [advance, hc, h1], ?_, fun hn => h3 (by simp at hn; exact hn.2)⟩
        rw [h2, List.flatten_cons, List.drop_append, List.drop_eq_nil_of_le hc, List.nil_append]
      · refine ⟨v.drop (n + 1) :: l, by simp [advance, hc], ?_, ?_⟩
        · simp only [List.flatten_cons]
          rw [List.drop_append, show n + 1 - v.length = 0 from by omega, List.drop_zero]
        · intro hn
          simp only [List.mem_cons, not_or] at hn ⊢
          refine ⟨fun he => ?_, hn.2⟩
          have := congrArg List.length he
          simp at this
          omega

theorem total_flatten (l : List (List Nat)) : total l = l.flatten.length := by
  simp [total, List.length_flatten]

/-! ### The reading loop -/

theorem readLoop_spec (fuel : Nat) : ∀ (e : Eng) (caps got : List Nat) stop caps1 got1 e1, 0 ∉ caps →
    readLoop fuel e caps got = (stop, caps1, got1, e1) →
    Ext e e1 ∧ e1.accepted = e.accepted ∧ 0 ∉ caps1 ∧ (∃ bs, got1 = got ++ bs ∧ e1.given = e.given ++ bs) ∧
    (stop = .op .needWrite → e1.out ≠ []) ∧ (∀ o, stop = .op o → caps1 ≠ []) := by
  induction fuel with
  | zero =>
    intro e caps got stop caps1 got1 e1 hc h
    cases caps <;> simp [readLoop] at h <;> obtain ⟨rfl, rfl, rfl, rfl⟩ := h
    · simp [Ext.refl]
    · exact ⟨Ext.refl _, rfl, hc, ⟨[], by simp⟩, by simp, by simp⟩
  | succ fuel ih =>
    intro e caps got stop caps1 got1 e1 hc h
    cases caps with
    | nil => simp [readLoop] at h; obtain ⟨rfl, rfl, rfl, rfl⟩ := h; simp [Ext.refl]
    | cons n caps =>
      rw [readLoop] at h
      cases hr : e.read n with
      | mk r e2 =>
        rw [hr] at h
        have hs := read_spec hr
        cases r with
        | error o =>
          simp at h; obtain ⟨rfl, rfl, rfl, rfl⟩ := h
          obtain ⟨h1, h2, h3, h4, h5⟩ := hs
          exact ⟨h1, h2, hc, ⟨[], by simp, by simpa using h3⟩, by simpa using h4, by simp⟩
        | ok bs =>
          obtain ⟨h1, h2, h3, h4, h5, h6⟩ := hs
          simp only at h
          have hc' : 0 ∉ (if bs.length < n then (n - bs.length) :: caps else caps) := by
            simp only [List.mem_cons, not_or] at hc
            split
            · simp only [List.mem_cons, not_or]; exact ⟨by omega, hc.2⟩
            · exact hc.2
          obtain ⟨k1, k2, k3, ⟨x, k4, k4'⟩, k5, k6⟩ := ih _ _ _ _ _ _ _ hc' h
          exact ⟨h1.trans k1, by rw [k2, h2], k3, ⟨bs ++ x, by simp [k4], by simp [k4', h5]⟩, k5, k6⟩

end Verif.Tls
