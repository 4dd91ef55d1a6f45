import Verif.FQPool.Order
/-! Nobody sleeps without a reason: a sleeping caller's start worker has a full queue or is about to notify, and a sleeping
worker has an empty queue or is about to be notified. -/
namespace Verif.FQPool
open Verif.Common

/-- A caller's numbers are those of workers. -/
def CPc.ok (n : Nat) : CPc → Prop
  | .idle => True
  | .prep k _ _ => k.main < n
  | .try_ k rest _ _ _ => k.main < n ∧ rest ≠ [] ∧ ∀ i ∈ rest, i < n
  | .ntf i _ _ => i < n
  | .sleep k _ _ _ => k.main < n
  | .await _ => True

/-- The worker and the epoch a caller waits for, or will if the attempts at the rest fail. -/
def CPc.waits : CPc → Option (Nat × Nat × List Nat)
  | .try_ k rest _ (some e) _ => some (k.main, e, rest)
  | .sleep k _ e _ => some (k.main, e, [])
  | _ => none

/-- Between the first dequeue of a batch and the notification. -/
def WPc.draining : WPc → Bool
  | .more _ => true
  | .ntf _ => true
  | _ => false

/-- The epoch a worker has seen, and whether it has found the queue empty since. -/
def WPc.seen : WPc → Option Nat
  | .try1 e => some e
  | .cls1 e => some e
  | .sleep e => some e
  | _ => none

def WPc.past : WPc → Option Nat
  | .cls1 e => some e
  | .sleep e => some e
  | _ => none

def Owes (s : S) (m e : Nat) (rest : List Nat) : Prop :=
  ∀ w : W, s.ws[m]? = some w → e ≤ w.pushE ∧ (w.pushE = e → m ∉ rest → w.q.length = s.cap ∨ w.pc.draining = true)

def WOk (cs : List CPc) (k : Nat) (w : W) : Prop :=
  (∀ e, w.pc.seen = some e → e ≤ w.pullE) ∧
  (∀ e, w.pc.past = some e → w.pullE = e → w.q = [] ∨ ∃ (c x : Nat) (aw : Bool), cs[c]? = some (CPc.ntf k x aw))

structure InvB (s : S) : Prop where
  rng : ∀ (c : Nat) (pc : CPc), s.cs[c]? = some pc → pc.ok s.ws.length
  owe : ∀ (c : Nat) (pc : CPc) m e rest, s.cs[c]? = some pc → pc.waits = some (m, e, rest) → Owes s m e rest
  wok : ∀ (k : Nat) (w : W), s.ws[k]? = some w → WOk s.cs k w

theorem InvB.w {s : S} (hi : InvB s) {k} {w w' : W} (hw : s.ws[k]? = some w) (h1 : w.pushE ≤ w'.pushE)
    (h2 : w'.pushE = w.pushE → w.q.length = s.cap ∨ w.pc.draining = true → w'.q.length = s.cap ∨ w'.pc.draining = true)
    (h3 : WOk s.cs k w') : InvB (s.setW k w') where
  rng := by
    intro c pc hc
    show pc.ok (s.ws.set k w').length
    rw [List.length_set]; exact hi.rng c pc hc
  owe := by
    intro c pc m e rest hc hp v hv
    rcases get_set (show (s.ws.set k w')[m]? = some v from hv) with ⟨rfl, rfl⟩ | ⟨_, h⟩
    · have ho := hi.owe c pc m e rest hc hp w hw
      refine ⟨Nat.le_trans ho.1 h1, fun he hm => ?_⟩
      have hpe : v.pushE = w.pushE := by have := ho.1; omega
      exact h2 hpe (ho.2 (by omega) hm)
    · exact hi.owe c pc m e rest hc hp v h
  wok := by
    intro j v hj
    rcases get_set (show (s.ws.set k w')[j]? = some v from hj) with ⟨rfl, rfl⟩ | ⟨_, h⟩
    · exact h3
    · exact hi.wok j v h

/-- A caller moves that was not about to notify anyone. -/
theorem InvB.c {s : S} (hi : InvB s) {c} {pc pc' : CPc} (hc : s.cs[c]? = some pc) (hn : ∀ i x aw, pc ≠ .ntf i x aw)
    (hok : pc'.ok s.ws.length) (ho : ∀ m e rest, pc'.waits = some (m, e, rest) → Owes s m e rest) : InvB (s.setC c pc') where
  rng := by
    intro d v hd
    rcases get_set (show (s.cs.set c pc')[d]? = some v from hd) with ⟨rfl, rfl⟩ | ⟨_, h⟩
    · exact hok
    · exact hi.rng d v h
  owe := by
    intro d v m e rest hd hv
    rcases get_set (show (s.cs.set c pc')[d]? = some v from hd) with ⟨rfl, rfl⟩ | ⟨_, h⟩
    · exact ho m e rest hv
    · exact hi.owe d v m e rest h hv
  wok := by
    intro k w hk
    refine ⟨(hi.wok k w hk).1, fun e he hp => ?_⟩
    rcases (hi.wok k w hk).2 e he hp with h | ⟨d, x, aw, h⟩
    · exact .inl h
    · refine .inr ⟨d, x, aw, ?_⟩
      show (s.cs.set c pc')[d]? = _
      rw [List.getElem?_set_ne]
      · exact h
      · rintro rfl; rw [hc] at h; exact hn _ _ _ (Option.some.inj h)

theorem InvB.ph {s s' : S} (hi : InvB s) (h1 : s'.cap = s.cap) (h2 : s'.ws = s.ws) (h3 : s'.cs = s.cs) : InvB s' where
  rng := by rw [h2, h3]; exact hi.rng
  owe := by
    intro c pc m e rest hc hp w hw
    rw [h2] at hw; rw [h3] at hc; rw [h1]
    exact hi.owe c pc m e rest hc hp w hw
  wok := by rw [h2, h3]; exact hi.wok

theorem rotation_lt {n start i : Nat} (h : start < n) (hi : i ∈ rotation n start) : i < n := by
  obtain ⟨j, hj, rfl⟩ := List.mem_map.1 hi
  have := List.mem_range.1 hj
  unfold wrapped; split <;> omega

theorem rotation_ne {n start : Nat} (h : start < n) : rotation n start ≠ [] := by
  intro hn
  have : (rotation n start).length = 0 := by rw [hn]; rfl
  simp [rotation] at this; omega

theorem start_mem {n start : Nat} (h : start < n) : start ∈ rotation n start :=
  List.mem_map.2 ⟨0, List.mem_range.2 (by omega), by simp [wrapped, h]⟩

theorem Kind.list_ok {k : Kind} {n : Nat} (h : k.main < n) : k.list n ≠ [] ∧ (∀ i ∈ k.list n, i < n) ∧ k.main ∈ k.list n := by
  cases k with
  | any s => exact ⟨rotation_ne h, fun i hi => rotation_lt h hi, start_mem h⟩
  | pin w => refine ⟨by simp [Kind.list], ?_, by simp [Kind.list, Kind.main]⟩; intro i hi; simp [Kind.list] at hi; subst hi; exact h

theorem InvB.enq {s : S} (hi : InvB s) {c k i rest x e aw} {w : W} (hc : s.cs[c]? = some (.try_ k (i :: rest) x e aw))
    (hw : s.ws[i]? = some w) (hl : w.q.length < s.cap) :
    InvB ((s.setW i { w with q := w.q ++ [x] }).setC c (.ntf i x aw)) where
  rng := by
    intro d v hd
    show v.ok (s.ws.set i _).length
    rw [List.length_set]
    rcases get_set (show (s.cs.set c _)[d]? = some v from hd) with ⟨rfl, rfl⟩ | ⟨_, h⟩
    · exact lt_of_get hw
    · exact hi.rng d v h
  owe := by
    intro d v m e' rest' hd hv u hu
    rcases get_set (show (s.cs.set c _)[d]? = some v from hd) with ⟨rfl, rfl⟩ | ⟨_, h⟩
    · cases hv
    · rcases get_set (show (s.ws.set i _)[m]? = some u from hu) with ⟨rfl, rfl⟩ | ⟨_, h'⟩
      · have ho := hi.owe d v m e' rest' h hv w hw
        refine ⟨ho.1, fun he hm => .inr ?_⟩
        rcases ho.2 he hm with h1 | h1
        · omega
        · exact h1
      · exact hi.owe d v m e' rest' h hv u h'
  wok := by
    intro j u hu
    rcases get_set (show (s.ws.set i _)[j]? = some u from hu) with ⟨rfl, rfl⟩ | ⟨_, h'⟩
    · refine ⟨(hi.wok j w hw).1, fun e he hp => .inr ⟨c, x, aw, ?_⟩⟩
      show (s.cs.set c _)[c]? = _
      rw [List.getElem?_set_self (lt_of_get hc)]
    · refine ⟨(hi.wok j u h').1, fun e he hp => ?_⟩
      rcases (hi.wok j u h').2 e he hp with h | ⟨d, y, aw', h⟩
      · exact .inl h
      · refine .inr ⟨d, y, aw', ?_⟩
        show (s.cs.set c _)[d]? = _
        rw [List.getElem?_set_ne]
        · exact h
        · rintro rfl; rw [hc] at h; cases h

theorem InvB.cntf {s : S} (hi : InvB s) {c i x aw} {w : W} (hc : s.cs[c]? = some (.ntf i x aw)) (hw : s.ws[i]? = some w) :
    InvB ((s.setW i { w with pullE := w.pullE + 1 }).setC c (added x aw)) where
  rng := by
    intro d v hd
    show v.ok (s.ws.set i _).length
    rw [List.length_set]
    rcases get_set (show (s.cs.set c _)[d]? = some v from hd) with ⟨rfl, rfl⟩ | ⟨_, h⟩
    · cases aw <;> trivial
    · exact hi.rng d v h
  owe := by
    intro d v m e' rest' hd hv u hu
    rcases get_set (show (s.cs.set c _)[d]? = some v from hd) with ⟨rfl, rfl⟩ | ⟨_, h⟩
    · cases aw <;> cases hv
    · rcases get_set (show (s.ws.set i _)[m]? = some u from hu) with ⟨rfl, rfl⟩ | ⟨_, h'⟩
      · exact hi.owe d v m e' rest' h hv w hw
      · exact hi.owe d v m e' rest' h hv u h'
  wok := by
    intro j u hu
    rcases get_set (show (s.ws.set i _)[j]? = some u from hu) with ⟨rfl, rfl⟩ | ⟨hne, h'⟩
    · have h1 := (hi.wok j w hw).1
      refine ⟨fun e he => Nat.le_succ_of_le (h1 e he), fun e he hp => ?_⟩
      exfalso
      have he' : w.pc.seen = some e := by
        have : w.pc.past = some e := he
        cases hpc : w.pc <;> rw [hpc] at this <;> cases this <;> rfl
      have h2 := h1 e he'
      have h3 : w.pullE + 1 = e := hp
      omega
    · refine ⟨(hi.wok j u h').1, fun e he hp => ?_⟩
      rcases (hi.wok j u h').2 e he hp with h | ⟨d, y, aw', h⟩
      · exact .inl h
      · refine .inr ⟨d, y, aw', ?_⟩
        show (s.cs.set c _)[d]? = _
        rw [List.getElem?_set_ne]
        · exact h
        · rintro rfl; rw [hc] at h; cases h; exact hne rfl

theorem invB_init {s : S} (h : Init s) : InvB s := by
  obtain ⟨n, cap, m, hn, hc, rfl⟩ := h
  have hw : ∀ (k : Nat) (w : W), (S.new n cap m).ws[k]? = some w → w = ⟨[], false, 0, 0, .try0⟩ := by
    intro k w hk
    exact List.eq_of_mem_replicate (List.mem_of_getElem? hk)
  have hcs : ∀ (k : Nat) (pc : CPc), (S.new n cap m).cs[k]? = some pc → pc = .idle := by
    intro k w hk
    exact List.eq_of_mem_replicate (List.mem_of_getElem? hk)
  refine ⟨?_, ?_, ?_⟩
  · intro c pc hc; rw [hcs c pc hc]; trivial
  · intro c pc m e rest hc hp; rw [hcs c pc hc] at hp; cases hp
  · intro k w hk; rw [hw k w hk]; exact ⟨fun e he => (by cases he), fun e he => (by cases he)⟩

theorem invB_mv {s s' : S} (ha : InvA s) (hi : InvB s) (h : Mv s s') : InvB s' := by
  have full : ∀ {i : Nat} {w : W}, s.ws[i]? = some w → ¬ w.q.length < s.cap → w.q.length = s.cap := by
    intro i w hw hl; have := ha.len i w hw; omega
  cases h with
  | @add c aw _ hc =>
    refine (hi.c (pc' := .prep (.any (s.next % s.ws.length)) s.cnt aw) hc (by intros; exact CPc.noConfusion)
      (Nat.mod_lt _ ha.n) (by intro m e r h; cases h)).ph rfl rfl rfl
  | @addTo c i aw _ hc =>
    refine (hi.c (pc' := .try_ (.pin (i % s.ws.length)) [i % s.ws.length] s.cnt none aw) hc (by intros; exact CPc.noConfusion)
      ⟨Nat.mod_lt _ ha.n, by simp, by intro j hj; simp at hj; subst hj; exact Nat.mod_lt _ ha.n⟩
      (by intro m e r h; cases h)).ph rfl rfl rfl
  | @prep c k x aw w hc hw =>
    have hl := Kind.list_ok (show k.main < s.ws.length from lt_of_get hw)
    refine hi.c hc (by intros; exact CPc.noConfusion) ⟨lt_of_get hw, hl.1, hl.2.1⟩ ?_
    intro m e r h v hv
    cases h
    rw [hw] at hv; cases hv
    exact ⟨Nat.le_refl _, fun _ hm => absurd hl.2.2 hm⟩
  | enq hc hw hl => exact (hi.enq hc hw hl).ph rfl rfl rfl
  | @nxt c k i j rest x e aw w hc hw hl =>
    have hr := hi.rng _ _ hc
    refine hi.c hc (by intros; exact CPc.noConfusion)
      ⟨hr.1, by simp, fun a h => hr.2.2 a (List.mem_cons_of_mem _ h)⟩ ?_
    intro m e' r h v hv
    cases e with
    | none => cases h
    | some e =>
      cases h
      have ho := hi.owe _ _ _ _ _ hc rfl v hv
      refine ⟨ho.1, fun he hm => ?_⟩
      by_cases hki : k.main = i
      · rw [hki, hw] at hv; cases hv; exact .inl (full hw hl)
      · exact ho.2 he (by intro h; rcases List.mem_cons.1 h with h | h; exact hki h; exact hm h)
  | @slp c k i x e aw w hc hw hl =>
    have hr := hi.rng _ _ hc
    refine hi.c hc (by intros; exact CPc.noConfusion) hr.1 ?_
    intro m e' r h v hv
    cases h
    have ho := hi.owe _ _ _ _ _ hc rfl v hv
    refine ⟨ho.1, fun he hm => ?_⟩
    by_cases hki : k.main = i
    · rw [hki, hw] at hv; cases hv; exact .inl (full hw hl)
    · exact ho.2 he (by intro h; rcases List.mem_cons.1 h with h | h; exact hki h; exact hm h)
  | retry hc =>
    exact hi.c hc (by intros; exact CPc.noConfusion) (hi.rng _ _ hc).1 (by intro m e r h; cases h)
  | cntf hc hw => exact hi.cntf hc hw
  | wake hc hw _ =>
    exact hi.c hc (by intros; exact CPc.noConfusion) (lt_of_get hw) (by intro m e r h; cases h)
  | done hc => exact hi.c hc (by intros; exact CPc.noConfusion) trivial (by intro m e r h; cases h)
  | @take k w x q hw hq hp =>
    exact hi.w hw (Nat.le_refl _) (fun _ _ => .inr rfl) ⟨fun e h => (by cases h), fun e h => (by cases h)⟩
  | @empty0 k w hw hp hq =>
    exact hi.w hw (Nat.le_refl _) (fun _ h => by rw [hp] at h; rcases h with h | h; exact .inl h; cases h)
      ⟨fun e h => (by cases h), fun e h => (by cases h)⟩
  | @empty1 k w e hw hp hq =>
    refine hi.w hw (Nat.le_refl _) (fun _ h => by rw [hp] at h; rcases h with h | h; exact .inl h; cases h)
      ⟨fun e' h => ?_, fun e' h _ => .inl hq⟩
    cases h; exact (hi.wok k w hw).1 e (by rw [hp]; rfl)
  | @exit k w hw hp _ =>
    refine hi.w hw (Nat.le_refl _) (fun _ h => ?_) ⟨fun e h => (by cases h), fun e h => (by cases h)⟩
    rcases hp with hp | ⟨e, hp⟩ <;> rw [hp] at h <;> rcases h with h | h
    · exact .inl h
    · cases h
    · exact .inl h
    · cases h
  | @stay k w hw hp _ =>
    exact hi.w hw (Nat.le_refl _) (fun _ h => by rw [hp] at h; rcases h with h | h; exact .inl h; cases h)
      ⟨fun e h => (by cases h), fun e h => (by cases h)⟩
  | @wslp k w e hw hp _ =>
    refine hi.w hw (Nat.le_refl _) (fun _ h => by rw [hp] at h; rcases h with h | h; exact .inl h; cases h)
      ⟨fun e' h => ?_, fun e' h he => ?_⟩
    · cases h; exact (hi.wok k w hw).1 e (by rw [hp]; rfl)
    · cases h; exact (hi.wok k w hw).2 e (by rw [hp]; rfl) he
  | @wprep k w hw hp =>
    refine hi.w hw (Nat.le_refl _) (fun _ h => by rw [hp] at h; rcases h with h | h; exact .inl h; cases h)
      ⟨fun e' h => ?_, fun e h => (by cases h)⟩
    cases h; exact Nat.le_refl _
  | @wwake k w e hw hp _ =>
    exact hi.w hw (Nat.le_refl _) (fun _ h => by rw [hp] at h; rcases h with h | h; exact .inl h; cases h)
      ⟨fun e h => (by cases h), fun e h => (by cases h)⟩
  | @full k w ts hw hp _ =>
    exact hi.w hw (Nat.le_refl _) (fun _ _ => .inr rfl) ⟨fun e h => (by cases h), fun e h => (by cases h)⟩
  | @wntf k w ts hw hp =>
    exact hi.w hw (Nat.le_succ _) (fun h _ => absurd h (Nat.succ_ne_self _)) ⟨fun e h => (by cases h), fun e h => (by cases h)⟩
  | @run k w x ts hw hp =>
    exact (hi.w (w' := { w with pc := .exec ts }) hw (Nat.le_refl _)
      (fun _ h => by rw [hp] at h; rcases h with h | h; exact .inl h; cases h)
      ⟨fun e h => (by cases h), fun e h => (by cases h)⟩).ph rfl rfl rfl
  | @again k w hw hp =>
    exact hi.w hw (Nat.le_refl _) (fun _ h => by rw [hp] at h; rcases h with h | h; exact .inl h; cases h)
      ⟨fun e h => (by cases h), fun e h => (by cases h)⟩
  | shutdown => exact hi.ph rfl rfl rfl
  | @close k w _ hw =>
    exact (hi.w (w' := { w with closed := true }) hw (Nat.le_refl _) (fun _ h => h) (hi.wok k w hw)).ph rfl rfl rfl
  | closed => exact hi.ph rfl rfl rfl
  | @sntf k w _ hw =>
    refine (hi.w (w' := { w with pullE := w.pullE + 1 }) hw (Nat.le_refl _) (fun _ h => h) ⟨?_, ?_⟩).ph rfl rfl rfl
    · exact fun e he => Nat.le_succ_of_le ((hi.wok k w hw).1 e he)
    · intro e he hp
      exfalso
      have he' : w.pc.seen = some e := by
        have : w.pc.past = some e := he
        cases hpc : w.pc <;> rw [hpc] at this <;> cases this <;> rfl
      have h2 := (hi.wok k w hw).1 e he'
      have h3 : w.pullE + 1 = e := hp
      omega
  | join => exact hi.ph rfl rfl rfl
  | down => exact hi.ph rfl rfl rfl

theorem invB {s : S} (h : Reachable Init step s) : InvA s ∧ InvB s :=
  Reachable.invariant (fun s => InvA s ∧ InvB s) (fun _ h => ⟨invA_init h, invB_init h⟩)
    (fun _ _ _ hi h => ⟨invA_mv hi.1 (step_mv h), invB_mv hi.1 hi.2 (step_mv h)⟩) h

end Verif.FQPool
