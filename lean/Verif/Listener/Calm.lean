import Verif.Listener.Log
/-!
Shutdown without migrations: runs in which no migration is under way when the shutdown begins and none begins later, no
traversal waits at that time, traversals start from connections that are still in the list, and the listener is destroyed
after the traversals have ended.
-/
namespace Verif.Listener
open Verif.Common

def Conn.migrating (x : Conn) : Bool :=
  match x.pc with
  | .mgTry _ | .mgBack _ | .mgHeld _ | .transit _ | .mgOut => true
  | _ => false

/-- The starting point of a traversal is null or in the list of its thread, if the thread has one. -/
def S.fromOk (s : S) (k : Nat) : Bool :=
  match s.trs[k]? with
  | none => true
  | some r =>
    match r.frm, s.lists r.th with
    | some c, some l => decide (c ∈ l)
    | _, _ => true

def calm (s : S) : Act → Bool
  | .migBegin _ _ => decide (s.phase = .accepting)
  | .stop => s.conns.all (fun x => !x.migrating) && s.trs.all (fun r => decide (r.pc ≠ .waiting))
  | .destroy => s.trs.all fun r =>
      match r.pc with
      | .done _ => true
      | _ => false
  | .trAdd k | .trCheck k => s.fromOk k
  | _ => true

def calmStep (s : S) (a : Act) : Option S := if calm s a then step s a else none

theorem calm_eq {s s1 : S} {a : Act} (h : calmStep s a = some s1) : calm s a = true ∧ s.bad = none ∧ stepA s a = some s1 := by
  unfold calmStep at h
  split at h
  · exact ⟨by assumption, step_eq h⟩
  · cases h

theorem calm_reach {s : S} (h : Reachable Init calmStep s) : Reachable Init step s := by
  induction h with
  | init hi _ => exact .init hi trivial
  | step _ hst _ ih =>
    unfold calmStep at hst
    split at hst
    · exact .step ih hst trivial
    · cases hst

def told (s : S) (c : Nat) : Prop := ∃ x : Conn, s.conns[c]? = some x ∧ x.shut = true

/-- How far the shutdown loop of a thread with list `l` is. -/
def SdOk (s : S) (l : List Nat) : Sd → Prop
  | .shutting c => told s c ∧ (c ∈ l → ∀ d ∈ l.takeWhile (fun x => decide (x ≠ c)), told s d)
  | .cleaned | .awaiting => ∀ d ∈ l, told s d
  | _ => True

structure K (s : S) : Prop where
  mig : s.phase ≠ .accepting → ∀ (c : Nat) (x : Conn), s.conns[c]? = some x → x.migrating = false
  wt : s.phase ≠ .accepting → ∀ (k : Nat) (r : Tr), s.trs[k]? = some r → r.pc ≠ .waiting
  link : ∀ (c : Nat) (x : Conn), s.conns[c]? = some x → x.pc ≠ .queued → x.pc ≠ .gone → (∀ d, x.pc ≠ .transit d) →
    x.hook = some x.th
  bad : s.bad = none
  dead : s.phase = .dead → ∀ (k : Nat) (r : Tr), s.trs[k]? = some r → ∃ ret, r.pc = .done ret
  sd : ∀ (t : Nat) (l : List Nat), s.lists t = some l → SdOk s l (s.sd t)
  own : ∀ (t c : Nat) (x : Conn), s.sd t = .shutting c → s.conns[c]? = some x → x.th = t

theorem SdOk.mono {s s1 : S} {l : List Nat} {v : Sd} (h : SdOk s l v) (ht : ∀ d, told s d → told s1 d) : SdOk s1 l v := by
  cases v with
  | shutting c => exact ⟨ht _ h.1, fun hc d hd => ht d (h.2 hc d hd)⟩
  | cleaned => exact fun d hd => ht d (h d hd)
  | awaiting => exact fun d hd => ht d (h d hd)
  | none => trivial
  | freed => trivial

theorem takeWhile_erase {l : List Nat} {c e d : Nat} (he : e ≠ c)
    (hd : d ∈ (l.erase e).takeWhile (fun x => decide (x ≠ c))) : d ∈ l.takeWhile (fun x => decide (x ≠ c)) := by
  induction l with
  | nil => simpa using hd
  | cons a l ih =>
    rw [List.erase_cons] at hd
    by_cases hae : (a == e) = true
    · rw [if_pos hae] at hd
      have : a = e := by simpa using hae
      subst this
      rw [List.takeWhile_cons, if_pos (by simpa using he)]
      exact List.mem_cons_of_mem _ hd
    · rw [if_neg hae, List.takeWhile_cons] at hd
      rw [List.takeWhile_cons]
      split at hd
      · rename_i hp
        rw [if_pos hp]
        rcases List.mem_cons.1 hd with rfl | hd
        · exact List.mem_cons_self ..
        · exact List.mem_cons_of_mem _ (ih hd)
      · simp at hd

theorem SdOk.erase {s : S} {l : List Nat} {v : Sd} (h : SdOk s l v) (nd : l.Nodup) (e : Nat) : SdOk s (l.erase e) v := by
  cases v with
  | shutting c =>
    refine ⟨h.1, fun hc d hd => ?_⟩
    by_cases he : e = c
    · subst he
      exact absurd hc (fun h => (nd.mem_erase_iff.1 h).1 rfl)
    · exact h.2 (List.mem_of_mem_erase hc) d (takeWhile_erase he hd)
  | cleaned => exact fun d hd => h d (List.mem_of_mem_erase hd)
  | awaiting => exact fun d hd => h d (List.mem_of_mem_erase hd)
  | none => trivial
  | freed => trivial

theorem told_set {s s1 : S} {c : Nat} {x y : Conn} (hx : s.conns[c]? = some x) (h2 : s1.conns = s.conns.set c y)
    (hs : x.shut = true → y.shut = true) (d : Nat) (h : told s d) : told s1 d := by
  obtain ⟨z, hz, h1⟩ := h
  by_cases he : d = c
  · subst he
    rw [hx] at hz
    cases hz
    exact ⟨y, by rw [h2]; simp [lt_of_get hx], hs h1⟩
  · exact ⟨z, by rw [h2, List.getElem?_set_ne (Ne.symm he)]; exact hz, h1⟩

/-- A step of a connection that leaves the lists alone. -/
theorem K.conn {s s1 : S} (k : K s) {c : Nat} {x y : Conn} (hx : s.conns[c]? = some x) (h2 : s1.conns = s.conns.set c y)
    (h3 : s1.phase = s.phase) (h4 : s1.trs = s.trs) (h5 : s1.bad = none) (h6 : s1.sd = s.sd)
    (hl : ∀ t l, s1.lists t = some l → SdOk s l (s.sd t)) (hs : y.shut = x.shut)
    (hm : y.migrating = true → x.migrating = true ∨ s.phase = .accepting)
    (hk : y.pc ≠ .queued → y.pc ≠ .gone → (∀ d, y.pc ≠ .transit d) → y.hook = some y.th)
    (ho : y.th = x.th ∨ ∀ t c, s.sd t ≠ .shutting c) : K s1 := by
  refine ⟨?_, by rw [h3, h4]; exact k.wt, ?_, h5, by rw [h3, h4]; exact k.dead, ?_, ?_⟩
  · intro hp c' z hz
    rw [h3] at hp
    rw [h2] at hz
    rcases get_set hz with ⟨rfl, rfl⟩ | ⟨he, hz⟩
    · cases hy : z.migrating with
      | false => rfl
      | true =>
        rcases hm hy with h | h
        · rw [k.mig hp _ x hx] at h; cases h
        · exact absurd h hp
    · exact k.mig hp c' z hz
  · intro c' z hz
    rw [h2] at hz
    rcases get_set hz with ⟨rfl, rfl⟩ | ⟨he, hz⟩
    · exact hk
    · exact k.link c' z hz
  · intro t l hl'
    rw [h6]
    exact (hl t l hl').mono (told_set hx h2 (by rw [hs]; exact id))
  · intro t c' z hsd hz
    rw [h6] at hsd
    rw [h2] at hz
    rcases get_set hz with ⟨rfl, rfl⟩ | ⟨he, hz⟩
    · rcases ho with ho | ho
      · rw [ho]; exact k.own t _ x hsd hx
      · exact absurd hsd (ho t _)
    · exact k.own t c' z hsd hz

theorem SdOk.eraseL {s : S} (st : Str s) (k : K s) {u e : Nat} {m : List Nat} (hm : s.lists u = some m) :
    ∀ t l, upd s.lists u (some (m.erase e)) t = some l → SdOk s l (s.sd t) := by
  intro t l hl
  by_cases he : t = u
  · subst he
    rw [upd_same] at hl
    cases hl
    exact (k.sd t m hm).erase (st.l.nd _ _ hm) e
  · rw [upd_ne _ _ he] at hl
    exact k.sd t l hl

/-- Changes elsewhere. -/
theorem K.same {s s1 : S} (k : K s) (h1 : s1.conns = s.conns) (h2 : s1.lists = s.lists) (h3 : s1.phase = s.phase)
    (h4 : ∀ (i : Nat) (r : Tr), s1.trs[i]? = some r → s.trs[i]? = some r ∨ (s.phase = .accepting) ∨
      (r.pc ≠ .waiting ∧ (s.phase ≠ .dead)) ∨ (∃ ret, r.pc = .done ret))
    (h5 : s1.bad = none) (h6 : s1.sd = s.sd) : K s1 := by
  refine ⟨by rw [h3, h1]; exact k.mig, ?_, by rw [h1]; exact k.link, h5, ?_, ?_, by rw [h6, h1]; exact k.own⟩
  · intro hp i r hr
    rw [h3] at hp
    rcases h4 i r hr with h | h | h | ⟨ret, h⟩
    · exact k.wt hp i r h
    · exact absurd h hp
    · exact h.1
    · simp [h]
  · intro hp i r hr
    rw [h3] at hp
    rcases h4 i r hr with h | h | h | h
    · exact k.dead hp i r h
    · rw [h] at hp; cases hp
    · exact absurd hp h.2
    · exact h
  · intro t l hl
    rw [h2] at hl
    rw [h6]
    exact (k.sd t l hl).mono (fun d hd => by unfold told; rw [h1]; exact hd)

/-- The shutdown loop goes on at `iter`. -/
theorem k_sdGo {s s1 : S} (st : LOk s.conns s.lists) (co : ∀ (c : Nat) (x : Conn), s.conns[c]? = some x → COk s.n x) (k : K s) {t : Nat} {l : List Nat} {i : Option Nat} (hl : s.lists t = some l)
    (hi : (i = none → ∀ d ∈ l, told s d) ∧ ∀ c, i = some c → c ∈ l → ∀ d ∈ l.takeWhile (fun x => decide (x ≠ c)), told s d)
    (hin : ∀ c, i = some c → c ∈ l)
    (h : sdGo s t i = some s1) : K s1 := by
  unfold sdGo at h
  split at h
  · cases h
    refine ⟨k.mig, k.wt, k.link, k.bad, k.dead, ?_, ?_⟩
    rotate_left
    · intro u c x hsd hx
      by_cases he : u = t
      · subst he; simp only [upd_same] at hsd; cases hsd
      · simp only [upd_ne _ _ he] at hsd; exact k.own u c x hsd hx
    intro u m hm
    by_cases he : u = t
    · subst he
      have hm : s.lists u = some m := hm
      rw [hl] at hm
      cases hm
      simp only [upd_same]
      exact hi.1 rfl
    · simp only [upd_ne _ _ he]
      exact k.sd u m hm
  · rename_i c
    split at h
    · cases h
    · rename_i x hx
      cases h
      have ht : ∀ d, told s d → told (s.setC c { x with shut := true }) d := told_set hx rfl (fun _ => rfl)
      have key : ∀ (z : Conn) (c' : Nat), (s.conns.set c { x with shut := true })[c']? = some z →
          ∃ w : Conn, s.conns[c']? = some w ∧ w.pc = z.pc ∧ w.hook = z.hook ∧ w.th = z.th := by
        intro z c' hz
        rcases get_set hz with ⟨rfl, rfl⟩ | ⟨he, hz⟩
        · exact ⟨x, hx, rfl, rfl, rfl⟩
        · exact ⟨z, hz, rfl, rfl, rfl⟩
      refine ⟨?_, k.wt, ?_, k.bad, k.dead, ?_, ?_⟩
      rotate_right
      · intro u c' z hsd hz
        obtain ⟨w, hw, _, h2, h3⟩ := key z c' hz
        rw [← h3]
        by_cases he : u = t
        · subst he
          simp only [upd_same, Sd.shutting.injEq] at hsd
          subst hsd
          obtain ⟨v, hv, hh⟩ := (st.mem _ _ c hl).1 (hin c rfl)
          rw [hw] at hv
          cases hv
          exact ((co c w hw).hook u hh).1.symm
        · simp only [upd_ne _ _ he] at hsd
          exact k.own u c' w hsd hw
      · intro hp c' z hz
        obtain ⟨w, hw, h1, _⟩ := key z c' hz
        have := k.mig hp c' w hw
        unfold Conn.migrating at this ⊢
        rw [← h1]
        exact this
      · intro c' z hz a1 a2 a3
        obtain ⟨w, hw, h1, h2, h3⟩ := key z c' hz
        rw [← h1] at a1 a2 a3
        rw [← h2, ← h3]
        exact k.link c' w hw a1 a2 a3
      · intro u m hm
        by_cases he : u = t
        · subst he
          have hm' : s.lists u = some m := hm
          rw [hl] at hm'
          cases hm'
          simp only [upd_same]
          exact ⟨⟨{ x with shut := true }, by simp [S.setC, lt_of_get hx], rfl⟩, fun hc d hd => ht d (hi.2 c rfl hc d hd)⟩
        · simp only [upd_ne _ _ he]
          exact (k.sd u m hm).mono ht

theorem head_ok {s : S} (l : List Nat) : (l.head? = none → ∀ d ∈ l, told s d) ∧
    ∀ c, l.head? = some c → c ∈ l → ∀ d ∈ l.takeWhile (fun x => decide (x ≠ c)), told s d := by
  cases l with
  | nil => simp
  | cons a l =>
    refine ⟨by simp, ?_⟩
    intro c hc _ d hd
    simp only [List.head?_cons, Option.some.injEq] at hc
    subst hc
    rw [List.takeWhile_cons, if_neg (by simp)] at hd
    simp at hd

theorem after_ok {s : S} {l : List Nat} {c : Nat} (nd : l.Nodup) (hc : c ∈ l) (h1 : told s c)
    (h2 : ∀ d ∈ l.takeWhile (fun x => decide (x ≠ c)), told s d) : (after l c = none → ∀ d ∈ l, told s d) ∧
    ∀ e, after l c = some e → e ∈ l → ∀ d ∈ l.takeWhile (fun x => decide (x ≠ e)), told s d := by
  obtain ⟨p, q, rfl⟩ := List.append_of_mem hc
  have hn : c ∉ p := by
    rw [List.nodup_append] at nd
    intro hm
    exact nd.2.2 c hm c (List.mem_cons_self ..) rfl
  have tw : (p ++ c :: q).takeWhile (fun x => decide (x ≠ c)) = p := by
    rw [List.takeWhile_append_of_pos]
    · simp
    · intro x hx
      rw [decide_eq_true_eq]
      rintro rfl
      exact hn hx
  rw [tw] at h2
  rw [after_mid nd]
  cases q with
  | nil =>
    refine ⟨fun _ d hd => ?_, by simp⟩
    simp only [List.mem_append, List.mem_singleton] at hd
    rcases hd with hd | rfl
    · exact h2 d hd
    · exact h1
  | cons b q =>
    refine ⟨by simp, ?_⟩
    intro e he _ d hd
    simp only [List.head?_cons, Option.some.injEq] at he
    subst he
    have nd2 := nd
    rw [show p ++ c :: b :: q = (p ++ [c]) ++ b :: q by simp] at nd2
    rw [List.nodup_append] at nd2
    rw [show p ++ c :: b :: q = (p ++ [c]) ++ b :: q by simp, List.takeWhile_append_of_pos] at hd
    · simp only [ne_eq, not_true_eq_false, decide_false, Bool.false_eq_true, not_false_eq_true, List.takeWhile_cons_of_neg,
        List.append_nil, List.mem_append, List.mem_singleton] at hd
      rcases hd with hd | rfl
      · exact h2 d hd
      · exact h1
    · intro x hx
      rw [decide_eq_true_eq]
      rintro rfl
      exact nd2.2.2 _ hx _ (List.mem_cons_self ..) rfl

end Verif.Listener
