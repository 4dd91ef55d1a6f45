import Verif.Channel.Model
/-! Invariants of the channel. -/
namespace Verif.Channel
open Verif.Common Verif.EventCount
variable {α : Type}

/-- The client steps, one by one. -/
theorem loc_cases {g g' : G α} {l l' : Pc α} {c : Ch α} (h : cLoc g l c = some (g', l')) :
    (g' = g ∧ l = .idle ∧ ((∃ x, l' = .push .fast x) ∨ (∃ x, l' = .push .once x) ∨ l' = .pop .fast ∨ l' = .pop .once)) ∨
    (g' = { g with closing := g.closing + 1 } ∧ l = .idle ∧ l' = .cNtf) ∨
    (∃ m x, l = .push m x ∧ g.q.room g.q.tail = true ∧ l' = .pub m g.q.tail x ∧
      g' = { g with q := { g.q with tail := g.q.tail + 1, items := g.q.items ++ [x] } }) ∨
    (∃ m x, l = .push m x ∧ g.q.room g.q.tail = false ∧ l' = pushFail x g.empties m ∧ g' = g) ∨
    (∃ m p x, l = .pub m p x ∧ l' = .ntfPop m ∧ g' = { g with q := { g.q with cell := upd g.q.cell p (some x) } }) ∨
    (∃ m v, l = .pop m ∧ g.q.cell g.q.head = some v ∧ l' = .rel m g.q.head v ∧
      g' = { g with q := { g.q with head := g.q.head + 1 } }) ∨
    (∃ m, l = .pop m ∧ g.q.cell g.q.head = none ∧ l' = .ntfPush m g.q.head ∧ g' = { g with empties := g.empties + 1 }) ∨
    (∃ m p v, l = .rel m p v ∧ l' = popDone v m ∧
      g' = { g with q := { g.q with freed := upd g.q.freed p true }, got := g.got ++ [(p, v)] }) ∨
    (∃ h, l = .qChk h ∧ g' = g ∧ ((g.isClosing = true ∧ l' = .pop .last) ∨ (g.isClosing = false ∧ l' = .qWait h))) ∨
    (∃ r, l = .fin r ∧ g' = g ∧ l' = .idle) := by
  cases l <;> simp only [cLoc] at h
  case idle => cases c <;> grind
  case push m x =>
    cases hr : g.q.room g.q.tail <;> simp [Q.claim, hr] at h <;> grind
  case pub m p x => simp [Q.publish] at h; grind
  case pop m =>
    cases hv : g.q.cell g.q.head <;> simp [Q.take, hv] at h <;> grind
  case rel m p v => simp [Q.release] at h; grind
  case qChk h0 => cases hv : g.isClosing <;> simp [hv] at h <;> grind
  case fin r => grind
  all_goals simp at h

/-- The values and positions in the queue. -/
structure QInv (g : G α) (F : Nat → Option (Pc α)) : Prop where
  cap : 0 < g.q.cap
  len : g.q.items.length = g.q.tail
  ht : g.q.head ≤ g.q.tail
  cell : ∀ p v, g.q.cell p = some v → g.q.items[p]? = some v
  clm : ∀ p, p < g.q.tail → (∃ v, g.q.cell p = some v) ∨ ∃ t m x, F t = some (.pub m p x)
  pub : ∀ t m p x, F t = some (.pub m p x) → p < g.q.tail ∧ g.q.cell p = none ∧ g.q.items[p]? = some x
  pub1 : ∀ t u m n p x y, F t = some (.pub m p x) → F u = some (.pub n p y) → t = u
  hd : ∀ p, p < g.q.head → ∃ v, g.q.cell p = some v
  frd : ∀ p, g.q.freed p = true → p < g.q.head
  ufr : ∀ p, p < g.q.head → g.q.freed p = true ∨ ∃ t m v, F t = some (.rel m p v)
  rel : ∀ t m p v, F t = some (.rel m p v) → p < g.q.head ∧ g.q.freed p = false ∧ g.q.items[p]? = some v
  rel1 : ∀ t u m n p v w, F t = some (.rel m p v) → F u = some (.rel n p w) → t = u
  bnd : ∀ p, p < g.q.tail → g.q.cap ≤ p → g.q.freed (p - g.q.cap) = true
  got : ∀ p v, (p, v) ∈ g.got → g.q.freed p = true ∧ g.q.items[p]? = some v
  got' : ∀ p, g.q.freed p = true → ∃ v, (p, v) ∈ g.got
  nd : (g.got.map Prod.fst).Nodup

theorem pushFail_ne (x : α) (k m) : (∀ n p y, pushFail x k m ≠ .pub n p y) ∧ (∀ n p v, pushFail x k m ≠ .rel n p v) := by
  cases m <;> simp [pushFail]

theorem popDone_ne (v : α) (m) : (∀ n p y, popDone v m ≠ .pub n p y) ∧ (∀ n p v', popDone v m ≠ .rel n p v') := by
  cases m <;> simp [popDone]

theorem ret_ne (l : Pc α) (h : cCall l ≠ .loc) : (∀ n p y, cRet l ≠ .pub n p y) ∧ (∀ n p v', cRet l ≠ .rel n p v') ∧
    (∀ n p y, l ≠ .pub n p y) ∧ (∀ n p v', l ≠ .rel n p v') := by
  cases l <;> simp [cCall] at h <;> simp [cRet]
  · rename_i m; cases m <;> simp [pushDone]
  · rename_i m _; cases m <;> simp [popFail]

theorem lcl_idle {I : G α → Prop} {s : State (G α) (Pc α)} (hi : Init I (fun l => l = .idle) s) {t : Nat} {l : Pc α} (hl : s.lcl t = some l) :
    l = .idle := by
  simp only [State.lcl, Option.map_eq_some_iff] at hl
  obtain ⟨x, hx, rfl⟩ := hl
  exact (hi.2.2.1 x (List.mem_of_getElem? hx)).1

def Ctl (l : Pc α) : Prop := (∀ n p y, l ≠ .pub n p y) ∧ (∀ n p v', l ≠ .rel n p v')

theorem qinv_ctl {g g' : G α} {F : Nat → Option (Pc α)} {t : Nat} {l l' : Pc α} (h : QInv g F) (hF : F t = some l)
    (h1 : Ctl l) (h2 : Ctl l') (hq : g'.q = g.q) (hg : g'.got = g.got) : QInv g' (upd F t (some l')) := by
  obtain ⟨h1, h1'⟩ := h1
  obtain ⟨h2, h2'⟩ := h2
  obtain ⟨cap, len, ht, cell, clm, pub, pub1, hd, frd, ufr, rel, rel1, bnd, got, got', nd⟩ := h
  constructor <;> (try simp only [upd_apply]) <;> (try rw [hq]) <;> (try rw [hg]) <;> grind

theorem qinv_loc {g g' : G α} {F : Nat → Option (Pc α)} {t : Nat} {l l' : Pc α} {c : Ch α} (h : QInv g F) (hF : F t = some l)
    (hs : cLoc g l c = some (g', l')) : QInv g' (upd F t (some l')) := by
  rcases loc_cases hs with ⟨rfl, rfl, hl⟩ | ⟨rfl, rfl, rfl⟩ | ⟨m, x, rfl, hr, rfl, rfl⟩ | ⟨m, x, rfl, hr, rfl, rfl⟩ | ⟨m, p, x, rfl, rfl, rfl⟩ |
    ⟨m, v, rfl, hv, rfl, rfl⟩ | ⟨m, rfl, hv, rfl, rfl⟩ | ⟨m, p, v, rfl, rfl, rfl⟩ | ⟨h0, rfl, rfl, hl⟩ | ⟨r, rfl, rfl, rfl⟩
  · exact qinv_ctl h hF (by simp [Ctl]) (by rcases hl with ⟨x, rfl⟩ | ⟨x, rfl⟩ | rfl | rfl <;> simp [Ctl]) rfl rfl
  · exact qinv_ctl h hF (by simp [Ctl]) (by simp [Ctl]) rfl rfl
  · have hroom : g.q.tail < g.q.cap ∨ g.q.freed (g.q.tail - g.q.cap) = true := by simpa [Q.room] using hr
    obtain ⟨cap, len, ht, cell, clm, pub, pub1, hd, frd, ufr, rel, rel1, bnd, got, got', nd⟩ := h
    have hit : ∀ (p : Nat) v, g.q.items[p]? = some v → (g.q.items ++ [x])[p]? = some v := by
      intro p v hp
      have := (List.getElem?_eq_some_iff.1 hp).1
      rw [List.getElem?_append_left this]; exact hp
    have hnc : g.q.cell g.q.tail = none := by
      cases hc : g.q.cell g.q.tail with
      | none => rfl
      | some v => have := (List.getElem?_eq_some_iff.1 (cell _ _ hc)).1; omega
    constructor <;> (try simp only [upd_apply])
    · grind
    · grind
    · grind
    · grind
    · intro p hp
      by_cases e : p = g.q.tail
      · subst e; exact .inr ⟨t, m, x, by simp⟩
      · rcases clm p (by omega) with h1 | ⟨u, n, y, h1⟩
        · exact .inl h1
        · refine .inr ⟨u, n, y, ?_⟩
          grind
    · grind
    · grind
    · grind
    · grind
    · intro p hp
      rcases ufr p hp with h1 | ⟨u, n, y, h1⟩
      · exact .inl h1
      · exact .inr ⟨u, n, y, by grind⟩
    · grind
    · grind
    · grind
    · grind
    · grind
    · grind
  · exact qinv_ctl h hF (by simp [Ctl]) (pushFail_ne _ _ _) rfl rfl
  · obtain ⟨cap, len, ht, cell, clm, pub, pub1, hd, frd, ufr, rel, rel1, bnd, got, got', nd⟩ := h
    constructor <;> (try simp only [upd_apply])
    · grind
    · grind
    · grind
    · grind
    · intro q hq
      by_cases e : q = p
      · subst e; exact .inl ⟨x, by simp⟩
      · rcases clm q hq with ⟨v, h1⟩ | ⟨u, n, y, h1⟩
        · exact .inl ⟨v, by grind⟩
        · exact .inr ⟨u, n, y, by grind⟩
    · grind
    · grind
    · grind
    · grind
    · intro p hp
      rcases ufr p hp with h1 | ⟨u, n, y, h1⟩
      · exact .inl h1
      · exact .inr ⟨u, n, y, by grind⟩
    · grind
    · grind
    · grind
    · grind
    · grind
    · grind
  · have hlt : g.q.head < g.q.tail := by
      have := (List.getElem?_eq_some_iff.1 (h.cell _ _ hv)).1
      rw [← h.len]; exact this
    obtain ⟨cap, len, ht, cell, clm, pub, pub1, hd, frd, ufr, rel, rel1, bnd, got, got', nd⟩ := h
    constructor <;> (try simp only [upd_apply])
    · grind
    · grind
    · grind
    · grind
    · intro q hq
      rcases clm q hq with ⟨v, h1⟩ | ⟨u, n, y, h1⟩
      · exact .inl ⟨v, h1⟩
      · exact .inr ⟨u, n, y, by grind⟩
    · grind
    · grind
    · grind
    · grind
    · intro p hp
      by_cases e : p = g.q.head
      · subst e; exact .inr ⟨t, m, v, by simp⟩
      rcases ufr p (by omega) with h1 | ⟨u, n, y, h1⟩
      · exact .inl h1
      · exact .inr ⟨u, n, y, by grind⟩
    · grind
    · grind
    · grind
    · grind
    · grind
    · grind
  · exact qinv_ctl h hF (by simp [Ctl]) (by simp [Ctl]) rfl rfl
  · obtain ⟨e1, e2⟩ := popDone_ne v m
    obtain ⟨cap, len, ht, cell, clm, pub, pub1, hd, frd, ufr, rel, rel1, bnd, got, got', nd⟩ := h
    constructor <;> (try simp only [upd_apply])
    · grind
    · grind
    · grind
    · grind
    · intro q hq
      rcases clm q hq with ⟨v, h1⟩ | ⟨u, n, y, h1⟩
      · exact .inl ⟨v, h1⟩
      · exact .inr ⟨u, n, y, by grind⟩
    · grind
    · grind
    · grind
    · grind
    · intro q hq
      rcases ufr q hq with h1 | ⟨u, n, y, h1⟩
      · grind
      · by_cases e : u = t
        · grind
        · exact .inr ⟨u, n, y, by grind⟩
    · grind
    · grind
    · grind
    · grind
    · intro q hq
      by_cases e : q = p
      · exact ⟨v, by simp [e]⟩
      · simp only [e, if_false] at hq
        obtain ⟨w, hw⟩ := got' q hq
        exact ⟨w, by simp [hw]⟩
    · simp only [List.map_append, List.map_cons, List.map_nil, List.nodup_append, List.mem_map]
      refine ⟨nd, by simp, ?_⟩
      rintro _ ⟨⟨a, b⟩, hab, rfl⟩ _ hb rfl
      simp only [List.mem_singleton] at hb
      have := (got a b hab).1
      have := (rel t m p v hF).2.1
      simp_all
  · refine qinv_ctl h hF (by simp [Ctl]) ?_ rfl rfl
    rcases hl with ⟨_, rfl⟩ | ⟨_, rfl⟩ <;> simp [Ctl]
  · exact qinv_ctl h hF (by simp [Ctl]) (by simp [Ctl]) rfl rfl

theorem qinv_ret {g : G α} {F : Nat → Option (Pc α)} {t : Nat} {l : Pc α} (h : QInv g F) (hF : F t = some l)
    (hc : cCall l ≠ .loc) : QInv g (upd F t (some (cRet l))) := by
  obtain ⟨h1, h2, h3, h4⟩ := ret_ne l hc
  exact qinv_ctl h hF ⟨h3, h4⟩ ⟨h1, h2⟩ rfl rfl

theorem qinv {R : State (G α) (Pc α) → Prop} (hR : ∀ s, R s → s.th.length < 2 ^ 32) {s : State (G α) (Pc α)} (h : CReach α R s) :
    QInv s.g s.lcl := by
  refine client_reach hR (R := fun g F _ => QInv g F) ?_ ?_ ?_ h
  · intro s hi _
    have hF := fun t l => lcl_idle hi (t := t) (l := l)
    obtain ⟨q, np, ⟨cap, hc, rfl⟩, hg⟩ := hi.1
    rw [hg]
    constructor <;> grind
  · intro g F K t l c g' l' hR hF hc hs; exact qinv_loc hR hF hs
  · intro g F K K' t l b hR hF hc _; exact qinv_ret hR hF hc

end Verif.Channel
