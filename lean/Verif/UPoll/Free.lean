import Verif.UPoll.Inv
/-! Wrappers without references are deleted. -/
namespace Verif.UPoll
open Verif.Common

def FInv (s : S) : Prop := ∀ (w : Nat) (x : W), s.ws[w]? = some x → x.ref = 0 → Ev.freedW w ∈ s.log

theorem FInv.same {s t : S} (h : FInv s) (e : t.ws = s.ws) (hl : ∀ ev ∈ s.log, ev ∈ t.log) : FInv t := by
  intro w x hx hr; rw [e] at hx; exact hl _ (h w x hx hr)

theorem FInv.setw {s t : S} (h : FInv s) {w : Nat} {x : W} (e : t.ws = s.ws.set w x) (hl : ∀ ev ∈ s.log, ev ∈ t.log)
    (hx : x.ref = 0 → Ev.freedW w ∈ t.log) : FInv t := by
  intro v y hy hr
  rw [e] at hy
  by_cases hv : v = w
  · subst hv
    rw [List.getElem?_set_self (by have := lt_of_get hy; rw [List.length_set] at this; exact this)] at hy
    cases hy; exact hx hr
  · rw [List.getElem?_set_ne (fun h => hv h.symm)] at hy
    exact hl _ (h v y hy hr)

theorem FInv.step {s s2 : S} (h : FInv s) (hR : RInv s) (hW : WInv s) {a : Act} (e : s.step a = some s2) : FInv s2 := by
  have app : ∀ {l : List Ev} {evs : List Ev}, ∀ ev ∈ l, ev ∈ l ++ evs := fun ev h => List.mem_append_left _ h
  cases a with
  | reg sock k =>
    simp only [S.step, S.reg] at e
    split at e
    · simp only [Option.some.injEq] at e; subst e
      intro v y hy hr
      have hy : (s.ws ++ [_])[v]? = some y := hy
      by_cases hv : v < s.ws.length
      · rw [List.getElem?_append_left hv] at hy
        exact app _ (h v y hy hr)
      · have := lt_of_get hy
        simp at this
        have hv : v = s.ws.length := by omega
        subst hv; simp at hy; subst hy; cases hr
    · cases e
  | cancel sock k =>
    simp only [S.step, S.cancel] at e
    cases hs : s.socks sock with
    | none => simp only [hs, Option.some.injEq] at e; subst e; exact h
    | some w =>
      obtain ⟨x, hx, hsock, hheld⟩ := hW.w3 _ _ hs
      obtain ⟨q, eq, hkq, huq, h1, h2, h3⟩ := hW.w1 w x hx
      have hr : x.ref ≠ 0 := by rw [h2, hheld]; simp
      have key : x.release.ref = 0 → x.ref = 1 := by simp only [W.release]; omega
      simp only [hs, hx, if_neg hr] at e
      cases hid : x.id with
      | none =>
        simp only [hid, Option.some.injEq] at e
        rw [release_eq (s := s.emit (.cancelStart w)) hx hr] at e
        subst e
        exact h.setw rfl (fun ev h => by simp [S.emit, h]) (fun hz => by simp [key hz])
      | some i =>
        simp only [hid] at e
        split at e
        · simp only [Option.some.injEq] at e
          rw [release_eq (s := (s.emit (.cancelStart w)).submitReq k 0 (.rmErr w (i, 0))) hx hr] at e
          subst e
          exact h.setw rfl (fun ev h => by simp [S.emit, S.submitReq, h]) (fun hz => by simp [key hz])
        · cases e
  | close sock =>
    simp only [S.step, S.close, Option.some.injEq] at e
    cases hs : s.socks sock with
    | none => simp only [hs] at e; subst e; exact h
    | some w =>
      obtain ⟨x, hx, hsock, hheld⟩ := hW.w3 _ _ hs
      obtain ⟨q, eq, hkq, huq, h1, h2, h3⟩ := hW.w1 w x hx
      have hr : x.ref ≠ 0 := by rw [h2, hheld]; simp
      have key : x.release.ref = 0 → x.ref = 1 := by simp only [W.release]; omega
      simp only [hs] at e
      rw [release_eq (s := s.emit (.closed w)) hx hr] at e
      subst e
      exact h.setw rfl (fun ev h => by simp [S.emit, h]) (fun hz => by simp [key hz])
  | other k =>
    simp only [S.step] at e
    split at e
    · simp only [Option.some.injEq] at e; subst e; exact h.same rfl (fun _ h => h)
    · cases e
  | add k =>
    simp only [S.step, S.add] at e
    split at e
    · simp only [Option.some.injEq] at e; subst e; exact h.same rfl app
    · cases e
  | del x k =>
    simp only [S.step, S.del] at e
    split at e
    · cases e
    · split at e
      · cases e
      · split at e
        · simp only [Option.some.injEq] at e; subst e; exact h.same rfl (fun _ h => h)
        · split at e
          · simp only [Option.some.injEq] at e; subst e; exact h.same rfl app
          · cases e
  | retry i k =>
    simp only [S.step] at e
    split at e
    · cases e
    · split at e
      · simp only [Option.some.injEq] at e; subst e; exact h.same rfl (fun _ h => h)
      · cases e
  | submit =>
    simp only [S.step] at e
    split at e
    · cases e
    · split at e
      · cases e
      · split at e
        · cases e
        · cases e
        · simp only [Option.some.injEq] at e; subst e; exact h.same rfl (fun _ h => h)
  | removeHit r =>
    simp only [S.step] at e
    split at e
    · cases e
    · rename_i p q t s1 ht
      obtain ⟨rest, hs, hq, _, h3⟩ := takeRemove_some ht
      split at e
      · simp only [Option.some.injEq] at e; subst e; rw [h3]; exact h.same rfl (fun _ h => h)
      · cases e
  | removeBusy r =>
    simp only [S.step] at e
    split at e
    · cases e
    · rename_i p q t s1 ht
      obtain ⟨rest, hs, hq, _, h3⟩ := takeRemove_some ht
      split at e
      · simp only [Option.some.injEq] at e; subst e; rw [h3]; exact h.same rfl (fun _ h => h)
      · cases e
  | removeMiss =>
    simp only [S.step] at e
    split at e
    · cases e
    · rename_i p q t s1 ht
      obtain ⟨rest, hs, hq, _, h3⟩ := takeRemove_some ht
      split at e
      · simp only [Option.some.injEq] at e; subst e; rw [h3]; exact h.same rfl (fun _ h => h)
      · cases e
  | event r m b =>
    simp only [S.step] at e
    split at e
    · cases e
    · split at e
      · simp only [Option.some.injEq] at e; subst e
        cases b <;> exact h.same rfl app
      · cases e
  | die r =>
    simp only [S.step] at e
    split at e
    · cases e
    · split at e
      · simp only [Option.some.injEq] at e; subst e; exact h.same rfl (fun _ h => h)
      · cases e
  | fail r =>
    simp only [S.step] at e
    split at e
    · cases e
    · split at e
      · simp only [Option.some.injEq] at e; subst e; exact h.same rfl (fun _ h => h)
      · cases e
  | complete k =>
    obtain ⟨c, rest, q, hc, hslot, hq, hu, ng, nq, hd, e⟩ := complete_eq hR e
    obtain ⟨f1, _, _, f4, _⟩ := popped_rest (s := s) (c := c) (rest := rest)
    have hp : FInv (s.popped c rest) := h.same f1 (by rw [f4]; exact fun _ h => h)
    unfold S.run at e
    split at e
    · rename_i w hk
      simp only [Option.some.injEq] at e; subst e
      obtain ⟨x, hx, hxr⟩ := hW.w4 _ _ _ hq hk
      obtain ⟨q0, e0, _, _, _, h2, _⟩ := hW.w1 w x hx
      rw [hxr, hq] at e0; cases e0
      have hr : x.ref ≠ 0 := by rw [h2, if_neg ng]; omega
      rw [runErr_eq (s := s.popped c rest) (by rw [f1]; exact hx) hr]
      have key : x.finish.ref = 0 → x.ref = 1 := by simp only [W.finish]; omega
      exact hp.setw rfl (fun ev h => by simp [h]) (fun hz => by simp [key hz])
    · rename_i en hk
      rcases runEnt_cases e with ⟨e, _⟩ | ⟨x, _, _, ⟨m, _, _, e⟩ | ⟨m, _, _, hk, e⟩ | ⟨_, e⟩⟩
      · subst e; exact hp.same rfl (fun _ h => h)
      · subst e; exact hp.same rfl app
      · subst e; exact hp.same rfl (fun ev h => app _ (app _ h))
      · subst e
        split
        · exact hp.same rfl app
        · exact hp.same rfl (fun ev h => app _ (app _ h))
    · simp only [Option.some.injEq] at e; subst e; exact hp.same rfl app
    · split at e <;> simp only [Option.some.injEq] at e <;> subst e
      · exact hp.same rfl (fun _ h => h)
      · exact hp.same rfl app
    · simp only [Option.some.injEq] at e; subst e; exact hp

theorem FInv.reachable {s : S} (h : Reachable Init UPoll.step s) : FInv s := by
  induction h with
  | init hi _ => rw [hi]; intro w x hx; simp [S.init] at hx
  | step h1 e _ ih => exact ih.step (Inv.reachable h1).R (Inv.reachable h1).W e

end Verif.UPoll
