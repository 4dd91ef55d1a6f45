import Verif.FQPool.Model
/-! The cases of a step, one constructor each. -/
namespace Verif.FQPool
open Verif.Common

/-- The tasks a worker has taken and not run. -/
def WPc.batch : WPc → List Nat
  | .more ts => ts
  | .ntf ts => ts
  | .exec ts => ts
  | _ => []

inductive Mv (s : S) : S → Prop
  | add {c aw} : s.phase = .opn → s.cs[c]? = some .idle →
      Mv s { s.setC c (.prep (.any (s.next % s.ws.length)) s.cnt aw) with next := s.next + 1, cnt := s.cnt + 1 }
  | addTo {c i aw} : s.phase = .opn → s.cs[c]? = some .idle →
      Mv s { s.setC c (.try_ (.pin (i % s.ws.length)) [i % s.ws.length] s.cnt none aw) with cnt := s.cnt + 1 }
  | prep {c k x aw w} : s.cs[c]? = some (.prep k x aw) → s.ws[k.main]? = some w →
      Mv s (s.setC c (.try_ k (k.list s.ws.length) x (some w.pushE) aw))
  | enq {c k i rest x e aw w} : s.cs[c]? = some (.try_ k (i :: rest) x e aw) → s.ws[i]? = some w → w.q.length < s.cap →
      Mv s { (s.setW i { w with q := w.q ++ [x] }).setC c (.ntf i x aw) with acc := s.acc ++ [(x, i)] }
  | nxt {c k i j rest x e aw w} : s.cs[c]? = some (.try_ k (i :: j :: rest) x e aw) → s.ws[i]? = some w →
      ¬ w.q.length < s.cap → Mv s (s.setC c (.try_ k (j :: rest) x e aw))
  | slp {c k i x e aw w} : s.cs[c]? = some (.try_ k [i] x (some e) aw) → s.ws[i]? = some w →
      ¬ w.q.length < s.cap → Mv s (s.setC c (.sleep k x e aw))
  | retry {c k i x aw w} : s.cs[c]? = some (.try_ k [i] x none aw) → s.ws[i]? = some w →
      ¬ w.q.length < s.cap → Mv s (s.setC c (.prep k x aw))
  | cntf {c i x aw w} : s.cs[c]? = some (.ntf i x aw) → s.ws[i]? = some w →
      Mv s ((s.setW i { w with pullE := w.pullE + 1 }).setC c (added x aw))
  | wake {c k x e aw w} : s.cs[c]? = some (.sleep k x e aw) → s.ws[k.main]? = some w → w.pushE ≠ e →
      Mv s (s.setC c (.prep k x aw))
  | done {c x} : s.cs[c]? = some (.await x) → x ∈ s.ran.map Prod.fst → Mv s (s.setC c .idle)
  | take {k w x q} : s.ws[k]? = some w → w.q = x :: q → (w.pc = .try0 ∨ (∃ e, w.pc = .try1 e) ∨ ∃ ts, w.pc = .more ts ∧ ts.length < batchSize) →
      Mv s (s.setW k { w with q := q, pc := .more (w.pc.batch ++ [x]) })
  | empty0 {k w} : s.ws[k]? = some w → w.pc = .try0 → w.q = [] → Mv s (s.setW k { w with pc := .cls0 })
  | empty1 {k w e} : s.ws[k]? = some w → w.pc = .try1 e → w.q = [] → Mv s (s.setW k { w with pc := .cls1 e })
  | exit {k w} : s.ws[k]? = some w → (w.pc = .cls0 ∨ ∃ e, w.pc = .cls1 e) → w.closed = true →
      Mv s (s.setW k { w with pc := .gone })
  | stay {k w} : s.ws[k]? = some w → w.pc = .cls0 → w.closed = false → Mv s (s.setW k { w with pc := .prep })
  | wslp {k w e} : s.ws[k]? = some w → w.pc = .cls1 e → w.closed = false → Mv s (s.setW k { w with pc := .sleep e })
  | wprep {k w} : s.ws[k]? = some w → w.pc = .prep → Mv s (s.setW k { w with pc := .try1 w.pullE })
  | wwake {k w e} : s.ws[k]? = some w → w.pc = .sleep e → w.pullE ≠ e → Mv s (s.setW k { w with pc := .prep })
  | full {k w ts} : s.ws[k]? = some w → w.pc = .more ts → (w.q = [] ∨ ¬ ts.length < batchSize) →
      Mv s (s.setW k { w with pc := .ntf ts })
  | wntf {k w ts} : s.ws[k]? = some w → w.pc = .ntf ts → Mv s (s.setW k { w with pushE := w.pushE + 1, pc := .exec ts })
  | run {k w x ts} : s.ws[k]? = some w → w.pc = .exec (x :: ts) →
      Mv s { s.setW k { w with pc := .exec ts } with ran := s.ran ++ [(x, k)] }
  | again {k w} : s.ws[k]? = some w → w.pc = .exec [] → Mv s (s.setW k { w with pc := .try0 })
  | shutdown : s.phase = .opn → s.cs.all CPc.out = true → Mv s { s with phase := .close 0 }
  | close {k w} : s.phase = .close k → s.ws[k]? = some w →
      Mv s { s.setW k { w with closed := true } with phase := .ntf k }
  | closed {k} : s.phase = .close k → s.ws[k]? = none → Mv s { s with phase := .join 0 }
  | sntf {k w} : s.phase = .ntf k → s.ws[k]? = some w →
      Mv s { s.setW k { w with pullE := w.pullE + 1 } with phase := .close (k + 1) }
  | join {k w} : s.phase = .join k → s.ws[k]? = some w → w.pc = .gone → Mv s { s with phase := .join (k + 1) }
  | down {k} : s.phase = .join k → s.ws[k]? = none → Mv s { s with phase := .down }

theorem caller_mv {s s' : S} {c} (h : s.caller c = some s') : Mv s s' := by
  unfold S.caller at h
  split at h
  · cases h
  · cases h
  · split at h <;> cases h
    exact .prep (by assumption) (by assumption)
  · cases h
  · split at h
    · cases h
    · split at h
      · cases h; exact .enq (by assumption) (by assumption) (by assumption)
      · split at h <;> cases h
        · exact .nxt (by assumption) (by assumption) (by assumption)
        · exact .slp (by assumption) (by assumption) (by assumption)
        · exact .retry (by assumption) (by assumption) (by assumption)
  · split at h <;> cases h
    exact .cntf (by assumption) (by assumption)
  · split at h
    · cases h
    · split at h <;> cases h
      exact .wake (by assumption) (by assumption) (by assumption)
  · split at h <;> cases h
    exact .done (by assumption) (by assumption)

theorem worker_mv {s s' : S} {k} (h : s.worker k = some s') : Mv s s' := by
  unfold S.worker at h
  split at h
  · cases h
  rename_i w hw
  split at h <;> rename_i hp
  · split at h <;> cases h
    · have := Mv.take hw (by assumption) (.inl hp)
      rw [hp] at this; exact this
    · exact .empty0 hw hp (by assumption)
  · cases h
    cases hc : w.closed
    · have := Mv.stay hw hp hc; simpa [hc] using this
    · have := Mv.exit hw (.inl hp) hc; simpa [hc] using this
  · cases h; exact .wprep hw hp
  · split at h <;> cases h
    · have := Mv.take hw (by assumption) (.inr (.inl ⟨_, hp⟩))
      rw [hp] at this; exact this
    · exact .empty1 hw hp (by assumption)
  · cases h
    cases hc : w.closed
    · have := Mv.wslp hw hp hc; simpa [hc] using this
    · have := Mv.exit hw (.inr ⟨_, hp⟩) hc; simpa [hc] using this
  · split at h <;> cases h
    exact .wwake hw hp (by assumption)
  · split at h
    · split at h <;> cases h
      · have := Mv.take hw (by assumption) (.inr (.inr ⟨_, hp, by assumption⟩))
        rw [hp] at this; exact this
      · exact .full hw hp (.inr (by assumption))
    · cases h; exact .full hw hp (.inl (by assumption))
  · cases h; exact .wntf hw hp
  · cases h; exact .run hw hp
  · cases h; exact .again hw hp
  · cases h

theorem step_mv {s s' : S} {a} (h : step s a = some s') : Mv s s' := by
  cases a with
  | add c aw =>
    simp only [step, S.add] at h
    split at h <;> cases h
    rename_i hn
    have : s.phase = .opn ∧ s.cs[c]? = some .idle := by
      constructor <;> apply Classical.byContradiction <;> intro hx <;> exact hn (by first | exact .inl hx | exact .inr hx)
    exact .add this.1 this.2
  | addTo c i aw =>
    simp only [step, S.addTo] at h
    split at h <;> cases h
    rename_i hn
    have : s.phase = .opn ∧ s.cs[c]? = some .idle := by
      constructor <;> apply Classical.byContradiction <;> intro hx <;> exact hn (by first | exact .inl hx | exact .inr hx)
    exact .addTo this.1 this.2
  | caller c => exact caller_mv h
  | worker k => exact worker_mv h
  | shutdown =>
    simp only [step] at h
    split at h <;> cases h
    rename_i hn
    exact .shutdown hn.1 hn.2
  | sd =>
    simp only [step, S.sd] at h
    split at h <;> rename_i hp
    · cases h
    · split at h <;> cases h
      · exact .close hp (by assumption)
      · exact .closed hp (by assumption)
    · split at h <;> cases h
      exact .sntf hp (by assumption)
    · split at h
      · split at h <;> cases h
        exact .join hp (by assumption) (by assumption)
      · cases h
        exact .down hp (by assumption)
    · cases h

end Verif.FQPool
