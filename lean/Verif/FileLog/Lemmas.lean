import Mathlib.Tactic.Ring
import Verif.FileLog.Model
/-! Lemmas for the log files. -/
namespace Verif.FileLog
open Verif.Common

/-- The text of the files in the order of their creation. -/
def flat (d : List Entry) : Str := d.flatMap (·.text)

/-- The names of the files ascend. -/
def Asc (d : List Entry) : Prop := d.Pairwise (fun a b => a.sec < b.sec)

theorem map_self {d : List Entry} {f : Entry → Entry} (h : ∀ e ∈ d, f e = e) : d.map f = d := by
  induction d with
  | nil => rfl
  | cons a d ih => rw [List.map_cons, h a (by simp), ih (fun e he => h e (List.mem_cons_of_mem _ he))]

theorem addText_last {d0 : List Entry} {sec : Nat} {x : Str} {o : Nat} (h : ∀ e ∈ d0, e.sec < sec) (s : Str) : addText (d0 ++ [⟨sec, x, o⟩]) sec s = d0 ++ [⟨sec, x ++ s, o⟩] := by
  unfold addText
  rw [List.map_append]
  congr 1
  · refine map_self fun e he => ?_
    have := h e he
    rw [if_neg (by omega)]
  · simp

theorem openEntry_spec {d : List Entry} {clock now : Nat} (ha : Asc d) (hc : ∀ e ∈ d, e.sec ≤ clock) (hn : clock ≤ now) :
    (∃ d0 x o, d = d0 ++ [⟨now, x, o⟩] ∧ (∀ e ∈ d0, e.sec < now) ∧ openEntry d now = d0 ++ [⟨now, x, o + 1⟩]) ∨ ((∀ e ∈ d, e.sec < now) ∧ openEntry d now = d ++ [⟨now, [], 1⟩]) := by
  unfold openEntry
  split
  · rename_i h
    left
    obtain ⟨e, he, hs⟩ := List.any_eq_true.mp h
    have hs : e.sec = now := by simpa using hs
    rcases List.eq_nil_or_concat d with rfl | ⟨d0, l, hd⟩
    · cases he
    rw [List.concat_eq_append] at hd
    subst hd
    have hlt : ∀ e ∈ d0, e.sec < l.sec := fun e he => (List.pairwise_append.mp ha).2.2 e he l (by simp)
    have hl : l.sec ≤ clock := hc l (by simp)
    have hlast : l.sec = now := by
      rcases List.mem_append.mp he with h1 | h1
      · have := hlt e h1; omega
      · rw [List.mem_singleton] at h1; rw [← h1]; exact hs
    obtain ⟨ls, lx, lo⟩ := l
    simp only at hlast hlt
    subst hlast
    refine ⟨d0, lx, lo, rfl, hlt, ?_⟩
    rw [List.map_append]
    congr 1
    · refine map_self fun e he => ?_
      have := hlt e he
      rw [if_neg (by omega)]
    · simp
  · rename_i h
    right
    refine ⟨fun e he => ?_, rfl⟩
    have h1 := hc e he
    rcases Nat.lt_or_ge e.sec now with h2 | h2
    · exact h2
    · exact absurd (List.any_eq_true.mpr ⟨e, he, by simp; omega⟩) h

/-- What is known of a file of which no call has failed; `ls` are the lines written to it. -/
def Good (limit B : Nat) (lf : LF) (d : List Entry) (clock : Nat) (ls : List Str) : Prop :=
  (lf.fp = .null ∧ lf.buf = [] ∧ Asc d ∧ (∀ e ∈ d, e.sec ≤ clock) ∧ flat d = ls.flatten ∧ ((∀ l ∈ ls, limit - 1 + l.length ≤ B) → ∀ e ∈ d, e.text.length ≤ e.opens * B)) ∨
  (∃ sec d0 x o, lf.fp = .open sec ∧ d = d0 ++ [⟨sec, x, o + 1⟩] ∧ Asc d0 ∧ (∀ e ∈ d0, e.sec < sec) ∧ sec ≤ clock ∧ flat d0 ++ x ++ lf.buf = ls.flatten ∧
    ((∀ l ∈ ls, limit - 1 + l.length ≤ B) → (∀ e ∈ d0, e.text.length ≤ e.opens * B) ∧ x.length + lf.buf.length ≤ o * B + lf.len ∧ lf.len ≤ B) ∧ lf.buf.length ≤ lf.since ∧ lf.since < kFlushBytes)

theorem Good.mono {limit B : Nat} {lf : LF} {d : List Entry} {c c' : Nat} {ls : List Str} (h : Good limit B lf d c ls) (hc : c ≤ c') : Good limit B lf d c' ls := by
  rcases h with ⟨h1, h2, h3, h4, h5⟩ | ⟨sec, d0, x, o, h1, h2, h3, h4, h5, h6⟩
  · exact Or.inl ⟨h1, h2, h3, fun e he => (h4 e he).trans hc, h5⟩
  · exact Or.inr ⟨sec, d0, x, o, h1, h2, h3, h4, h5.trans hc, h6⟩

theorem flat_append (a b : List Entry) : flat (a ++ b) = flat a ++ flat b := by simp [flat]

theorem asc_snoc {d0 : List Entry} {e : Entry} (h : Asc d0) (h2 : ∀ x ∈ d0, x.sec < e.sec) : Asc (d0 ++ [e]) :=
  List.pairwise_append.mpr ⟨h, by simp, fun a ha b hb => by rw [List.mem_singleton.mp hb]; exact h2 a ha⟩

theorem close_good {limit B : Nat} {lf : LF} {d : List Entry} {c : Nat} {ls : List Str} (h : Good limit B lf d c ls) :
    Good limit B (close lf d false none).1 (close lf d false none).2 c ls ∧ (close lf d false none).1.fp = .null := by
  rcases h with h | ⟨sec, d0, x, o, h1, h2, h3, h4, h5, h6, h7, h8, h9⟩
  · have e : close lf d false none = (lf, d) := by unfold close; rw [h.1]
    rw [e]; exact ⟨Or.inl h, h.1⟩
  · have e : close lf d false none = ({ lf with fp := .null, len := 0, since := 0, buf := [] }, d0 ++ [⟨sec, x ++ lf.buf, o + 1⟩]) := by
      unfold close; rw [h1, h2]; simp [part, addText_last h4]
    rw [e]
    refine ⟨Or.inl ⟨rfl, rfl, asc_snoc h3 h4, ?_, ?_, ?_⟩, rfl⟩
    · intro e he
      rcases List.mem_append.mp he with he | he
      · have := h4 e he; omega
      · rw [List.mem_singleton.mp he]; exact h5
    · rw [flat_append]; simpa [flat, List.append_assoc] using h6
    · intro hl e he
      obtain ⟨g1, g2, g3⟩ := h7 hl
      rcases List.mem_append.mp he with he | he
      · exact g1 e he
      · rw [List.mem_singleton.mp he]
        simp only [List.length_append]
        have : (o + 1) * B = o * B + B := by ring
        omega

theorem flush_good {limit B : Nat} {lf : LF} {d : List Entry} {c : Nat} {ls : List Str} {e : Env} (h : Good limit B lf d c ls) (he : e.flush = none) :
    Good limit B (flush lf d e).1 (flush lf d e).2 c ls ∧ (flush lf d e).1.buf = [] := by
  rcases h with h | ⟨sec, d0, x, o, h1, h2, h3, h4, h5, h6, h7, h8, h9⟩
  · have e : flush lf d e = (lf, d) := by unfold flush; rw [h.1]
    rw [e]; exact ⟨Or.inl h, h.2.1⟩
  · have e : flush lf d e = ({ lf with buf := [], since := 0, next := e.now + e.secs }, d0 ++ [⟨sec, x ++ lf.buf, o + 1⟩]) := by
      unfold flush; rw [h1, he, h2]; simp [addText_last h4]
    rw [e]
    refine ⟨Or.inr ⟨sec, d0, _, o, h1, rfl, h3, h4, h5, ?_, ?_, ?_, ?_⟩, rfl⟩
    · simpa [List.append_assoc] using h6
    · intro hl
      obtain ⟨g1, g2, g3⟩ := h7 hl
      exact ⟨g1, by simpa using g2, g3⟩
    · simp
    · simp [kFlushBytes]

theorem open_good {limit B : Nat} {lf : LF} {d : List Entry} {c : Nat} {ls : List Str} {e : Env} (h : Good limit B lf d c ls) (hc : c ≤ e.now) (h1 : e.openOk = true) (h2 : e.rotClose = none) :
    Good limit B (openFile lf d e).1 (openFile lf d e).2 e.now ls ∧ (openFile lf d e).1.fp = .open e.now ∧ (openFile lf d e).1.len = 0 := by
  obtain ⟨c1, c2, hcl, hg, hfp⟩ : ∃ c1 c2, rotate lf d e = (c1, c2) ∧ Good limit B c1 c2 c ls ∧ c1.fp = .null := by
    unfold rotate
    rw [h2]
    cases hf : lf.fp with
    | null => exact ⟨lf, d, rfl, h, hf⟩
    | dead => exact ⟨_, _, rfl, (close_good h).1, (close_good h).2⟩
    | «open» sec => exact ⟨_, _, rfl, (close_good h).1, (close_good h).2⟩
  have e0 : openFile lf d e = ({ c1 with fp := .open e.now, len := 0, since := 0, next := e.now + e.secs, buf := [] }, openEntry c2 e.now) := by
    unfold openFile
    rw [hcl]
    simp [h1]
  rw [e0]
  refine ⟨?_, rfl, rfl⟩
  rcases hg with ⟨g1, g2, g3, g4, g5, g6⟩ | ⟨_, _, _, _, g1, _⟩
  · right
    rcases openEntry_spec g3 g4 hc with ⟨d0, x, o, k1, k2, k3⟩ | ⟨k1, k2⟩
    · refine ⟨e.now, d0, x, o, rfl, k3, ?_, k2, Nat.le_refl _, ?_, ?_, by simp, by simp [kFlushBytes]⟩
      · rw [k1] at g3; exact (List.pairwise_append.mp g3).1
      · rw [← g5, k1, flat_append]; simp [flat]
      · intro hl
        have := g6 hl
        rw [k1] at this
        exact ⟨fun y hy => this y (by simp [hy]), by simpa using this ⟨e.now, x, o⟩ (by simp), by simp⟩
    · refine ⟨e.now, c2, [], 0, rfl, by simpa using k2, g3, k1, Nat.le_refl _, ?_, ?_, by simp, by simp [kFlushBytes]⟩
      · simpa using g5
      · intro hl
        exact ⟨g6 hl, by simp, by simp⟩
  · rw [hfp] at g1; cases g1

theorem write_good {limit B : Nat} {lf : LF} {d : List Entry} {c sec : Nat} {ls : List Str} {m : Msg} {sev : Nat} {e : Env} (h : Good limit B lf d c ls) (hf : lf.fp = .open sec) (hl : lf.len < limit) (h1 : e.write = none)
    (h2 : e.flush = none) :
    Good limit B (writeAndMaybeFlush lf d m sev e).1 (writeAndMaybeFlush lf d m sev e).2.1 c (ls ++ [m.line]) ∧ (writeAndMaybeFlush lf d m sev e).2.2 = true ∧
      (e.level < (sev : Int) → (writeAndMaybeFlush lf d m sev e).1.buf = []) := by
  rcases h with ⟨g1, _⟩ | ⟨sec', d0, x, o, g1, g2, g3, g4, g5, g6, g7, g8, g9⟩
  · rw [g1] at hf; cases hf
  rw [g1] at hf
  obtain rfl : sec' = sec := by injection hf
  obtain ⟨b, hb⟩ : ∃ b, b = lf.buf ++ m.line := ⟨_, rfl⟩
  obtain ⟨lf2, hlf⟩ : ∃ lf2 : LF, lf2 = { lf with fp := .open sec', buf := b.drop e.drain, len := lf.len + m.line.length, since := lf.since + m.line.length } := ⟨_, rfl⟩
  obtain ⟨d1, hd1⟩ : ∃ d1, d1 = d0 ++ [⟨sec', x ++ b.take e.drain, o + 1⟩] := ⟨_, rfl⟩
  have e0 : writeAndMaybeFlush lf d m sev e =
      if e.level < (sev : Int) ∨ kFlushBytes ≤ lf2.since ∨ lf2.next ≤ e.now then ((flush lf2 d1 e).1, (flush lf2 d1 e).2, true) else (lf2, d1, true) := by
    unfold writeAndMaybeFlush
    rw [g1, h1]
    simp only [part]
    rw [g2, addText_last g4, ← hb, hlf, hd1]
  have hlen : x.length + b.length = (x ++ b.take e.drain).length + (b.drop e.drain).length := by
    rw [List.length_append, List.length_take, List.length_drop]; omega
  have hbl : b.length = lf.buf.length + m.line.length := by rw [hb, List.length_append]
  -- the state before the flush, apart from the bound on unflushed bytes
  have key : flat d0 ++ (x ++ b.take e.drain) ++ lf2.buf = (ls ++ [m.line]).flatten := by
    rw [hlf]
    simp only
    rw [List.flatten_append, ← g6, hb]
    simp only [List.append_assoc, List.take_append_drop]
    simp
  have size : (∀ l ∈ ls ++ [m.line], limit - 1 + l.length ≤ B) → (∀ y ∈ d0, y.text.length ≤ y.opens * B) ∧ (x ++ b.take e.drain).length + lf2.buf.length ≤ o * B + lf2.len ∧ lf2.len ≤ B := by
    intro hl2
    obtain ⟨k1, k2, k3⟩ := g7 (fun l hl => hl2 l (by simp [hl]))
    have k4 := hl2 m.line (by simp)
    refine ⟨k1, ?_, ?_⟩
    · rw [hlf]; simp only; omega
    · rw [hlf]; simp only; omega
  have since : lf2.buf.length ≤ lf2.since := by
    rw [hlf]; simp only [List.length_drop]; omega
  rw [e0]
  split
  · -- flushed
    have hfl : flush lf2 d1 e = ({ lf2 with buf := [], since := 0, next := e.now + e.secs }, d0 ++ [⟨sec', x ++ b.take e.drain ++ lf2.buf, o + 1⟩]) := by
      unfold flush
      have : lf2.fp = .open sec' := by rw [hlf]
      rw [this, h2, hd1]
      simp [addText_last g4]
    rw [hfl]
    refine ⟨Or.inr ⟨sec', d0, _, o, by rw [hlf], rfl, g3, g4, g5, ?_, ?_, by simp, by simp [kFlushBytes]⟩, rfl, fun _ => rfl⟩
    · rw [← key]; simp [List.append_assoc]
    · intro hl2
      obtain ⟨k1, k2, k3⟩ := size hl2
      refine ⟨k1, ?_, k3⟩
      rw [List.length_append]; simpa using k2
  · rename_i hn
    refine ⟨Or.inr ⟨sec', d0, _, o, by rw [hlf], hd1, g3, g4, g5, key, size, since, Nat.lt_of_not_le fun h => hn (Or.inr (Or.inl h))⟩, rfl, fun h => absurd (Or.inl h) hn⟩

theorem sendTo_good {limit B : Nat} {lf : LF} {d : List Entry} {c : Nat} {ls : List Str} {m : Msg} {sev : Nat} {e : Env} (hlim : 0 < limit) (h : Good limit B lf d c ls) (hc : c ≤ e.now) (he : e.ok = true) :
    Good limit B (sendTo limit lf d m sev e).1 (sendTo limit lf d m sev e).2.1 e.now (ls ++ [m.line]) ∧ (sendTo limit lf d m sev e).2.2 = true ∧ (e.level < (sev : Int) → (sendTo limit lf d m sev e).1.buf = []) := by
  have hE : e.openOk = true ∧ e.rotClose = none ∧ e.write = none ∧ e.flush = none := by
    simp only [Env.ok, Bool.and_eq_true, Option.isNone_iff_eq_none] at he
    exact ⟨he.1.1.1.1, he.1.1.1.2, he.1.1.2, he.1.2⟩
  obtain ⟨e1, e2, e3, e4⟩ := hE
  have hnd : lf.fp ≠ .dead := by
    rcases h with ⟨g1, _⟩ | ⟨_, _, _, _, g1, _⟩ <;> rw [g1] <;> simp
  unfold sendTo
  rw [if_neg hnd]
  split
  · obtain ⟨g1, g2, g3⟩ := open_good h hc e1 e2
    simp only [g2]
    rw [if_neg (by simp)]
    exact write_good g1 g2 (by omega) e3 e4
  · rename_i hn
    have hn1 : lf.fp ≠ .null := fun h => hn (Or.inl h)
    have hn2 : lf.len < limit := by
      rcases Nat.lt_or_ge lf.len limit with h | h
      · exact h
      · exact absurd (Or.inr h) hn
    obtain ⟨sec, hs⟩ : ∃ sec, lf.fp = .open sec := by
      cases hf : lf.fp with
      | null => exact absurd hf hn1
      | dead => exact absurd hf hnd
      | «open» s => exact ⟨s, rfl⟩
    exact write_good (h.mono hc) hs hn2 e3 e4

theorem part_prefix (r : Option Nat) (b : Str) : part r b <+: b := by
  cases r with
  | none => exact List.prefix_rfl
  | some j => exact List.take_prefix j b

theorem write_fail {limit B : Nat} {lf : LF} {d : List Entry} {c sec k : Nat} {ls : List Str} {m : Msg} {sev : Nat} {e : Env} (h : Good limit B lf d c ls) (hf : lf.fp = .open sec) (h1 : e.write = some k) :
    (writeAndMaybeFlush lf d m sev e).1.fp = .dead ∧ (writeAndMaybeFlush lf d m sev e).2.2 = false ∧ flat (writeAndMaybeFlush lf d m sev e).2.1 <+: ls.flatten ++ m.line.take k := by
  rcases h with ⟨g1, _⟩ | ⟨sec', d0, x, o, g1, g2, g3, g4, g5, g6, g7⟩
  · rw [g1] at hf; cases hf
  have e0 : writeAndMaybeFlush lf d m sev e = ({ lf with fp := .dead, len := 0, since := 0, buf := [] },
      d0 ++ [⟨sec', x ++ (lf.buf ++ m.line.take k).take e.drain ++ part e.close ((lf.buf ++ m.line.take k).drop e.drain), o + 1⟩], false) := by
    unfold writeAndMaybeFlush
    rw [g1, h1]
    simp only [part]
    rw [g2, addText_last g4]
    simp [close, addText_last g4, part]
  rw [e0]
  refine ⟨rfl, rfl, ?_⟩
  rw [← g6, flat_append]
  obtain ⟨t, ht⟩ := part_prefix e.close ((lf.buf ++ m.line.take k).drop e.drain)
  refine ⟨t, ?_⟩
  simp only [flat, List.flatMap_cons, List.flatMap_nil, List.append_nil, List.append_assoc]
  rw [ht, List.take_append_drop]

theorem sendTo_fail {limit B : Nat} {lf : LF} {d : List Entry} {c k : Nat} {ls : List Str} {m : Msg} {sev : Nat} {e : Env} (h : Good limit B lf d c ls) (hc : c ≤ e.now) (h1 : e.write = some k) (h2 : e.openOk = true) (h3 : e.rotClose = none) :
    (sendTo limit lf d m sev e).1.fp = .dead ∧ (sendTo limit lf d m sev e).2.2 = false ∧ flat (sendTo limit lf d m sev e).2.1 <+: ls.flatten ++ m.line.take k := by
  have hnd : lf.fp ≠ .dead := by
    rcases h with ⟨g1, _⟩ | ⟨_, _, _, _, g1, _⟩ <;> rw [g1] <;> simp
  unfold sendTo
  rw [if_neg hnd]
  split
  · obtain ⟨g1, g2, g3⟩ := open_good h hc h2 h3
    simp only [g2]
    rw [if_neg (by simp)]
    exact write_fail g1 g2 h1
  · rename_i hn
    obtain ⟨sec, hs⟩ : ∃ sec, lf.fp = .open sec := by
      cases hf : lf.fp with
      | null => exact absurd (Or.inl hf) hn
      | dead => exact absurd hf hnd
      | «open» s => exact ⟨s, rfl⟩
    exact write_fail h hs h1

end Verif.FileLog
