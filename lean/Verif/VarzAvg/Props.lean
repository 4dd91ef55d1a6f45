import Verif.VarzAvg.Spec
import Verif.Sliding.Props
import Mathlib.Data.List.Induction
/-!
# Properties of the distributed status variables (C121)
-/
namespace Verif.VarzAvg
open Verif.Sliding

/-- A counter holds the increments `es`. -/
structure Holds (s : SC) (es : List (Nat × Int)) (T : Nat) : Prop where
  rep : Rep 7 s es s.last
  le : s.last ≤ T

theorem Holds.init (T : Nat) : Holds SC.init [] T := ⟨⟨by simp, by intro j _; rfl, rfl⟩, by simp [SC.init]⟩

theorem Holds.mono {s : SC} {es : List (Nat × Int)} {T T' : Nat} (h : Holds s es T) (hle : T ≤ T') : Holds s es T' :=
  ⟨h.rep, Nat.le_trans h.le hle⟩

theorem Holds.incBy {s : SC} {es : List (Nat × Int)} {T now : Nat} (h : Holds s es T) (hT : T ≤ now) (d : Int) :
    Holds (s.step 7 (.incBy now d)).2 (es ++ [(now, d)]) now := by
  have hl := h.le
  obtain ⟨_, h2, h3⟩ := step_rep (num := 7) (by omega) (l := ⟨es, s.last⟩) h.rep rfl (.incBy now d)
  have hm : max s.last now = now := by omega
  simp only [Log.step, hm] at h2 h3
  exact ⟨h2, by rw [← h3]; exact Nat.le_refl _⟩

theorem Holds.sum {s : SC} {es : List (Nat × Int)} {T now : Nat} (h : Holds s es T) (hT : T ≤ now) :
    (s.step 7 (.sum now)).1 = some (((es.filter fun e => e.1 + 7 > now).map (·.2)).sum) ∧ Holds (s.step 7 (.sum now)).2 es now := by
  have hl := h.le
  obtain ⟨h1, h2, h3⟩ := step_rep (num := 7) (by omega) (l := ⟨es, s.last⟩) h.rep rfl (.sum now)
  have hm : max s.last now = now := by omega
  simp only [Log.step, hm, Log.sumOf] at h1 h2 h3
  exact ⟨h1, h2, by rw [← h3]; exact Nat.le_refl _⟩

theorem Holds.sumTail {s : SC} {es : List (Nat × Int)} {T now : Nat} (h : Holds s es T) (hT : T ≤ now) :
    (s.step 7 (.sumTail now)).1 = some (((es.filter fun e => decide (e.1 + 7 > now) && decide (e.1 < now)).map (·.2)).sum) ∧
      Holds (s.step 7 (.sumTail now)).2 es now := by
  have hl := h.le
  obtain ⟨h1, h2, h3⟩ := step_rep (num := 7) (by omega) (l := ⟨es, s.last⟩) h.rep rfl (.sumTail now)
  have hm : max s.last now = now := by omega
  simp only [Log.step, hm, Log.sumOf] at h1 h2 h3
  exact ⟨h1, h2, by rw [← h3]; exact Nat.le_refl _⟩

/-- The same increments, each by one. -/
def ones (l : List (Nat × Int)) : List (Nat × Int) := l.map fun e => (e.1, 1)

/-- A map holds increments, per key. -/
def MapOk (m : Map) (f : Nat → List (Nat × Int)) (T : Nat) : Prop :=
  ∀ p ∈ m, f p.1 ≠ [] ∧ Holds p.2.1 (f p.1) T ∧ Holds p.2.2 (ones (f p.1)) T

theorem incBy_keys (k now : Nat) (d : Int) : ∀ m : Map,
    (incBy k now d m).map (·.1) = if k ∈ m.map (·.1) then m.map (·.1) else m.map (·.1) ++ [k]
  | [] => by simp [incBy]
  | (k', a) :: m => by
    rw [incBy]
    by_cases h : k' = k
    · simp [h]
    · have h' : ¬ k = k' := fun e => h e.symm
      rw [if_neg h, List.map_cons, incBy_keys k now d m]
      simp only [List.map_cons, List.mem_cons, h', false_or]
      split <;> simp

theorem incBy_ok {k T now : Nat} {d : Int} {f : Nat → List (Nat × Int)} (hT : T ≤ now) : ∀ {m : Map}, MapOk m f T →
    (k ∉ m.map (·.1) → f k = []) → (m.map (·.1)).Nodup →
    MapOk (incBy k now d m) (fun x => if x = k then f k ++ [(now, d)] else f x) now
  | [], _, hk, _ => by
    intro p hp
    simp only [incBy, List.mem_singleton] at hp
    subst hp
    have := hk (by simp)
    simp only [if_true, this, List.nil_append]
    exact ⟨by simp, (Holds.init now).incBy (Nat.le_refl _) d, (Holds.init now).incBy (Nat.le_refl _) 1⟩
  | (k', a) :: m, h, hk, nd => by
    have h0 := h (k', a) (by simp)
    have nd' : (m.map (·.1)).Nodup ∧ k' ∉ m.map (·.1) := by
      rw [List.map_cons, List.nodup_cons] at nd; exact ⟨nd.2, nd.1⟩
    rw [incBy]
    split
    · rename_i he
      subst he
      intro p hp
      rcases List.mem_cons.1 hp with rfl | hp
      · simp only [if_true]
        refine ⟨by simp, h0.2.1.incBy hT d, ?_⟩
        have he : ones (f k' ++ [(now, d)]) = ones (f k') ++ [(now, 1)] := by simp [ones]
        rw [he]
        exact h0.2.2.incBy hT 1
      · have hne : p.1 ≠ k' := fun e => nd'.2 (e ▸ List.mem_map_of_mem hp)
        simp only [if_neg hne]
        have := h p (by simp [hp])
        exact ⟨this.1, this.2.1.mono hT, this.2.2.mono hT⟩
    · rename_i hne
      intro p hp
      rcases List.mem_cons.1 hp with rfl | hp
      · simp only [if_neg hne]
        exact ⟨h0.1, h0.2.1.mono hT, h0.2.2.mono hT⟩
      · refine incBy_ok hT (fun q hq => h q (by simp [hq])) ?_ nd'.1 p hp
        intro hk'
        refine hk ?_
        simp only [List.map_cons, List.mem_cons, not_or]
        exact ⟨fun e => hne e.symm, hk'⟩

theorem incs_append (h : List Ev) (e : Ev) (i k : Nat) : incs (h ++ [e]) i k =
    match e with
    | .inc i' k' now d => if i' = i ∧ k' = k then incs h i k ++ [(now, d)] else incs h i k
    | .get _ => incs h i k := by
  cases e with
  | inc i' k' now d =>
    simp only [incs, List.filterMap_append, List.filterMap_cons, List.filterMap_nil, Ev.inc?]
    by_cases hi : i' = i ∧ k' = k
    · simp only [if_pos hi]
    · simp only [if_neg hi, List.append_nil]
  | get now => simp [incs, Ev.inc?]

theorem keys_append (h : List Ev) (e : Ev) (i : Nat) : keys (h ++ [e]) i =
    match e with
    | .inc i' k _ _ => if i' = i then (if k ∈ keys h i then keys h i else keys h i ++ [k]) else keys h i
    | .get _ => keys h i := by
  cases e with
  | inc i' k' now d =>
    simp only [keys, List.filterMap_append, List.filterMap_cons, List.filterMap_nil, List.foldl_append, Ev.key?]
    by_cases hi : i' = i
    · simp only [if_pos hi, List.foldl_cons, List.foldl_nil]; rfl
    · simp only [if_neg hi, List.foldl_nil]
  | get now => simp [keys, Ev.key?, List.filterMap_cons]

/-- The state after a history. -/
structure Inv (h : List Ev) (s : Sys) (T : Nat) : Prop where
  ks : ∀ i, (s i).map (·.1) = keys h i
  nd : ∀ i, (keys h i).Nodup
  used : ∀ i k, k ∈ keys h i ↔ incs h i k ≠ []
  ok : ∀ i, MapOk (s i) (incs h i) T

theorem inv_step {h : List Ev} {s : Sys} {T : Nat} (I : Inv h s T) (e : Ev) (he : T ≤ e.time) : Inv (h ++ [e]) (step s e) e.time := by
  cases e with
  | get now =>
    refine ⟨?_, ?_, ?_, ?_⟩
    · intro i; rw [keys_append]; simp only [step, List.map_map, ← I.ks i]; rfl
    · intro i; rw [keys_append]; exact I.nd i
    · intro i k; rw [keys_append, incs_append]; exact I.used i k
    · intro i p hp
      simp only [step, List.mem_map] at hp
      obtain ⟨q, hq, rfl⟩ := hp
      have := I.ok i q hq
      rw [incs_append]
      exact ⟨this.1, (this.2.1.sum he).2, (this.2.2.sum he).2⟩
  | inc i k now d =>
    have e1 : ∀ j, keys (h ++ [.inc i k now d]) j = if i = j then (if k ∈ keys h j then keys h j else keys h j ++ [k]) else keys h j :=
      fun j => keys_append h _ j
    have e2 : ∀ j x, incs (h ++ [.inc i k now d]) j x = if i = j ∧ k = x then incs h j x ++ [(now, d)] else incs h j x :=
      fun j x => incs_append h _ j x
    refine ⟨?_, ?_, ?_, ?_⟩
    · intro j
      rw [e1]
      by_cases hj : i = j
      · subst hj; simp only [step, if_true]; rw [incBy_keys, I.ks i]
      · simp only [step, if_neg hj, if_neg (fun e => hj e.symm : ¬ j = i)]; exact I.ks j
    · intro j
      rw [e1]
      split
      · split
        · exact I.nd j
        · rename_i hk
          exact List.nodup_append.2 ⟨I.nd j, by simp, by
            intro a ha b hb; rw [List.mem_singleton] at hb; subst hb; exact fun e => hk (e ▸ ha)⟩
      · exact I.nd j
    · intro j x
      rw [e1, e2]
      by_cases hj : i = j
      · subst hj
        by_cases hx : k = x
        · subst hx; simp only [true_and, if_true]; split <;> simp_all
        · have := I.used i x
          simp only [hx, and_false, if_false, if_true]
          split
          · exact this
          · rw [List.mem_append, List.mem_singleton]
            constructor
            · rintro (hm | hm)
              · exact this.1 hm
              · exact absurd hm.symm hx
            · exact fun hm => .inl (this.2 hm)
      · simp only [hj, false_and, if_false]; exact I.used j x
    · intro j
      by_cases hj : i = j
      · subst hj
        have := incBy_ok (k := k) (d := d) he (I.ok i) (by
          intro hk
          rw [I.ks i] at hk
          have := (I.used i k)
          by_cases h0 : incs h i k = []
          · exact h0
          · exact absurd (this.2 h0) hk) (by rw [I.ks i]; exact I.nd i)
        simp only [step, if_true]
        have hf : incs (h ++ [.inc i k now d]) i = fun x => if x = k then incs h i k ++ [(now, d)] else incs h i x := by
          funext x
          rw [e2]
          by_cases hx : k = x
          · subst hx; simp
          · have hx' : ¬ x = k := fun e => hx e.symm
            rw [if_neg hx', if_neg (fun e => hx e.2)]
        rw [hf]; exact this
      · simp only [step, if_neg (fun e => hj e.symm : ¬ j = i)]
        have hf : incs (h ++ [.inc i k now d]) j = incs h j := by funext x; rw [e2]; simp [hj]
        rw [hf]
        intro p hp
        have := I.ok j p hp
        exact ⟨this.1, this.2.1.mono he, this.2.2.mono he⟩

/-- The latest time in a history. -/
def latest (h : List Ev) : Nat := h.foldl (fun _ e => e.time) 0

theorem inv_run : ∀ (h : List Ev), (h.map Ev.time).Pairwise (· ≤ ·) → ∃ T, Inv h (run h) T ∧ (T = 0 ∨ ∃ e ∈ h, e.time = T) := by
  intro h
  induction h using List.reverseRecOn with
  | nil =>
    intro _
    exact ⟨0, ⟨fun _ => rfl, fun _ => by simp [keys], fun _ _ => by simp [keys, incs], fun _ p hp => by simp [run] at hp⟩, .inl rfl⟩
  | append_singleton h e ih =>
    intro hp
    rw [List.map_append, List.pairwise_append] at hp
    obtain ⟨T, I, hT⟩ := ih hp.1
    have hle : T ≤ e.time := by
      rcases hT with rfl | ⟨x, hx, rfl⟩
      · exact Nat.zero_le _
      · exact hp.2.2 _ (List.mem_map_of_mem hx) _ (by simp)
    refine ⟨e.time, ?_, .inr ⟨e, by simp, rfl⟩⟩
    have : run (h ++ [e]) = step (run h) e := by simp [run]
    rw [this]
    exact inv_step I e hle

theorem ones_sum (l : List (Nat × Int)) (now : Nat) :
    (((ones l).filter fun e => e.1 + 7 > now).map (·.2)).sum = ((recent now l).length : Int) := by
  induction l with
  | nil => rfl
  | cons e l ih =>
    simp only [ones, recent, List.map_cons, List.filter_cons] at ih ⊢
    split <;> simp_all <;> omega

theorem entry_eq {h : List Ev} {s : Sys} {T now i : Nat} (I : Inv h s T) (hT : T ≤ now) {p : Nat × SC × SC} (hp : p ∈ s i) :
    entry now p = expected h now i p.1 := by
  obtain ⟨_, h1, h2⟩ := I.ok i p hp
  have a := (h1.sum hT).1
  have b := (h2.sum hT).1
  rw [ones_sum] at b
  simp only [entry, expected, a, b, Option.getD_some]
  congr 1
  by_cases hl : recent now (incs h i p.1) = []
  · simp [hl]
  · have : 0 < (recent now (incs h i p.1)).length := List.length_pos_iff.2 hl
    have h3 : ((recent now (incs h i p.1)).length : Int) ≠ 0 := by omega
    have h4 : ((recent now (incs h i p.1)).length : Int) > 0 := by omega
    rw [if_pos h3, if_pos h4, if_neg hl]
    rfl

/-- (Partial: a key that several threads use has several entries, see `C121_duplicates`.) Whatever was added to the averages on the threads of the
pool, in the course of time: a read returns, for each thread and each key that was used on it, one entry, with the number of the increments of the
last seven seconds, their sum and their average, and nothing else. -/
theorem C121_entries_partial (n : Nat) (h : List Ev) (now : Nat) (hm : (h.map Ev.time).Pairwise (· ≤ ·)) (hn : ∀ e ∈ h, e.time ≤ now) :
    getData n (run h) now = (List.range n).flatMap fun i => (keys h i).map (expected h now i) := by
  obtain ⟨T, I, hT⟩ := inv_run h hm
  have hle : T ≤ now := by
    rcases hT with rfl | ⟨x, hx, rfl⟩
    · exact Nat.zero_le _
    · exact hn x hx
  unfold getData
  congr 1
  funext i
  rw [← I.ks i, List.map_map]
  refine List.map_congr_left fun p hp => ?_
  exact entry_eq I hle hp

theorem mem_keys (h : List Ev) (hm : (h.map Ev.time).Pairwise (· ≤ ·)) (i k : Nat) : k ∈ keys h i ↔ ∃ now d, .inc i k now d ∈ h := by
  obtain ⟨T, I, _⟩ := inv_run h hm
  rw [I.used, ← List.length_pos_iff, List.length_pos_iff_exists_mem]
  constructor
  · rintro ⟨x, hx⟩
    simp only [incs, List.mem_filterMap] at hx
    obtain ⟨e, he, hx⟩ := hx
    cases e with
    | inc i' k' now d =>
      simp only [Ev.inc?, Option.ite_none_right_eq_some] at hx
      obtain ⟨⟨rfl, rfl⟩, _⟩ := hx
      exact ⟨now, d, he⟩
    | get now => simp [Ev.inc?] at hx
  · rintro ⟨now, d, he⟩
    exact ⟨(now, d), List.mem_filterMap.2 ⟨_, he, by simp [Ev.inc?]⟩⟩

/-- A key has as many entries in the result as there are threads that ever used it. -/
theorem C121_duplicates (n : Nat) (h : List Ev) (now k : Nat) (hm : (h.map Ev.time).Pairwise (· ≤ ·)) (hn : ∀ e ∈ h, e.time ≤ now) :
    ((getData n (run h) now).map (·.key)).count k = ((List.range n).filter fun i => decide (k ∈ keys h i)).length ∧
    ∀ i, k ∈ keys h i ↔ ∃ now d, .inc i k now d ∈ h := by
  refine ⟨?_, fun i => mem_keys h hm i k⟩
  rw [C121_entries_partial n h now hm hn]
  obtain ⟨T, I, _⟩ := inv_run h hm
  have hkey : ∀ i, ((keys h i).map (expected h now i)).map (·.key) = keys h i := by
    intro i; rw [List.map_map]; exact List.map_id _
  rw [List.map_flatMap]
  simp only [hkey]
  induction List.range n with
  | nil => rfl
  | cons a l ih =>
    rw [List.flatMap_cons, List.count_append, ih, List.filter_cons]
    have := (List.nodup_iff_count.1 (I.nd a)) k
    by_cases ha : k ∈ keys h a
    · have hp := List.count_pos_iff.2 ha
      simp only [ha, decide_true, if_true, List.length_cons]; omega
    · simp only [ha, decide_false, Bool.false_eq_true, if_false, List.count_eq_zero.2 ha]; omega

/-- The sums of all entries of a key add up to all its increments of the last seven seconds on the threads of the pool. -/
theorem C121_totals (n : Nat) (h : List Ev) (now k : Nat) (hm : (h.map Ev.time).Pairwise (· ≤ ·)) (hn : ∀ e ∈ h, e.time ≤ now) :
    (((getData n (run h) now).filter fun e => e.key = k).map (·.sum)).sum =
      ((List.range n).map fun i => ((recent now (incs h i k)).map (·.2)).sum).sum := by
  rw [C121_entries_partial n h now hm hn]
  obtain ⟨T, I, _⟩ := inv_run h hm
  induction List.range n with
  | nil => rfl
  | cons a l ih =>
    rw [List.flatMap_cons, List.filter_append, List.map_append, List.sum_append, ih, List.map_cons, List.sum_cons]
    congr 1
    have key : ∀ ks : List Nat, ks.Nodup → (((ks.map (expected h now a)).filter fun e => e.key = k).map (·.sum)).sum =
        if k ∈ ks then ((recent now (incs h a k)).map (·.2)).sum else 0 := by
      intro ks
      induction ks with
      | nil => intro _; rfl
      | cons x ks ih2 =>
        intro nd
        rw [List.nodup_cons] at nd
        have ih2 := ih2 nd.2
        have hkx : (expected h now a x).key = x := rfl
        rw [List.map_cons, List.filter_cons, hkx]
        by_cases hx : x = k
        · subst hx
          simp only [decide_true, if_true, List.map_cons, List.sum_cons, List.mem_cons, true_or]
          rw [ih2, if_neg nd.1, Int.add_zero]
          rfl
        · have hx' : ¬ k = x := fun e => hx e.symm
          simp only [hx, decide_false, Bool.false_eq_true, if_false, List.mem_cons, hx', false_or]
          exact ih2
    rw [key _ (I.nd a)]
    split
    · rfl
    · rename_i hk
      have : incs h a k = [] := by
        by_cases h0 : incs h a k = []
        · exact h0
        · exact absurd ((I.used a k).2 h0) hk
      simp [this, recent]

/-- Two threads, one key: two entries, neither with the sum 12. -/
theorem C121_case : getData 2 (run [.inc 0 5 100 4, .inc 1 5 101 2, .inc 0 5 103 6, .get 104]) 107 =
    [⟨5, 1, 6, some 6⟩, ⟨5, 1, 2, some 2⟩] := by decide +kernel

/-! Queries per second. -/

/-- The increments on thread `i`. -/
def QEv.inc? (i : Nat) : QEv → Option (Nat × Int)
  | .inc i' now => if i' = i then some (now, 1) else none
  | .get _ => none

def qincs (h : List QEv) (i : Nat) : List (Nat × Int) := h.filterMap (QEv.inc? i)

theorem qincs_append (h : List QEv) (e : QEv) (i : Nat) : qincs (h ++ [e]) i =
    match e with
    | .inc i' now => if i' = i then qincs h i ++ [(now, 1)] else qincs h i
    | .get _ => qincs h i := by
  cases e with
  | inc i' now =>
    simp only [qincs, List.filterMap_append, List.filterMap_cons, List.filterMap_nil, QEv.inc?]
    by_cases hi : i' = i
    · simp only [if_pos hi]
    · simp only [if_neg hi, List.append_nil]
  | get now => simp [qincs, QEv.inc?]

theorem q_run : ∀ (h : List QEv), (h.map QEv.time).Pairwise (· ≤ ·) →
    ∃ T, (∀ i, Holds (qrun h i) (qincs h i) T) ∧ (T = 0 ∨ ∃ e ∈ h, e.time = T) := by
  intro h
  induction h using List.reverseRecOn with
  | nil => intro _; exact ⟨0, fun i => Holds.init 0, .inl rfl⟩
  | append_singleton h e ih =>
    intro hp
    rw [List.map_append, List.pairwise_append] at hp
    obtain ⟨T, I, hT⟩ := ih hp.1
    have hle : T ≤ e.time := by
      rcases hT with rfl | ⟨x, hx, rfl⟩
      · exact Nat.zero_le _
      · exact hp.2.2 _ (List.mem_map_of_mem hx) _ (by simp)
    refine ⟨e.time, ?_, .inr ⟨e, by simp, rfl⟩⟩
    have : qrun (h ++ [e]) = qstep (qrun h) e := by simp [qrun]
    rw [this]
    intro i
    rw [qincs_append]
    cases e with
    | inc i' now =>
      by_cases hi : i' = i
      · subst hi
        simp only [qstep, if_true]
        exact (I i').incBy hle 1
      · simp only [qstep, if_neg hi, if_neg (fun e => hi e.symm : ¬ i = i')]
        exact (I i).mono hle
    | get now => exact ((I i).sumTail hle).2

theorem qcount (h : List QEv) (i now : Nat) :
    (((qincs h i).filter fun e => decide (e.1 + 7 > now) && decide (e.1 < now)).map (·.2)).sum =
      ((h.countP (QEv.hit (fun j => decide (j = i)) now) : Nat) : Int) := by
  induction h with
  | nil => rfl
  | cons e h ih =>
    rw [List.countP_cons]
    cases e with
    | get t => simpa [qincs, QEv.inc?, QEv.hit, List.filterMap_cons] using ih
    | inc j t =>
      by_cases hj : j = i
      · subst hj
        have e1 : qincs (.inc j t :: h) j = (t, 1) :: qincs h j := by simp [qincs, QEv.inc?]
        rw [e1, List.filter_cons]
        by_cases hw : t + 7 > now ∧ t < now
        · have h1 : (decide (t + 7 > now) && decide (t < now)) = true := by simp [hw]
          have h2 : QEv.hit (fun x => decide (x = j)) now (.inc j t) = true := by
            simp only [QEv.hit, decide_true, Bool.true_and, Bool.and_eq_true, decide_eq_true_eq]; omega
          rw [if_pos h1, List.map_cons, List.sum_cons, ih, if_pos h2]
          simp only [Int.natCast_add]; omega
        · have h1 : ¬ (decide (t + 7 > now) && decide (t < now)) = true := by simpa using hw
          have h2 : ¬ QEv.hit (fun x => decide (x = j)) now (.inc j t) = true := by
            simp only [QEv.hit, decide_true, Bool.true_and, Bool.and_eq_true, decide_eq_true_eq]; omega
          rw [if_neg h1, ih, if_neg h2]
          simp
      · have e1 : qincs (.inc j t :: h) i = qincs h i := by simp [qincs, QEv.inc?, hj]
        have h2 : ¬ QEv.hit (fun x => decide (x = i)) now (.inc j t) = true := by simp [QEv.hit, hj]
        rw [e1, ih, if_neg h2]
        simp

theorem counted_sum (n : Nat) (h : List QEv) (now : Nat) :
    ((List.range n).map fun i => ((h.countP (QEv.hit (fun j => decide (j = i)) now) : Nat) : Int)).sum =
      (counted n h now : Int) := by
  induction n with
  | zero =>
    have : counted 0 h now = 0 := by
      unfold counted
      rw [List.countP_eq_zero]
      intro e _
      cases e <;> simp [QEv.hit]
    simp [this]
  | succ n ih =>
    rw [List.range_succ, List.map_append, List.sum_append, ih]
    simp only [List.map_cons, List.map_nil, List.sum_cons, List.sum_nil, Int.add_zero]
    have : ∀ l : List QEv, counted (n + 1) l now = counted n l now + l.countP (QEv.hit (fun j => decide (j = n)) now) := by
      intro l
      induction l with
      | nil => rfl
      | cons e l ihl =>
        simp only [counted, List.countP_cons] at ihl ⊢
        rw [ihl]
        have : (if QEv.hit (fun i => decide (i < n + 1)) now e = true then 1 else 0) =
            (if QEv.hit (fun i => decide (i < n)) now e = true then 1 else 0) + (if QEv.hit (fun j => decide (j = n)) now e = true then 1 else 0) := by
          cases e with
          | get t => simp [QEv.hit]
          | inc j t =>
            simp only [QEv.hit, Bool.and_eq_true, decide_eq_true_eq]
            by_cases hw : t < now ∧ now ≤ t + 6
            · rcases Nat.lt_trichotomy j n with hj | hj | hj
              · have h1 : j < n + 1 := by omega
                have h2 : ¬ j = n := by omega
                simp [hw, hj, h1, h2]
              · subst hj
                simp [hw]
              · have h1 : ¬ j < n + 1 := by omega
                have h2 : ¬ j = n := by omega
                have h3 : ¬ j < n := by omega
                simp [h1, h2, h3]
            · have : ∀ p : Prop, ¬ ((p ∧ t < now) ∧ now ≤ t + 6) := fun p h => hw ⟨h.1.2, h.2⟩
              simp [this]
        omega
    rw [this]; simp

/-- The number shown is the number of the increments on all threads in the last six complete seconds, divided by six and rounded down (below 2^32
increments). -/
theorem C121_qps (n : Nat) (h : List QEv) (now : Nat) (hm : (h.map QEv.time).Pairwise (· ≤ ·)) (hn : ∀ e ∈ h, e.time ≤ now)
    (hb : counted n h now < 2 ^ 32) : 6 * qps n (qrun h) now ≤ counted n h now ∧ counted n h now < 6 * qps n (qrun h) now + 6 := by
  obtain ⟨T, I, hT⟩ := q_run h hm
  have hle : T ≤ now := by
    rcases hT with rfl | ⟨x, hx, rfl⟩
    · exact Nat.zero_le _
    · exact hn x hx
  have e : qps n (qrun h) now = counted n h now / 6 := by
    unfold qps
    have : ((List.range n).map fun i => ((qrun h i).step 7 (.sumTail now)).1.getD 0) =
        (List.range n).map fun i => ((h.countP (QEv.hit (fun j => decide (j = i)) now) : Nat) : Int) := by
      refine List.map_congr_left fun i _ => ?_
      rw [((I i).sumTail hle).1, Option.getD_some, qcount]
    rw [this, counted_sum]
    congr 1
    omega
  rw [e]
  omega

/-- Twelve requests in the last six seconds on two threads. -/
example : qps 2 (qrun ((List.replicate 7 (.inc 0 100)) ++ [.get 101] ++ List.replicate 5 (.inc 1 102) ++ [.inc 0 103])) 103 = 2 := by decide +kernel

end Verif.VarzAvg
