import Verif.AwsConf.Spec
/-!
# Credentials and endpoints (C130)
-/
namespace Verif.AwsConf

theorem lower_byte (c x : Nat) (h1 : 97 ≤ x) (h2 : x ≤ 122) :
    (if 65 ≤ c ∧ c ≤ 90 then c + 32 else c) = x ↔ c = x - 32 ∨ c = x := by
  split <;> omega

theorem says_true (s : Str) : lower s = str "true" ↔ SaysTrue s := by
  have e : str "true" = [116, 114, 117, 101] := by decide
  rw [e]
  unfold lower SaysTrue
  constructor
  · intro h
    match s, h with
    | [a, b, c, d], h =>
      simp only [List.map_cons, List.map_nil, List.cons.injEq, and_true] at h
      obtain ⟨h1, h2, h3, h4⟩ := h
      exact ⟨a, b, c, d, rfl, (lower_byte a 116 (by omega) (by omega)).1 h1, (lower_byte b 114 (by omega) (by omega)).1 h2,
        (lower_byte c 117 (by omega) (by omega)).1 h3, (lower_byte d 101 (by omega) (by omega)).1 h4⟩
    | [], h => simp at h
    | [_], h => simp at h
    | [_, _], h => simp at h
    | [_, _, _], h => simp at h
    | _ :: _ :: _ :: _ :: _ :: _, h => simp at h
  · rintro ⟨a, b, c, d, rfl, h1, h2, h3, h4⟩
    simp only [List.map_cons, List.map_nil]
    rw [(lower_byte a 116 (by omega) (by omega)).2 h1, (lower_byte b 114 (by omega) (by omega)).2 h2,
      (lower_byte c 117 (by omega) (by omega)).2 h3, (lower_byte d 101 (by omega) (by omega)).2 h4]

theorem mem_providers (e : Env) (p : Src) : p ∈ providers e ↔ Enabled e p := by
  unfold providers
  have hl := says_true e.ec2Disabled
  cases p <;> simp only [Enabled, List.mem_append] <;> (repeat' split) <;> simp_all

theorem providers_sorted (e : Env) : (providers e).Pairwise (fun a b => a.rank < b.rank) := by
  unfold providers
  split <;> split <;> decide

theorem get_spec (answer : Src → Creds) (l : List Src) :
    (∃ p, p ∈ l ∧ Complete (answer p) ∧ (get answer l).1 = answer p ∧
      ∃ pre post, l = pre ++ p :: post ∧ (get answer l).2 = pre ++ [p] ∧ ∀ q ∈ pre, ¬ Complete (answer q)) ∨
    ((∀ q ∈ l, ¬ Complete (answer q)) ∧ (get answer l).1 = ⟨[], [], []⟩ ∧ (get answer l).2 = l) := by
  induction l with
  | nil => exact .inr ⟨by simp, rfl, rfl⟩
  | cons a l ih =>
    by_cases h : Complete (answer a)
    · have hc : (!(answer a).id.isEmpty && !(answer a).secret.isEmpty) = true := by
        obtain ⟨h1, h2⟩ := h; simp [h1, h2]
      have hg : get answer (a :: l) = (answer a, [a]) := by simp only [get, hc, if_true]
      exact .inl ⟨a, List.mem_cons_self .., h, by rw [hg], [], l, rfl, by rw [hg]; rfl, by simp⟩
    · have hc : ¬ (!(answer a).id.isEmpty && !(answer a).secret.isEmpty) = true := by
        intro hc; simp at hc; exact h hc
      have hg : get answer (a :: l) = ((get answer l).1, a :: (get answer l).2) := by simp only [get, if_neg hc]
      rw [hg]
      rcases ih with ⟨p, h1, h2, h3, pre, post, h4, h5, h6⟩ | ⟨h1, h2, h3⟩
      · refine .inl ⟨p, List.mem_cons_of_mem _ h1, h2, h3, a :: pre, post, by rw [h4]; rfl, by simp only [h5]; rfl, ?_⟩
        intro q hq
        rcases List.mem_cons.1 hq with e | hq
        · exact e ▸ h
        · exact h6 q hq
      · refine .inr ⟨?_, h2, by simp only [h3]⟩
        intro q hq
        rcases List.mem_cons.1 hq with e | hq
        · exact e ▸ h
        · exact h1 q hq

/-- The credentials are those of the first enabled source, in the documented order, that has both a key and a
secret: key, secret and token all from that one source. -/
theorem C130_first (e : Env) (answer : Src → Creds) (p : Src) (he : Enabled e p) (hc : Complete (answer p))
    (hf : ∀ q, Enabled e q → q.rank < p.rank → ¬ Complete (answer q)) : (get answer (providers e)).1 = answer p := by
  rcases get_spec answer (providers e) with ⟨q, h1, h2, h3, pre, post, h4, h5, h6⟩ | ⟨h1, -, -⟩
  · rw [h3]
    have hpm := (mem_providers e p).2 he
    have hs := providers_sorted e
    rw [h4] at hpm hs
    rcases List.mem_append.1 hpm with hm | hm
    · exact absurd hc (h6 p hm)
    · rcases List.mem_cons.1 hm with rfl | hm
      · rfl
      · have := (List.pairwise_append.1 hs).2.1
        have := (List.pairwise_cons.1 this).1 p hm
        exact absurd h2 (hf q ((mem_providers e q).1 h1) this)
  · exact absurd hc (h1 p ((mem_providers e p).2 he))

/-- With no complete source the credentials are empty. -/
theorem C130_none (e : Env) (answer : Src → Creds) (h : ∀ q, Enabled e q → ¬ Complete (answer q)) :
    (get answer (providers e)).1 = ⟨[], [], []⟩ := by
  rcases get_spec answer (providers e) with ⟨q, h1, h2, -⟩ | ⟨-, h2, -⟩
  · exact absurd h2 (h q ((mem_providers e q).1 h1))
  · exact h2

/-- Which sources are asked: only enabled ones, each at most once and in order, and none after the first
complete one. So nobody connects to the metadata address when that is disabled, or when an earlier source
suffices. -/
theorem C130_asked (e : Env) (answer : Src → Creds) (p : Src) :
    p ∈ (get answer (providers e)).2 ↔ Enabled e p ∧ ∀ q, Enabled e q → q.rank < p.rank → ¬ Complete (answer q) := by
  have hs := providers_sorted e
  rcases get_spec answer (providers e) with ⟨q, h1, h2, h3, pre, post, h4, h5, h6⟩ | ⟨h1, h2, h3⟩
  · rw [h5]
    have hs' := hs
    rw [h4] at hs'
    have hap := List.pairwise_append.1 hs'
    constructor
    · intro hp
      have hpm : p ∈ providers e := by
        rw [h4]
        rcases List.mem_append.1 hp with hp | hp
        · exact List.mem_append_left _ hp
        · simp only [List.mem_singleton] at hp
          exact List.mem_append_right _ (hp ▸ List.mem_cons_self ..)
      refine ⟨(mem_providers e p).1 hpm, fun x hx hlt => ?_⟩
      have hxm := (mem_providers e x).2 hx
      rw [h4] at hxm
      rcases List.mem_append.1 hxm with hxm | hxm
      · exact h6 x hxm
      · exfalso
        have hqx : q.rank ≤ x.rank := by
          rcases List.mem_cons.1 hxm with rfl | hxm
          · exact Nat.le_refl _
          · exact Nat.le_of_lt ((List.pairwise_cons.1 hap.2.1).1 x hxm)
        have hpq : p.rank ≤ q.rank := by
          rcases List.mem_append.1 hp with hp | hp
          · exact Nat.le_of_lt (hap.2.2 p hp q (List.mem_cons_self ..))
          · simp only [List.mem_singleton] at hp; rw [hp]; exact Nat.le_refl _
        omega
    · rintro ⟨hp, hall⟩
      have hpm := (mem_providers e p).2 hp
      rw [h4] at hpm
      rcases List.mem_append.1 hpm with hpm | hpm
      · exact List.mem_append_left _ hpm
      · rcases List.mem_cons.1 hpm with rfl | hpm
        · exact List.mem_append_right _ (List.mem_singleton.2 rfl)
        · exact absurd h2 (hall q ((mem_providers e q).1 h1) ((List.pairwise_cons.1 hap.2.1).1 p hpm))
  · rw [h3, mem_providers]
    exact ⟨fun h => ⟨h, fun q hq _ => h1 q ((mem_providers e q).2 hq)⟩, fun h => h.1⟩

theorem C130_asked_order (e : Env) (answer : Src → Creds) :
    (get answer (providers e)).2.Pairwise (fun a b => a.rank < b.rank) := by
  rcases get_spec answer (providers e) with ⟨q, h1, h2, h3, pre, post, h4, h5, h6⟩ | ⟨h1, h2, h3⟩
  · rw [h5]
    have hs := providers_sorted e
    rw [h4, List.append_cons] at hs
    exact (List.pairwise_append.1 hs).1
  · rw [h3]; exact providers_sorted e

theorem bucket_keep (ps : List Param) (b : Str) (h : ∀ q ∈ ps, q.1 ≠ str "Bucket") : bucket ps b = some b := by
  induction ps with
  | nil => rfl
  | cons p ps ih =>
    have h1 := h p (List.mem_cons_self ..)
    simp only [bucket, if_neg h1]
    exact ih fun q hq => h q (List.mem_cons_of_mem _ hq)

/-- A named bucket is found if every `Bucket` parameter is a string. -/
theorem bucket_named {ps : List Param} {b : Str} (h : Names ps b) (hs : ∀ q ∈ ps, q.1 = str "Bucket" → q.2 ≠ none) (d : Str) :
    bucket ps d = some b := by
  obtain ⟨pre, post, rfl, hp⟩ := h
  induction pre generalizing d with
  | nil => simp only [List.nil_append, bucket, if_true]; exact bucket_keep post b hp
  | cons x pre ih =>
    have hs' : ∀ q ∈ pre ++ (str "Bucket", some b) :: post, q.1 = str "Bucket" → q.2 ≠ none :=
      fun q hq => hs q (by rw [List.cons_append]; exact List.mem_cons_of_mem _ hq)
    simp only [List.cons_append, bucket]
    split
    · rename_i hx
      have := hs x (by rw [List.cons_append]; exact List.mem_cons_self ..) hx
      split
      · rename_i hn; exact absurd hn this
      · exact ih _ hs'
    · exact ih _ hs'

/-- With an endpoint of one's own, a request for a bucket goes to scheme, endpoint, slash, bucket; and a request
without a bucket to scheme and endpoint. -/
theorem C130_url {endpoint : Str} (he : endpoint ≠ []) (https : Bool) (sdk : List Param → Option (Bool × Str)) (ps : List Param)
    (hs : ∀ q ∈ ps, q.1 = str "Bucket" → q.2 ≠ none) :
    (∀ b, Names ps b → b ≠ [] → resolve endpoint https sdk ps =
      .url ((if https then str "https://" else str "http://") ++ endpoint ++ str "/" ++ b)) ∧
    ((∀ q ∈ ps, q.1 ≠ str "Bucket") → resolve endpoint https sdk ps =
      .url ((if https then str "https://" else str "http://") ++ endpoint)) := by
  constructor
  · intro b hn hb
    have := bucket_named hn hs []
    simp only [resolve, if_neg he, this]
    rw [if_pos hb]
    have hsl : str "/" = [47] := by decide
    simp [scheme, hsl]
  · intro hn
    have := bucket_keep ps [] hn
    simp only [resolve, if_neg he, this]
    simp [scheme]

/-- A `Bucket` parameter that is not a string stops the process. -/
theorem C130_bad_bucket {endpoint : Str} (he : endpoint ≠ []) (https : Bool) (sdk : List Param → Option (Bool × Str)) (ps : List Param)
    (h : (str "Bucket", none) ∈ ps) : resolve endpoint https sdk ps = .crash := by
  have key : ∀ d, bucket ps d = none := by
    induction ps with
    | nil => simp at h
    | cons x ps ih =>
      intro d
      simp only [bucket]
      rcases List.mem_cons.1 h with e | h
      · rw [← e]; simp
      · split
        · split
          · rfl
          · exact ih h _
        · exact ih h _
  simp only [resolve, if_neg he, key]

/-- Requests for two buckets never go to one address. -/
theorem C130_distinct {endpoint : Str} (he : endpoint ≠ []) (https : Bool) (sdk : List Param → Option (Bool × Str)) (ps ps' : List Param)
    (hs : ∀ q ∈ ps, q.1 = str "Bucket" → q.2 ≠ none) (hs' : ∀ q ∈ ps', q.1 = str "Bucket" → q.2 ≠ none) (b b' : Str)
    (hn : Names ps b) (hn' : Names ps' b') (hb : b ≠ []) (hb' : b' ≠ [])
    (h : resolve endpoint https sdk ps = resolve endpoint https sdk ps') : b = b' := by
  rw [(C130_url he https sdk ps hs).1 b hn hb, (C130_url he https sdk ps' hs').1 b' hn' hb'] at h
  simpa using h

/-- Without an endpoint of one's own only the scheme of the SDK's address changes, and errors stay. -/
theorem C130_default (https : Bool) (sdk : List Param → Option (Bool × Str)) (ps : List Param) :
    resolve [] https sdk ps = (match sdk ps with | none => .sdkError | some r => .sdk https r.2) := by
  simp only [resolve, if_true]
  cases sdk ps <;> rfl

/-- "TRUE" disables the metadata service; a key without a secret is passed over. -/
def env0 : Env := { relativeUri := str "/v2", fullUri := [], ec2Disabled := str "TRUE" }
def answer0 : Src → Creds
  | .environment => ⟨str "half", [], []⟩
  | .container => ⟨str "id", str "secret", str "token"⟩
  | .ec2 => ⟨str "other", str "other", []⟩
  | _ => ⟨[], [], []⟩

theorem C130_case : (get answer0 (providers env0)) = (⟨str "id", str "secret", str "token"⟩, [.environment, .profile, .webIdentity, .container]) ∧
    Enabled env0 .container ∧ ¬ Enabled env0 .ec2 ∧
    resolve (str "localhost:9000") false (fun _ => none) [(str "Region", some (str "x")), (str "Bucket", some (str "data"))] =
      .url (str "http://localhost:9000/data") := by
  refine ⟨by decide +kernel, ?_, ?_, by decide +kernel⟩
  · unfold Enabled env0; decide +kernel
  · exact fun h => h ((says_true _).1 (by decide +kernel))

end Verif.AwsConf
