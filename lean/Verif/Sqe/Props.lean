import Verif.Sqe.Spec
import Verif.DirectFd.Props
/-!
# C111: the kernel does what was asked; C112: a file's operations act on it
-/
namespace Verif.Sqe

theorem u32_id {n : Nat} (h : n < 2 ^ 32) : u32 n = n := Nat.mod_eq_of_lt h

theorem cancel_bit {n : Nat} (h : n.testBit 1 = false) : (n ||| 2) ^^^ 2 = n := by
  apply Nat.eq_of_testBit_eq
  intro i
  rw [Nat.testBit_xor, Nat.testBit_or]
  by_cases hi : i = 1
  · subst hi; rw [h]; decide
  · have : Nat.testBit 2 i = false := by
      rw [show 2 = 2 ^ 1 from rfl, Nat.testBit_two_pow]
      exact decide_eq_false (fun e => hi e.symm)
    rw [this]; simp

/-- No `Prep` function touches the number by which the completion finds its callback, whatever the entry. -/
theorem C111_user_data (s : Sqe) (r : Req) : (prep s r).userData = s.userData := by cases r <;> rfl

/-- What the kernel reads in the entry is the request, with the length of the four that take a longer one modulo 2^32; except
accept. -/
theorem C111_what_is_seen (ud : Nat) (r : Req) (ht : Typed r) (ha : isAccept r = false) :
    seen (prep (blank ud) r) = some (withLen (longLen r % 2 ^ 32) r) := by
  cases r
  case accept => cases ha
  case cancelFd fd flags =>
    have h1 : (flags ||| 2).testBit 1 = true := by simp [Nat.testBit_or]; right; decide
    have h2 : (flags ||| 2) < 2 ^ 32 := Nat.or_lt_two_pow ht.1 (by decide)
    have h3 : (flags ||| 2) ^^^ 2 = flags := cancel_bit ht.2
    simp only [seen, prep, prepFd, blank, withLen, longLen, u32_id h2]
    simp [h1, h3]
  case recv => simp [seen, prep, prepFd, blank, withLen, longLen, u32, two32]; exact ht
  case send => simp [seen, prep, prepFd, blank, withLen, longLen, u32, two32]; exact ht
  case fadvise => simp [seen, prep, prepFd, blank, withLen, longLen, u32, two32]; exact ht
  case madvise => simp [seen, prep, prepFd, blank, withLen, longLen, u32, two32]; exact ht
  case timeout ts abs => cases abs <;> rfl
  all_goals
    simp only [Typed] at ht
    first
    | (simp [seen, prep, prepFd, blank, withLen, longLen, u32_id ht]; done)
    | (simp [seen, prep, prepFd, blank, withLen, longLen, u32_id ht.1, u32_id ht.2]; done)
    | (simp [seen, prep, prepFd, blank, withLen, longLen]; done)

/-- The request goes through as it is when lengths are below 4 GiB. -/
theorem C111_faithful_partial (ud : Nat) (r : Req) (ht : Typed r) (ha : isAccept r = false) (hl : longLen r < 2 ^ 32) :
    seen (prep (blank ud) r) = some r := by
  rw [C111_what_is_seen ud r ht ha, Nat.mod_eq_of_lt hl]
  cases r <;> rfl

/-- Receiving into, or sending from, a buffer of 4 GiB is a request for no bytes; its result, zero, is that of a closed
connection. -/
theorem C111_4GiB_is_nothing (ud : Nat) (fd : Int) (buf flags : Nat) (hf : flags < 2 ^ 32) :
    seen (prep (blank ud) (.recv fd buf (2 ^ 32) flags)) = some (.recv fd buf 0 flags) ∧
      seen (prep (blank ud) (.send fd buf (2 ^ 32) flags)) = some (.send fd buf 0 flags) :=
  ⟨by rw [C111_what_is_seen ud (.recv fd buf (2 ^ 32) flags) hf rfl, longLen, Nat.mod_self, withLen], by rw [C111_what_is_seen ud (.send fd buf (2 ^ 32) flags) hf rfl, longLen, Nat.mod_self, withLen]⟩

/-- `PrepAccept` with a length is refused by the kernel, which wants a pointer to it in another field. -/
theorem C111_accept_refused (ud : Nat) (fd : Int) (addr addrlen flags : Nat) (h0 : addrlen ≠ 0) (hl : addrlen < 2 ^ 32) :
    seen (prep (blank ud) (.accept fd addr addrlen flags)) = none := by
  simp [seen, prep, prepFd, blank, u32_id hl, h0]

/-! ## C112 -/

open DirectFd in
/-- A file object made for a descriptor stands for it, whether or not the table of direct descriptors had room, and those made before
still stand for theirs. -/
theorem C112_made {n : Nat} {r : R} {m : Tab} {bad : Bool} (h : Reach n r m bad) (fd : Nat) (ok : Bool) :
    ∃ m' bad', Reach n (File.make r fd ok).2 m' bad' ∧ Names m' (File.make r fd ok).1 fd ∧
      ∀ f x, Names m f x → Names m' f x := by
  have hfr := C31_register_fresh n r m bad ok h fd
  cases hs : step r (.reg fd ok) with
  | none =>
    exfalso
    simp only [step] at hs
    split at hs
    · cases hs
    · cases ok <;> simp at hs
  | some p =>
    obtain ⟨o, r'⟩ := p
    have hr := Reach.step h (op := .reg fd ok) trivial hs
    cases o with
    | fd x =>
      exfalso
      simp only [step] at hs
      split at hs
      · simp at hs
      · cases ok <;> simp at hs
    | index i =>
      cases i with
      | none =>
        refine ⟨_, _, by simp only [File.make, hs]; exact hr, by simp [File.make, hs, Names], ?_⟩
        intro f x hn
        exact hn
      | some i =>
        obtain ⟨hfree, -, -, -, -⟩ := hfr i r' hs
        refine ⟨_, _, by simp only [File.make, hs]; exact hr, by simp [File.make, hs, Names, note], ?_⟩
        intro f x hn
        have keep : ∀ j, m j ≠ none → note m (.reg fd ok) (.index (some i)) j = m j := by
          intro j hj
          simp only [note]
          rw [if_neg (by rintro rfl; exact hj hfree)]
        unfold Names at hn ⊢
        split
        · rename_i hd
          rw [if_pos hd] at hn
          rw [keep f.fd (by rw [hn]; simp), hn]
        · rename_i hd
          rw [if_neg hd] at hn
          exact hn

theorem u64_eq {i : Int} (h : IsOff i) : u64 i = loff i := by
  unfold IsOff at h
  unfold u64 loff
  split <;> omega

theorem entry_seen (f : File) (ud : Nat) (op : FOp) (hs : Small op) : seen (entry f ud op) = some (wanted f.fd op) := by
  have key : ∀ (s : Sqe), seen (mark f s) = seen s := by
    intro s; unfold mark; split <;> rfl
  have q : ∀ r : Req, Typed r → isAccept r = false → longLen r = 0 → seen (prep (blank ud) r) = some r :=
    fun r h1 h2 h3 => C111_faithful_partial ud r h1 h2 (by rw [h3]; decide)
  cases op <;> simp only [Small] at hs <;> simp only [entry, key, wanted]
  case writeSome => rw [u64_eq hs.1]; exact q _ hs.2 rfl rfl
  case readSome => rw [u64_eq hs.1]; exact q _ hs.2 rfl rfl
  case readFixed => rw [u64_eq hs.1, u32_id hs.2.1, Nat.mod_eq_of_lt hs.2.2]; exact q _ hs.2.1 rfl rfl
  case readFixedAsync => rw [u64_eq hs.1, u32_id hs.2.1, Nat.mod_eq_of_lt hs.2.2]; exact q _ hs.2.1 rfl rfl
  case readAsync => rw [u64_eq hs.1, u32_id hs.2]; exact q _ hs.2 rfl rfl
  case writeFixedAsync => rw [u64_eq hs.1, u32_id hs.2.1, Nat.mod_eq_of_lt hs.2.2]; exact q _ hs.2.1 rfl rfl
  case writeAsync => rw [u64_eq hs.1, u32_id hs.2]; exact q _ hs.2 rfl rfl
  case fallocateAsync => rw [u64_eq hs.1, u64_eq hs.2.1]; exact q _ hs.2.2 rfl rfl
  case fsync => exact q _ hs rfl rfl

theorem entry_fd (f : File) (ud : Nat) (op : FOp) : (entry f ud op).fd = f.fd := by
  obtain ⟨n, d⟩ := f
  cases op <;> cases d <;> rfl

theorem entry_flags (f : File) (ud : Nat) (op : FOp) : (entry f ud op).flags = if f.direct && !blind op then 1 else 0 := by
  obtain ⟨n, d⟩ := f
  cases op <;> cases d <;> simp [entry, mark, prep, prepFd, blank, blind]

/-- Every operation but `ReadFixed` and `FSync` asks the kernel for what was wanted, of the file the object was made for; for
sizes below 4 GiB. -/
theorem C112_operations_partial {n : Nat} {r : DirectFd.R} {m : DirectFd.Tab} {bad : Bool} (h : DirectFd.Reach n r m bad) {f : File} {fd : Nat}
    (hn : Names m f fd) (ud : Nat) (op : FOp) (hs : Small op) (hb : blind op = false) :
    target r (entry f ud op) = some (fd : Int) ∧ seen (entry f ud op) = some (wanted f.fd op) := by
  refine ⟨?_, entry_seen f ud op hs⟩
  rw [target, entry_flags, entry_fd, hb]
  unfold Names at hn
  cases hd : f.direct
  · rw [hd] at hn
    simp only [Bool.false_eq_true, if_false] at hn
    simp [hn]
  · rw [hd] at hn
    simp only [if_true] at hn
    have := (DirectFd.C31_translate n r m bad h).1 f.fd
    simp [this, hn]

/-- `ReadFixed` and `FSync` of a direct file act on whatever file has the index as its descriptor. -/
theorem C112_wrong_file (r : DirectFd.R) {f : File} (hd : f.direct = true) (ud : Nat) (op : FOp) (hb : blind op = true) :
    target r (entry f ud op) = some (f.fd : Int) := by
  rw [target, entry_flags, entry_fd, hb, hd]
  rfl

/-- With a fresh table: the first file, of descriptor 7, is synced by syncing the standard input. -/
theorem C112_wrong_file_case :
    (File.make (DirectFd.R.init 4) 7 true).1 = ⟨0, true⟩ ∧
      target (File.make (DirectFd.R.init 4) 7 true).2 (entry (File.make (DirectFd.R.init 4) 7 true).1 5 (.fsync 0)) = some 0 ∧
      target (File.make (DirectFd.R.init 4) 7 true).2 (entry (File.make (DirectFd.R.init 4) 7 true).1 5 (.readAsync 100 10 0)) = some 7 := by
  decide

/-- A size of 4 GiB and more is cut: the operation asks for the remainder only. -/
theorem C112_sizes_cut (f : File) (ud buf size : Nat) {off : Int} (ho : IsOff off) :
    seen (entry f ud (.readAsync buf size off)) = some (.read f.fd buf (size % 2 ^ 32) (loff off)) ∧
      seen (entry f ud (.writeAsync buf size off)) = some (.write f.fd buf (size % 2 ^ 32) (loff off)) := by
  have e : u32 (u32 size) = u32 size := Nat.mod_mod _ _
  have h1 := entry_seen f ud (.readAsync buf (size % 2 ^ 32) off) ⟨ho, Nat.mod_lt _ (by decide)⟩
  have h2 := entry_seen f ud (.writeAsync buf (size % 2 ^ 32) off) ⟨ho, Nat.mod_lt _ (by decide)⟩
  have e1 : entry f ud (.readAsync buf size off) = entry f ud (.readAsync buf (size % 2 ^ 32) off) := by
    simp only [entry]; rw [show size % 2 ^ 32 = u32 size from rfl, e]
  have e2 : entry f ud (.writeAsync buf size off) = entry f ud (.writeAsync buf (size % 2 ^ 32) off) := by
    simp only [entry]; rw [show size % 2 ^ 32 = u32 size from rfl, e]
  rw [e1, e2]
  exact ⟨h1, h2⟩

/-- `GetFd` is the descriptor the object was made for, and `Close` closes it and frees its index and no other; except that
descriptor zero is never closed. -/
theorem C112_close {n : Nat} {r : DirectFd.R} {m : DirectFd.Tab} {bad : Bool} (h : DirectFd.Reach n r m bad) {f : File} {fd : Nat}
    (hn : Names m f fd) :
    f.getFd r = some fd ∧ ∃ r', f.close r = some (if fd > 0 then some fd else none, r') ∧
      ∀ j, r'.kern j = if f.direct ∧ j = f.fd then none else m j := by
  unfold Names at hn
  cases hd : f.direct
  · rw [hd] at hn
    simp only [Bool.false_eq_true, if_false] at hn
    refine ⟨by simp [File.getFd, hd, hn], r, by simp [File.close, hd, hn], fun j => ?_⟩
    rw [(DirectFd.C31_translate n r m bad h).1 j]; simp
  · rw [hd] at hn
    simp only [if_true] at hn
    obtain ⟨r', h1, h2⟩ := DirectFd.C31_unregister n r m bad h f.fd fd hn
    refine ⟨by simp [File.getFd, hd, (DirectFd.C31_translate n r m bad h).2 f.fd fd hn], r', by simp [File.close, hd, h1], fun j => ?_⟩
    rw [h2 j]; simp

/-! ## The hypotheses are met -/

example : seen (prep (blank 9) (.recv 5 4096 1000 0)) = some (.recv 5 4096 1000 0) :=
  C111_faithful_partial 9 _ (show (0 : Nat) < 2 ^ 32 by decide) rfl (by decide)

example : ∃ m bad, DirectFd.Reach 4 (File.make (DirectFd.R.init 4) 7 true).2 m bad ∧ Names m (File.make (DirectFd.R.init 4) 7 true).1 7 :=
  let ⟨m, bad, h, hn, _⟩ := C112_made (DirectFd.Reach.init (n := 4)) 7 true
  ⟨m, bad, h, hn⟩

end Verif.Sqe
