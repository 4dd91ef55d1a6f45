import Verif.DirectFd.Model
/-!
# Model of the submission entries (util/fibers/submit_entry.h) and of the requests of `LinuxFile` (util/fibers/uring_file.cc 300-480)

An entry has the fields of `io_uring_sqe` that the code uses. Those that share their memory are one field: `opf` is
`rw_flags`, `poll32_events`, `msg_flags`, `timeout_flags`, `accept_flags`, `cancel_flags`, `open_flags`, `statx_flags`,
`fsync_flags` and `fadvise_advice`; `off` is also `addr2`. Numbers are kept as the machine keeps them: a value stored in a
field of 32 bits is reduced. Pointers, masks and flags are natural numbers; `off_t` is an integer.
-/
namespace Verif.Sqe

def two32 : Nat := 2 ^ 32

/-- The part of `io_uring_sqe` the code uses. -/
structure Sqe where
  opcode : Nat
  flags : Nat
  fd : Int
  off : Nat
  addr : Nat
  len : Nat
  opf : Nat
  userData : Nat
  bufIndex : Nat
deriving DecidableEq, Repr

/-- What `UringProactor::GetSubmitEntry` (util/fibers/uring_proactor.cc 381-400) hands out: all zero but `user_data`. -/
def blank (ud : Nat) : Sqe := ⟨0, 0, 0, 0, 0, 0, 0, ud, 0⟩

/-- A value stored in a field of 32 bits. -/
def u32 (n : Nat) : Nat := n % two32

/-- An `off_t` stored in a field of 64 bits, or converted to `size_t`. -/
def u64 (i : Int) : Nat := (i % 18446744073709551616).toNat

/-- The requests, with the arguments of the `Prep` functions. -/
inductive Req
  | openAt (dfd : Int) (path flags mode : Nat)
  | pollAdd (fd : Int) (mask : Nat)
  | pollRemove (uid : Nat)
  | accept (fd : Int) (addr addrlen flags : Nat)
  | recv (fd : Int) (buf len flags : Nat)
  | recvMsg (fd : Int) (msg flags : Nat)
  | read (fd : Int) (buf size off : Nat)
  | readFixed (fd : Int) (buf size off idx : Nat)
  | readV (fd : Int) (vec n off flags : Nat)
  | write (fd : Int) (buf size off : Nat)
  | writeFixed (fd : Int) (buf size off idx : Nat)
  | writeV (fd : Int) (vec n off flags : Nat)
  | fallocate (fd : Int) (mode off len : Nat)
  | fadvise (fd : Int) (off len advice : Nat)
  | fsync (fd : Int) (flags : Nat)
  | statx (path buf : Nat)
  | send (fd : Int) (buf len flags : Nat)
  | sendMsg (fd : Int) (msg flags : Nat)
  | connect (fd : Int) (addr addrlen : Nat)
  | close (fd : Int)
  | timeout (ts : Nat) (abs : Bool)
  | timeoutRemove (ud : Nat)
  | linkTimeout (ts : Nat)
  | shutdown (fd : Int) (how : Nat)
  | msgRing (fd : Int) (len data : Nat)
  | cancelFd (fd : Int) (flags : Nat)
  | madvise (addr len advice : Nat)
  | nop
deriving DecidableEq, Repr

/-- `PrepFd` (236-239). -/
def prepFd (s : Sqe) (op : Nat) (fd : Int) : Sqe := { s with opcode := op, fd := fd }

/-- `AT_FDCWD`. -/
def atFdCwd : Int := -100

/-- `STATX_BASIC_STATS`. -/
def statxBasic : Nat := 0x7ff

/-- The `Prep` functions (30-224), in the order of the file. The numbers of the operations are those of the kernel's
`io_uring.h`. -/
def prep (s : Sqe) : Req → Sqe
  | .openAt dfd path flags mode => { prepFd s 18 dfd with addr := path, opf := u32 flags, len := u32 mode }            -- 30-35
  | .pollAdd fd mask => { prepFd s 6 fd with opf := u32 mask }                                                        -- 38-45
  | .pollRemove uid => { prepFd s 7 (-1) with addr := uid }                                                           -- 47-50
  | .accept fd addr addrlen flags => { prepFd s 13 fd with addr := addr, len := u32 addrlen, opf := u32 flags }        -- 52-57
  | .recv fd buf len flags => { prepFd s 27 fd with addr := buf, len := u32 len, opf := u32 flags }                    -- 59-64
  | .recvMsg fd msg flags => { prepFd s 10 fd with addr := msg, len := 1, opf := u32 flags }                           -- 66-71
  | .read fd buf size off => { prepFd s 22 fd with addr := buf, len := u32 size, off := off }                          -- 73-78
  | .readFixed fd buf size off idx =>
      { prepFd s 4 fd with addr := buf, len := u32 size, off := off, bufIndex := idx }                                 -- 80-86
  | .readV fd vec n off flags => { prepFd s 1 fd with addr := vec, len := u32 n, off := off, opf := u32 flags }        -- 88-95
  | .write fd buf size off => { prepFd s 23 fd with addr := buf, len := u32 size, off := off }                         -- 97-102
  | .writeFixed fd buf size off idx =>
      { prepFd s 5 fd with addr := buf, len := u32 size, off := off, bufIndex := idx }                                 -- 104-110
  | .writeV fd vec n off flags => { prepFd s 2 fd with addr := vec, len := u32 n, off := off, opf := u32 flags }       -- 112-119
  | .fallocate fd mode off len => { prepFd s 17 fd with off := off, len := u32 mode, addr := len }                     -- 121-126
  | .fadvise fd off len advice => { prepFd s 24 fd with opf := u32 advice, len := u32 len, off := off }                -- 128-133
  | .fsync fd flags => { prepFd s 3 fd with opf := u32 flags }                                                        -- 135-138
  | .statx path buf => { prepFd s 21 atFdCwd with off := buf, addr := path, len := statxBasic, opf := 0 }              -- 140-148
  | .send fd buf len flags => { prepFd s 26 fd with addr := buf, len := u32 len, opf := u32 flags }                    -- 151-156
  | .sendMsg fd msg flags => { prepFd s 9 fd with addr := msg, len := 1, opf := u32 flags }                            -- 158-163
  | .connect fd addr addrlen => { prepFd s 16 fd with addr := addr, len := 0, off := addrlen }                         -- 165-170
  | .close fd => prepFd s 19 fd                                                                                      -- 172-174
  | .timeout ts abs => { prepFd s 11 (-1) with addr := ts, len := 1, opf := if abs then 1 else 0 }                     -- 176-181
  | .timeoutRemove ud => { prepFd s 12 (-1) with addr := ud, opf := 0 }                                                -- 183-187
  | .linkTimeout ts => { prepFd s 15 (-1) with addr := ts, len := 1, opf := 0 }                                        -- 190-195
  | .shutdown fd how => { prepFd s 34 fd with len := u32 how }                                                        -- 198-201
  | .msgRing fd len data => { prepFd s 40 fd with len := u32 len, off := data, opf := 0 }                              -- 203-208
  | .cancelFd fd flags => { prepFd s 14 fd with opf := u32 (flags ||| 2) }                                             -- 210-213
  | .madvise addr len advice => { prepFd s 25 (-1) with addr := addr, len := u32 len, opf := u32 advice }              -- 215-220
  | .nop => prepFd s 0 (-1)                                                                                          -- 222-224

/-! ## LinuxFile -/

/-- `LinuxFile` (util/fibers/uring_file.h 80-88): `fd_` and `is_direct_`. -/
structure File where
  fd : Nat
  direct : Bool
deriving DecidableEq, Repr

/-- The constructor (uring_file.cc 300-312). `ok`: the kernel accepts the registration. -/
def File.make (r : DirectFd.R) (fd : Nat) (ok : Bool) : File × DirectFd.R :=
  match DirectFd.step r (.reg fd ok) with
  | some (.index (some i), r') => (⟨i, true⟩, r')
  | some (_, r') => (⟨fd, false⟩, r')
  | none => (⟨fd, false⟩, r)

/-- The operations. `size` is a `size_t`. -/
inductive FOp
  | writeSome (iov cnt : Nat) (off : Int) (flags : Nat)
  | readSome (iov cnt : Nat) (off : Int) (flags : Nat)
  | readFixed (buf size : Nat) (off : Int) (idx : Nat)
  | readFixedAsync (buf size : Nat) (off : Int) (idx : Nat)
  | readAsync (buf size : Nat) (off : Int)
  | writeFixedAsync (buf size : Nat) (off : Int) (idx : Nat)
  | writeAsync (buf size : Nat) (off : Int)
  | fallocateAsync (mode : Nat) (off len : Int)
  | fsync (flags : Nat)
deriving DecidableEq, Repr

/-- `flags |= IOSQE_FIXED_FILE` for a direct file. -/
def mark (f : File) (s : Sqe) : Sqe := if f.direct then { s with flags := s.flags ||| 1 } else s

/-- The entry each operation submits, in an entry handed out with `ud`. The sizes become `unsigned`, the index of the buffer
`uint16_t`, on the way to the `Prep` function. -/
def entry (f : File) (ud : Nat) : FOp → Sqe
  | .writeSome iov cnt off flags => mark f (prep (blank ud) (.writeV f.fd iov cnt (u64 off) flags))                    -- 92-101, 323-326
  | .readSome iov cnt off flags => mark f (prep (blank ud) (.readV f.fd iov cnt (u64 off) flags))                      -- 108-117, 329-332
  | .readFixed buf size off idx => prep (blank ud) (.readFixed f.fd buf (u32 size) (u64 off) (idx % 65536))            -- 360-363
  | .readFixedAsync buf size off idx =>
      mark f (prep (blank ud) (.readFixed f.fd buf (u32 size) (u64 off) (idx % 65536)))                                -- 397-406
  | .readAsync buf size off => mark f (prep (blank ud) (.read f.fd buf (u32 size) (u64 off)))                          -- 408-416
  | .writeFixedAsync buf size off idx =>
      mark f (prep (blank ud) (.writeFixed f.fd buf (u32 size) (u64 off) (idx % 65536)))                               -- 418-425
  | .writeAsync buf size off => mark f (prep (blank ud) (.write f.fd buf (u32 size) (u64 off)))                        -- 427-435
  | .fallocateAsync mode off len => mark f (prep (blank ud) (.fallocate f.fd mode (u64 off) (u64 len)))                -- 437-445
  | .fsync flags => prep (blank ud) (.fsync f.fd flags)                                                               -- 466-477

/-- `LinuxFile::GetFd` (356-358). `none`: a violated precondition of `TranslateDirectFd`. -/
def File.getFd (f : File) (r : DirectFd.R) : Option Nat :=
  if f.direct then
    match DirectFd.step r (.get f.fd) with
    | some (.fd n, _) => some n
    | _ => none
  else some f.fd

/-- `LinuxFile::Close` (338-354) with `CloseFile` (79-89): the descriptor the kernel is asked to close, if it is asked. -/
def File.close (f : File) (r : DirectFd.R) : Option (Option Nat × DirectFd.R) :=
  let closed (n : Nat) : Option Nat := if n > 0 then some n else none
  if f.direct then
    match DirectFd.step r (.unreg f.fd) with
    | some (.fd n, r') => some (closed n, r')
    | _ => none
  else some (closed f.fd, r)

end Verif.Sqe
