import Verif.Sqe.Model
import Verif.DirectFd.Spec
/-!
# What the kernel does with an entry

From the documentation of io_uring (the manual page io_uring_enter(2)); not code of the repository.
-/
namespace Verif.Sqe

/-- The request the kernel reads in an entry. `none`: it refuses the entry as invalid. Fields an operation does not use must
be zero where the kernel checks that. -/
def seen (s : Sqe) : Option Req :=
  if s.opcode = 0 then some .nop
  else if s.opcode = 1 then some (.readV s.fd s.addr s.len s.off s.opf)
  else if s.opcode = 2 then some (.writeV s.fd s.addr s.len s.off s.opf)
  else if s.opcode = 3 then if s.addr = 0 ∧ s.off = 0 ∧ s.len = 0 ∧ s.bufIndex = 0 then some (.fsync s.fd s.opf) else none
  else if s.opcode = 4 then if s.opf = 0 then some (.readFixed s.fd s.addr s.len s.off s.bufIndex) else none
  else if s.opcode = 5 then if s.opf = 0 then some (.writeFixed s.fd s.addr s.len s.off s.bufIndex) else none
  else if s.opcode = 6 then if s.addr = 0 ∧ s.off = 0 ∧ s.len = 0 ∧ s.bufIndex = 0 then some (.pollAdd s.fd s.opf) else none
  else if s.opcode = 7 then if s.len = 0 ∧ s.opf = 0 ∧ s.bufIndex = 0 then some (.pollRemove s.addr) else none
  else if s.opcode = 9 then if s.len = 1 ∧ s.off = 0 then some (.sendMsg s.fd s.addr s.opf) else none
  else if s.opcode = 10 then if s.len = 1 ∧ s.off = 0 then some (.recvMsg s.fd s.addr s.opf) else none
  else if s.opcode = 11 then
    if s.len = 1 ∧ s.bufIndex = 0 ∧ s.off = 0 ∧ (s.opf = 0 ∨ s.opf = 1) then some (.timeout s.addr (s.opf == 1)) else none
  else if s.opcode = 12 then if s.len = 0 ∧ s.opf = 0 ∧ s.bufIndex = 0 then some (.timeoutRemove s.addr) else none
  else if s.opcode = 13 then
    -- the length of the address is behind the pointer `addr2`; `len` must be zero
    if s.len = 0 ∧ s.bufIndex = 0 then some (.accept s.fd s.addr s.off s.opf) else none
  else if s.opcode = 14 then if s.opf.testBit 1 = true ∧ s.off = 0 then some (.cancelFd s.fd (s.opf ^^^ 2)) else none
  else if s.opcode = 15 then if s.len = 1 ∧ s.bufIndex = 0 ∧ s.off = 0 ∧ s.opf = 0 then some (.linkTimeout s.addr) else none
  else if s.opcode = 16 then if s.len = 0 ∧ s.bufIndex = 0 ∧ s.opf = 0 then some (.connect s.fd s.addr s.off) else none
  else if s.opcode = 17 then if s.bufIndex = 0 ∧ s.opf = 0 then some (.fallocate s.fd s.len s.off s.addr) else none
  else if s.opcode = 18 then if s.bufIndex = 0 then some (.openAt s.fd s.addr s.opf s.len) else none
  else if s.opcode = 19 then
    if s.off = 0 ∧ s.addr = 0 ∧ s.len = 0 ∧ s.opf = 0 ∧ s.bufIndex = 0 then some (.close s.fd) else none
  else if s.opcode = 21 then
    if s.bufIndex = 0 ∧ s.fd = atFdCwd ∧ s.len = statxBasic ∧ s.opf = 0 then some (.statx s.addr s.off) else none
  else if s.opcode = 22 then if s.opf = 0 then some (.read s.fd s.addr s.len s.off) else none
  else if s.opcode = 23 then if s.opf = 0 then some (.write s.fd s.addr s.len s.off) else none
  else if s.opcode = 24 then if s.addr = 0 ∧ s.bufIndex = 0 then some (.fadvise s.fd s.off s.len s.opf) else none
  else if s.opcode = 25 then if s.off = 0 ∧ s.bufIndex = 0 then some (.madvise s.addr s.len s.opf) else none
  else if s.opcode = 26 then if s.off = 0 then some (.send s.fd s.addr s.len s.opf) else none
  else if s.opcode = 27 then if s.off = 0 then some (.recv s.fd s.addr s.len s.opf) else none
  else if s.opcode = 34 then
    if s.off = 0 ∧ s.addr = 0 ∧ s.opf = 0 ∧ s.bufIndex = 0 then some (.shutdown s.fd s.len) else none
  else if s.opcode = 40 then if s.addr = 0 ∧ s.bufIndex = 0 ∧ s.opf = 0 then some (.msgRing s.fd s.len s.off) else none
  else none

/-- The arguments whose type has at most 32 bits do. The flags of a cancellation come without the one for descriptors. -/
def Typed : Req → Prop
  | .openAt _ _ flags mode => flags < 2 ^ 32 ∧ mode < 2 ^ 32
  | .pollAdd _ mask => mask < 2 ^ 32
  | .accept _ _ addrlen flags => addrlen < 2 ^ 32 ∧ flags < 2 ^ 32
  | .recv _ _ _ flags | .recvMsg _ _ flags | .send _ _ _ flags | .sendMsg _ _ flags | .fsync _ flags => flags < 2 ^ 32
  | .read _ _ size _ | .write _ _ size _ => size < 2 ^ 32
  | .readFixed _ _ size _ _ | .writeFixed _ _ size _ _ => size < 2 ^ 32
  | .readV _ _ n _ flags | .writeV _ _ n _ flags => n < 2 ^ 32 ∧ flags < 2 ^ 32
  | .fallocate _ mode _ _ => mode < 2 ^ 32
  | .fadvise _ _ _ advice | .madvise _ _ advice => advice < 2 ^ 32
  | .shutdown _ how => how < 2 ^ 32
  | .msgRing _ len _ => len < 2 ^ 32
  | .cancelFd _ flags => flags < 2 ^ 32 ∧ flags.testBit 1 = false
  | _ => True

/-- The length a request gives as a `size_t` or `off_t`, for the four that store it in 32 bits; zero for the others. -/
def longLen : Req → Nat
  | .recv _ _ len _ | .send _ _ len _ | .fadvise _ _ len _ | .madvise _ len _ => len
  | _ => 0

/-- The same request with another such length. -/
def withLen (n : Nat) : Req → Req
  | .recv fd buf _ flags => .recv fd buf n flags
  | .send fd buf _ flags => .send fd buf n flags
  | .fadvise fd off _ advice => .fadvise fd off n advice
  | .madvise addr _ advice => .madvise addr n advice
  | r => r

def isAccept : Req → Bool
  | .accept .. => true
  | _ => false

/-! ## Files -/

/-- The descriptor, of the process, an entry is about: with `IOSQE_FIXED_FILE` the one registered under the index. -/
def target (r : DirectFd.R) (s : Sqe) : Option Int :=
  if s.flags % 2 = 1 then (r.kern s.fd.toNat).map Int.ofNat else some s.fd

/-- The file object stands for the descriptor `fd`, given what the client has registered. -/
def Names (m : DirectFd.Tab) (f : File) (fd : Nat) : Prop := if f.direct then m f.fd = some fd else f.fd = fd

/-- An offset of the file as the kernel passes it around: 64 bits, in two's complement. -1 is the position of the file. -/
def loff (i : Int) : Nat := if 0 ≤ i then i.toNat else (2 ^ 64 + i).toNat

/-- A value of type `off_t`. -/
def IsOff (i : Int) : Prop := -(2 ^ 63) ≤ i ∧ i < 2 ^ 63

/-- What an operation asks of the kernel, the descriptor aside. -/
def wanted (x : Int) : FOp → Req
  | .writeSome iov cnt off flags => .writeV x iov cnt (loff off) flags
  | .readSome iov cnt off flags => .readV x iov cnt (loff off) flags
  | .readFixed buf size off idx | .readFixedAsync buf size off idx => .readFixed x buf size (loff off) idx
  | .readAsync buf size off => .read x buf size (loff off)
  | .writeFixedAsync buf size off idx => .writeFixed x buf size (loff off) idx
  | .writeAsync buf size off => .write x buf size (loff off)
  | .fallocateAsync mode off len => .fallocate x mode (loff off) (loff len)
  | .fsync flags => .fsync x flags

/-- The arguments are small enough: sizes below 4 GiB, indices of buffers below 2^16. -/
def Small : FOp → Prop
  | .writeSome _ cnt off flags | .readSome _ cnt off flags => IsOff off ∧ cnt < 2 ^ 32 ∧ flags < 2 ^ 32
  | .readFixed _ size off idx | .readFixedAsync _ size off idx | .writeFixedAsync _ size off idx => IsOff off ∧ size < 2 ^ 32 ∧ idx < 2 ^ 16
  | .readAsync _ size off | .writeAsync _ size off => IsOff off ∧ size < 2 ^ 32
  | .fallocateAsync mode off len => IsOff off ∧ IsOff len ∧ mode < 2 ^ 32
  | .fsync flags => flags < 2 ^ 32

/-- The two operations that do not look at `is_direct_`. -/
def blind : FOp → Bool
  | .readFixed .. | .fsync _ => true
  | _ => false

end Verif.Sqe
