import Verif.Entry

/-!
# `read_from_file` — src/readable.rs:548-657
-/

namespace Verif

/-- What the operating system has to say about a file, for as long as it is being read.
* `openErr`, `statErr`, `mapErr`, `seqErr`, `needErr`: errors of `File::open`, `metadata`, `mmap` and the two calls of `madvise`;
* `size`: the length according to `metadata`;
* `src`: what reading it from the beginning delivers;
* `addr`: where it would be mapped. -/
structure OsFile where
  openErr : Option IoKind := none
  statErr : Option IoKind := none
  mapErr : Option IoKind := none
  seqErr : Option IoKind := none
  needErr : Option IoKind := none
  size : Nat
  src : Src
  addr : Nat

/-- Ghost: calls which acquire and release a mapping. -/
inductive MapOp where
  | mmap (addr len : Nat)
  | munmap (addr len : Nat)
  deriving DecidableEq, Repr

/-- `struct Mmap( *mut c_void, usize )` — src/readable.rs:595. -/
structure Mmap where
  ptr : Nat
  len : Nat
  deriving DecidableEq, Repr

/-- Address of the static `EMPTY` — src/readable.rs:593 (any). -/
def emptyAddr : Nat := 1

/-- `Mmap::open` — src/readable.rs:597-614. -/
def Mmap.open (h : Host) (f : OsFile) : Except Err Mmap × List MapOp :=
  match f.statErr with
  | some k => (.error (.io k), [])
  | none =>
    if f.size > h.usizeMax then (.error .outOfRangeUsize, [])
    else if f.size = 0 then (.ok ⟨emptyAddr, 0⟩, [])
    else match f.mapErr with
      | some k => (.error (.io k), [])
      | none => (.ok ⟨f.addr, f.size⟩, [.mmap f.addr f.size])

/-- `Mmap::madvise` — src/readable.rs:616-626; `r` is the error of the system call, if any. -/
def Mmap.madvise (m : Mmap) (r : Option IoKind) : Except Err Unit :=
  if m.len = 0 then .ok ()
  else match r with
    | some k => .error (.io k)
    | none => .ok ()

/-- `impl Drop for Mmap` — src/readable.rs:639-647. -/
def Mmap.drop (m : Mmap) : List MapOp := if m.len ≠ 0 then [.munmap m.ptr m.len] else []

/-- `impl Deref for Mmap` — src/readable.rs:629-637: the mapped bytes.  If the file has become shorter than it was when it was
mapped, then the memory behind its end reads as zero up to the end of the page, and accessing the pages behind is a fatal signal;
both are `none` here. -/
def Mmap.bytes (m : Mmap) (f : OsFile) : Option Bytes :=
  if f.src.data.length < m.len then none else some (f.src.data.take m.len)

/-- `read_from_file(_with_ctx)` on x86-64 Linux — src/readable.rs:550-554, 561-656. -/
def readFromFileMapped (T : Target) (e : Endian) (t : Ty) (f : OsFile) : Except Err Val × List MapOp :=
  match f.openErr with
  | some k => (.error (.io k), [])
  | none => match Mmap.open T.toHost f with
    | (.error er, ops) => (.error er, ops)
    | (.ok m, ops) =>
      match m.madvise f.seqErr with
      | .error er => (.error er, ops ++ m.drop)
      | .ok _ => match m.madvise f.needErr with
        | .error er => (.error er, ops ++ m.drop)
        | .ok _ => match m.bytes f with
          | none => (.error (.panic .undefined), ops ++ m.drop)
          | some bs => (readFromBufferCopying T e t m.ptr bs, ops ++ m.drop)

/-- `read_from_file(_with_ctx)` on other platforms — src/readable.rs:550-559. -/
def readFromFileStreamed (T : Target) (e : Endian) (t : Ty) (grow : Nat → Nat) (f : OsFile) : Except Err Val :=
  match f.openErr with
  | some k => .error (.io k)
  | none => (readFromStream T e t grow true f.src).1

end Verif
