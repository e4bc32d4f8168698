set_option autoImplicit false
/-
Buffered streams, srclib/{fopen,fgetc,fillbuf,fread,fgets,ungetc,fputc,flushbuf,fwrite,fputs,fflush,fseek,ftell,rewind}.c,
as built for Linux and macOS (`UNIX_LIKE`), which is also what a binary stream does on DOS and Windows: no
translation of end-of-line characters.  The string streams of sprintf/sscanf (`_IOSTRING`) are not modelled here,
nor the flushing of stdout and stderr when stdin is read.
-/
namespace Smlr.Stdio

abbrev Str := List UInt8

/-- what the library cannot choose: `BUFSIZ` (include/stdio.h:50) and whether `malloc` succeeds -/
structure Cfg where
  bufsiz : Nat
  mallocOk : Bool

/-- `struct __stream`, istdio.h:10-25; flags istdio.h:30-45.  `buf` is the contents of the buffer, `ptr` an index
into it; `hasBuf` is `f->buf != NULL`. -/
structure File where
  rd : Bool := false
  wr : Bool := false
  rwok : Bool := false
  nbf : Bool := false
  lbf : Bool := false
  append : Bool := false
  eof : Bool := false
  err : Bool := false
  ungot : Bool := false
  hasBuf : Bool := false
  buf : Str := []
  ptr : Nat := 0
  cnt : Nat := 0
  bufsz : Nat := 0
  deriving DecidableEq

/-- the open file of the operating system: contents, position, whether writes append, and how the next reads and
writes will go: `none` an error, `some k` for a read: at most `k + 1` bytes are delivered; for a write: at most `k`
bytes are taken; nothing left in the plan: everything asked for. -/
structure Os where
  data : Str
  pos : Nat
  append : Bool := false
  rplan : List (Option Nat) := []
  wplan : List (Option Nat) := []
  deriving DecidableEq

/-- `read()`: `none` is an error -/
def Os.read (os : Os) (n : Nat) : Option Str × Os :=
  match os.rplan with
  | [] =>
    let b := (os.data.drop os.pos).take n
    (some b, { os with pos := os.pos + b.length })
  | none :: pl => (none, { os with rplan := pl })
  | some k :: pl =>
    let b := (os.data.drop os.pos).take (min n (k + 1))
    (some b, { os with pos := os.pos + b.length, rplan := pl })

/-- file contents after the bytes `b` have been written at position `p`; a gap is filled with zeroes -/
def splice (c : Str) (p : Nat) (b : Str) : Str :=
  if b = [] then c else c.take p ++ List.replicate (p - c.length) 0 ++ b ++ c.drop (p + b.length)

/-- where a write goes -/
def Os.wpos (os : Os) : Nat := if os.append then os.data.length else os.pos

/-- `write()`: the number of bytes taken, `none` an error -/
def Os.write (os : Os) (b : Str) : Option Nat × Os :=
  match os.wplan with
  | [] => (some b.length, { os with data := splice os.data os.wpos b, pos := os.wpos + b.length })
  | none :: pl => (none, { os with wplan := pl })
  | some k :: pl =>
    let b := b.take k
    (some b.length, { os with data := splice os.data os.wpos b, pos := os.wpos + b.length, wplan := pl })

inductive Whence | set | cur | end
  deriving DecidableEq

/-- `lseek()` with a 32-bit `long`: `none` is the error return -/
def Os.lseek (os : Os) (off : Int) (w : Whence) : Option Os :=
  let p : Int := (match w with | .set => 0 | .cur => os.pos | .end => os.data.length) + off
  if p < 0 ∨ p ≥ 2 ^ 31 then none else some { os with pos := p.toNat }

/-- result with the new stream and file; `none`: an access outside the buffer -/
abbrev Res (α : Type) := Option (α × File × Os)

/-- `fopen`, fopen.c:60-74: the flags of a new stream -/
def openRead : File := { rd := true }
def openWrite : File := { wr := true }
def openAppend : File := { wr := true, append := true }
def openUpdate : File := { rwok := true }

/-- `setvbuf`, setvbuf.c:7-40, before any other operation (the arguments it accepts): the buffer has `size` bytes
unless unbuffered -/
def setvbuf (f : File) (nbf lbf : Bool) (size : Nat) : File :=
  if nbf then { f with nbf := true, lbf := false }
  else { f with nbf := false, lbf := lbf, hasBuf := true, buf := List.replicate size 0, ptr := 0, bufsz := size }

/-- allocation of the buffer, fillbuf.c:29-61 (without the DOS console part) and flushbuf.c:26-41 -/
def getBuf (cfg : Cfg) (f : File) : File :=
  if f.hasBuf then f
  else if !f.nbf && cfg.mallocOk then { f with hasBuf := true, buf := List.replicate cfg.bufsiz 0, ptr := 0, bufsz := cfg.bufsiz }
  else { f with hasBuf := true, buf := [0], ptr := 0, bufsz := 1, lbf := false }

/-- `__fillbuf`, fillbuf.c:18-93: the character, or `none` for EOF -/
def fillbuf (cfg : Cfg) (f : File) (os : Os) : Res (Option UInt8) :=
  if f.wr then some (none, f, os)
  else if f.eof then some (none, f, os)
  else
    let f := getBuf cfg { f with rd := true }
    let f := { f with ungot := false, ptr := 0 }
    match os.read f.bufsz with
    | (none, os) => some (none, { f with err := true, cnt := 0 }, os)
    | (some [], os) => some (none, { f with eof := true, cnt := 0 }, os)
    | (some (b :: bs), os) =>
      if (b :: bs).length ≤ f.buf.length then
        some (some b, { f with buf := b :: bs ++ f.buf.drop (b :: bs).length, cnt := bs.length, ptr := 1 }, os)
      else none

/-- `fgetc`, fgetc.c:14-22,37 -/
def fgetc (cfg : Cfg) (f : File) (os : Os) : Res (Option UInt8) :=
  if f.cnt ≠ 0 then
    match f.buf[f.ptr]? with
    | some c => some (some c, { f with cnt := f.cnt - 1, ptr := f.ptr + 1 }, os)
    | none => none
  else fillbuf cfg f os

/-- `memcpy(p, f->ptr, n)` followed by the advance of `ptr` and `cnt` -/
def take (f : File) (n : Nat) : Option (Str × File) :=
  if f.ptr + n ≤ f.buf.length then some ((f.buf.drop f.ptr).take n, { f with ptr := f.ptr + n, cnt := f.cnt - n })
  else none

/-- the loop of `fread`, fread.c:31-56: bytes stored and `size` left.  `fuel` bounds the iterations. -/
def freadLoop (cfg : Cfg) : Nat → Nat → Str → File → Os → Res (Str × Nat)
  | 0, _, _, _, _ => none
  | fuel+1, size, acc, f, os =>
    if size = 0 then some ((acc, 0), f, os)
    else if f.cnt < size then
      match take f f.cnt with
      | none => none
      | some (b, f) =>
        let acc := acc ++ b
        let size := size - b.length
        match fillbuf cfg f os with
        | none => none
        | some (none, f, os) => some ((acc, size), f, os)
        | some (some c, f, os) =>
          let acc := acc ++ [c]
          let size := size - 1
          if f.cnt ≥ size then
            match take f size with
            | none => none
            | some (b, f) => some ((acc ++ b, 0), f, os)
          else freadLoop cfg fuel size acc f os
    else
      match take f size with
      | none => none
      | some (b, f) => some ((acc ++ b, 0), f, os)

/-- `fread`, fread.c:19-94: bytes stored at `ptr` and the return value.  (`esize * ecount` is taken to fit `size_t`.) -/
def fread (cfg : Cfg) (esize ecount : Nat) (f : File) (os : Os) : Res (Str × Nat) :=
  let size := esize * ecount
  if size = 0 then some (([], 0), f, os)
  else
    match freadLoop cfg (size + 1) size [] f os with
    | none => none
    | some ((b, left), f, os) => some ((b, ecount - (left + esize - 1) / esize), f, os)

/-- the loop of `fgets`, fgets.c:11-13: `n` characters may still be read.  Result: bytes stored, and whether EOF was met. -/
def fgetsLoop (cfg : Cfg) : Nat → Str → File → Os → Res (Str × Bool)
  | 0, acc, f, os => some ((acc, false), f, os)
  | n+1, acc, f, os =>
    match fgetc cfg f os with
    | none => none
    | some (none, f, os) => some ((acc, true), f, os)
    | some (some c, f, os) =>
      if c = 0x0A then some ((acc ++ [c], false), f, os)
      else fgetsLoop cfg n (acc ++ [c]) f os

/-- `fgets`, fgets.c:7-20, `n ≥ 1`: `none` for NULL, otherwise the string stored -/
def fgets (cfg : Cfg) (n : Nat) (f : File) (os : Os) : Res (Option Str) :=
  match fgetsLoop cfg (n - 1) [] f os with
  | none => none
  | some ((s, e), f, os) => some (if e ∧ s = [] then none else some s, f, os)

/-- `ungetc`, ungetc.c:7-29, for a character other than EOF: whether it succeeded -/
def ungetc (c : UInt8) (f : File) (os : Os) : Res Bool :=
  if f.ptr = 0 then some (false, f, os)
  else
    match f.buf[f.ptr - 1]? with
    | none => none
    | some b =>
      let f := { f with ptr := f.ptr - 1, cnt := f.cnt + 1 }
      let f := if b ≠ c then { f with buf := f.buf.set f.ptr c, ungot := true } else f
      some (true, { f with eof := false }, os)

/-- `*f->ptr++ = c, f->cnt--` -/
def store (c : UInt8) (f : File) : Option File :=
  if f.ptr < f.buf.length then some { f with buf := f.buf.set f.ptr c, ptr := f.ptr + 1, cnt := f.cnt - 1 } else none

/-- `__flushbuf`, flushbuf.c:16-57: `false` for EOF -/
def flushbuf (cfg : Cfg) (c : UInt8) (f : File) (os : Os) : Res Bool :=
  if f.rd then some (false, f, os)
  else
    let f := getBuf cfg { f with wr := true }
    let fin (f : File) (os : Os) : Res Bool :=
      match store c { f with cnt := f.bufsz, ptr := 0 } with
      | none => none
      | some f => some (true, f, os)
    if f.ptr ≠ 0 then
      match os.write (f.buf.take f.bufsz) with
      | (r, os) =>
        if r = some f.bufsz ∧ f.bufsz ≠ 0 then fin f os
        else some (false, { f with err := true }, os)
    else fin f os

/-- `fflush` of one stream, fflush.c:8-27: `true` for success -/
def fflush (f : File) (os : Os) : Bool × File × Os :=
  if f.wr then
    let fin (f : File) (os : Os) : Bool × File × Os :=
      (true, { f with ptr := 0, cnt := 0, wr := f.wr && !f.rwok }, os)
    if f.ptr ≠ 0 then
      let sz := f.bufsz - f.cnt
      match os.write (f.buf.take sz) with
      | (r, os) =>
        if r = some sz ∧ sz ≠ 0 then fin f os
        else (false, { f with err := true }, os)
    else fin f os
  else (true, f, os)

/-- the first half of `fputc`, fputc.c:18-30 -/
def fputcStore (cfg : Cfg) (c : UInt8) (f : File) (os : Os) : Res Bool :=
  if f.cnt ≠ 0 then
    match store c f with
    | none => none
    | some f => some (true, f, os)
  else flushbuf cfg c f os

/-- `fputc`, fputc.c:14-52: `true` for success -/
def fputc (cfg : Cfg) (c : UInt8) (f : File) (os : Os) : Res Bool :=
  match fputcStore cfg c f os with
  | none => none
  | some (false, f, os) => some (false, f, os)
  | some (true, f, os) =>
    if f.nbf ∨ (f.lbf ∧ c = 0x0A) then
      match fflush f os with
      | (b, f, os) => some (b, f, os)
    else some (true, f, os)

/-- `memcpy(f->ptr, p, n)` and the advance of `ptr` and `cnt`; `b` is what is copied -/
def put (f : File) (b : Str) : Option File :=
  if f.ptr + b.length ≤ f.buf.length then
    some { f with buf := f.buf.take f.ptr ++ b ++ f.buf.drop (f.ptr + b.length), ptr := f.ptr + b.length, cnt := f.cnt - b.length }
  else none

/-- the character loop of `fwrite`, fwrite.c:27-34: bytes left -/
def fwriteChars (cfg : Cfg) : Str → File → Os → Res Nat
  | [], f, os => some (0, f, os)
  | c :: p, f, os =>
    match fputc cfg c f os with
    | none => none
    | some (false, f, os) => some (p.length + 1, f, os)
    | some (true, f, os) => fwriteChars cfg p f os

/-- the block loop of `fwrite`, fwrite.c:41-66: bytes left -/
def fwriteBlocks (cfg : Cfg) : Nat → Str → File → Os → Res Nat
  | 0, _, _, _ => none
  | fuel+1, p, f, os =>
    if p = [] then some (0, f, os)
    else if f.cnt < p.length then
      match put f (p.take f.cnt) with
      | none => none
      | some f' =>
        match p.drop f.cnt with
        | [] => none
        | c :: p =>
          match flushbuf cfg c f' os with
          | none => none
          | some (false, f, os) => some (p.length + 1, f, os)
          | some (true, f, os) =>
            if f.cnt ≥ p.length then
              match put f p with
              | none => none
              | some f => some (0, f, os)
            else fwriteBlocks cfg fuel p f os
    else
      match put f p with
      | none => none
      | some f => some (0, f, os)

/-- `fwrite`, fwrite.c:18-96, of the bytes `p` (`esize * ecount` of them): the return value -/
def fwrite (cfg : Cfg) (p : Str) (esize ecount : Nat) (f : File) (os : Os) : Res Nat :=
  if p = [] then some (0, f, os)
  else
    let r := if f.nbf ∨ f.lbf then fwriteChars cfg p f os else fwriteBlocks cfg (p.length + 1) p f os
    match r with
    | none => none
    | some (left, f, os) => some (ecount - (left + esize - 1) / esize, f, os)

/-- `ftell`, ftell.c:10-35 (`lseek(fd, 0, SEEK_CUR)` first) -/
def ftell (f : File) (os : Os) : Option Int :=
  match os.lseek 0 .cur with
  | none => none
  | some os =>
    if f.rd then some (os.pos - f.cnt)
    else if f.wr ∧ f.ptr ≠ 0 then some (os.pos + f.ptr)
    else some os.pos

/-- `fseek`, fseek.c:9-68: whether it succeeded -/
def fseek (off : Int) (w : Whence) (f : File) (os : Os) : Bool × File × Os :=
  let f := { f with eof := false }
  -- fseek.c:48-67
  let slow (_ : Unit) : Bool × File × Os :=
    match fflush f os with
    | (false, f, os) => (false, f, os)
    | (true, f, os) =>
      let f := { f with rd := f.rd && !f.rwok, wr := f.wr && !f.rwok, ungot := false, ptr := 0, cnt := 0 }
      if f.append then (true, f, os)
      else
        match os.lseek off w with
        | none => (false, f, os)
        | some os => (true, f, os)
  if (!f.rwok && f.rd && !f.ungot) && w ≠ .end && f.hasBuf then
    if w = .cur then
      if (off ≥ 0 ∧ off ≤ f.cnt) ∨ (off < 0 ∧ off ≥ -(f.ptr : Int)) then
        (true, { f with ptr := ((f.ptr : Int) + off).toNat, cnt := ((f.cnt : Int) - off).toNat }, os)
      else slow ()
    else
      match ftell f os with
      | none => (false, f, os)
      | some pos =>
        if (off ≥ pos ∧ off - pos ≤ f.cnt) ∨ (off ≥ 0 ∧ off < pos ∧ pos - off ≤ f.ptr) then
          (true, { f with ptr := ((f.ptr : Int) + (off - pos)).toNat, cnt := ((f.cnt : Int) - (off - pos)).toNat }, os)
        else slow ()
  else slow ()

/-- `rewind`, rewind.c:8-35 -/
def rewind (f : File) (os : Os) : File × Os :=
  match fflush f os with
  | (_, f, os) =>
    let f := { f with rd := f.rd && !f.rwok, wr := f.wr && !f.rwok, ungot := false, err := false, eof := false, ptr := 0, cnt := 0 }
    if f.append then (f, os)
    else
      match os.lseek 0 .set with
      | none => (f, os)
      | some os => (f, os)

end Smlr.Stdio
