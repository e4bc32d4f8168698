import Init
set_option autoImplicit false
/-! Model of `atexit` (srclib/atexit.c), of the part of `exit` that calls the functions (exit.c:94-97, 135-143), and of `strerror`
(srclib/strerror.c). -/
namespace Smlr.Exit

/-- a function, known by its address -/
abbrev Fn := Nat

/-- `functions[0 .. fcnt)`, the last one first, atexit.c:7-8; whether `__pAtExitIterator` is set -/
structure St where
  fs : List Fn := []
  iter : Bool := false
  deriving DecidableEq

/-- atexit.c:17-24: the new state and the result -/
def atexit (s : St) (f : Fn) : St × Int :=
  if s.fs.length ≥ 32 then (s, -1) else ({ fs := f :: s.fs, iter := true }, 0)

/-- a program that calls atexit for these functions, and the results that it gets -/
def register : St → List Fn → St × List Int
  | s, [] => (s, [])
  | s, f :: fs =>
    let (s, r) := atexit s f
    let (s, rs) := register s fs
    (s, r :: rs)

/-- atexit.c:10-15: `while (fcnt) functions[--fcnt]();` where function `f` calls atexit for the functions `body f`.  The calls
in order; none if the loop has not ended after `fuel` calls. -/
def iterator (body : Fn → List Fn) : Nat → St → Option (List Fn)
  | 0, s => if s.fs = [] then some [] else none
  | k + 1, s =>
    match s.fs with
    | [] => some []
    | f :: fs => (iterator body k (register { s with fs := fs } (body f)).1).map (f :: ·)

/-- the calls made by `__ExitInner(flag, …)`, exit.c:94-97; closing the files and ending the program are left out -/
def exitInner (flag : Bool) (body : Fn → List Fn) (fuel : Nat) (s : St) : Option (List Fn) :=
  if flag && s.iter then iterator body fuel s else some []

/-- exit.c:140-143 -/
def exit (body : Fn → List Fn) (fuel : Nat) (s : St) : Option (List Fn) := exitInner true body fuel s

/-- exit.c:135-138 -/
def exitNow (body : Fn → List Fn) (fuel : Nat) (s : St) : Option (List Fn) := exitInner false body fuel s

abbrev Str := List UInt8

/-- `do { *--p = '0' + e % 10; e /= 10; } while (e);` strerror.c:14-18.  `buf` is what has been written, from `p` on; none for
a write below the buffer of 12 bytes, or when the fuel does not suffice. -/
def digits : Nat → Str → Nat → Option Str
  | 0, _, _ => none
  | k + 1, buf, e =>
    if buf.length ≥ 12 then none
    else
      let buf := UInt8.ofNat (0x30 + e % 10) :: buf
      if e / 10 = 0 then some buf else digits k buf (e / 10)

/-- `"Unknown error "`, strerror.c:22 -/
def unknown : Str := [0x55, 0x6E, 0x6B, 0x6E, 0x6F, 0x77, 0x6E, 0x20, 0x65, 0x72, 0x72, 0x6F, 0x72, 0x20]

/-- strerror.c:7-26 with `int` of `w` bits: the bytes of the result up to and with the 0; none if `sn` or `s` (64 bytes) is overrun -/
def strerror (w : Nat) (errnum : Int) : Option Str :=
  let e : Nat := if errnum < 0 then ((-(errnum % 2 ^ w)) % 2 ^ w).toNat else errnum.toNat
  match digits 13 [0] e with
  | none => none
  | some p =>
    match if errnum < 0 then (if p.length ≥ 12 then none else some (0x2D :: p)) else some p with
    | none => none
    | some p => if unknown.length + p.length ≤ 64 then some (unknown ++ p) else none

end Smlr.Exit
