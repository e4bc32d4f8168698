import Verif.Mem.Model
set_option autoImplicit false
/-! Model of `__ArgParser__` (srclib/c0.c:33-123), which divides the command line into arguments in DOS and Windows.

Memory is that of `Verif/Mem`; the line and the output may be the same place, as in DOS (c0.c:352, 382).  `argv` is the list of
the pointers stored so far; the NULL after the last one (c0.c:120) is left out.  `slashes` and `cnt` are unbounded: both are
less than the length of the line. -/
namespace Smlr.Args
open Smlr.Mem

/-- c0.c:36-41 -/
inductive Mode | white | quot | plain
  deriving DecidableEq

structure St where
  m : Mem
  i : Nat
  o : Nat
  mode : Mode
  sl : Nat
  argv : List Nat

/-- `while (n--) *out++ = '\\';` c0.c:71-72, 98-99, 115-116: memory and `out` -/
def backslashes : Nat → Mem → Nat → Mem × Nat
  | 0, m, o => (m, o)
  | n + 1, m, o => backslashes n (upd m o 0x5C) (o + 1)

/-- c0.c:45-112, one round of the loop; none at the end of the line -/
def step (s : St) : Option St :=
  let c := s.m s.i
  let i := s.i + 1
  if c = 0 then none
  else if s.mode = .white then
    if c = 0x22 then some { s with i := i, mode := .quot, sl := 0, argv := s.argv ++ [s.o] }
    else if c ≠ 0x20 ∧ c ≠ 0x09 then some { s with i := i - 1, mode := .plain, sl := 0, argv := s.argv ++ [s.o] }
    else some { s with i := i }
  else if c = 0x5C then some { s with i := i, sl := s.sl + 1 }
  else if c = 0x22 then
    let (m, o) := backslashes (s.sl / 2) s.m s.o
    if s.sl % 2 = 1 then some { s with m := upd m o 0x22, i := i, o := o + 1, sl := 0 }
    else if s.mode = .quot then
      if m i = 0x22 then some { s with m := upd m o (m i), i := i + 1, o := o + 1, sl := 0 }
      else some { s with m := m, i := i, o := o, mode := .plain, sl := 0 }
    else some { s with m := m, i := i, o := o, mode := .quot, sl := 0 }
  else if s.sl ≠ 0 then
    let (m, o) := backslashes s.sl s.m s.o
    some { s with m := m, i := i - 1, o := o, sl := 0 }
  else if s.mode = .plain ∧ (c = 0x20 ∨ c = 0x09) then
    some { s with m := upd s.m s.o 0, i := i, o := s.o + 1, mode := .white }
  else some { s with m := upd s.m s.o c, i := i, o := s.o + 1 }

/-- c0.c:113-118 -/
def finish (s : St) : Mem :=
  if s.mode ≠ .white then
    let (m, o) := backslashes s.sl s.m s.o
    upd m o 0
  else s.m

/-- the loop; none if it has not ended after `fuel` rounds -/
def run : Nat → St → Option (Mem × List Nat)
  | 0, _ => none
  | k + 1, s =>
    match step s with
    | none => some (finish s, s.argv)
    | some s => run k s

/-- c0.c:33-43: memory and the pointers; the result `cnt` is their number -/
def argParser (m : Mem) (fuel inn out : Nat) : Option (Mem × List Nat) := run fuel ⟨m, inn, out, .white, 0, []⟩

end Smlr.Args
