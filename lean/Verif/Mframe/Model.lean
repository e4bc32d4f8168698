import Verif.Mips.Machine
set_option autoImplicit false
/-! The frame of a function on MIPS: what is printed before and after its body, and what is printed for a call.  Where parameters and local variables are is as for x86 (`Frame.params`, `Frame.locals` with `W = 4`; `GenMaxLocalsSize`, cgmips.c:613-617, is that of the flat models). -/
namespace Smlr.Mframe
open Smlr.Mips (Ins)

/-- instructions of expressions and statements, and those that only functions and calls need -/
inductive XIns
  | base (i : Ins)
  /-- the name of a function: `GenLabel`, cgmips.c:70-86 -/
  | fn (x : Int)
  /-- `jal` with the name of a function -/
  | jal (x : Int)
  /-- `jal` with a register -/
  | jalr (r : Nat)
  /-- `j` with a register -/
  | jr (r : Nat)
  deriving DecidableEq, Repr

/-- how many registers with arguments are stored, cgmips.c:557-561; `lo` and `hi` are `CurFxnParamCntMin`, `CurFxnParamCntMax` (both 0 with `(void)`; `hi` is the largest `int` with `...`) -/
def count (lo hi : Nat) : Nat := if lo ≠ 0 ∧ hi ≠ 0 then (if hi > 4 then 4 else hi) else 0

/-- `GenWriteFrameSize`, cgmips.c:534-542; `N` is `-CurFxnMinLocalOfs`.  It is written over at the end of the function (`GenUpdateFrameSize`, 544-552), when the size of the frame is known, and whether there are calls; the last line is a comment without them. -/
def frame (N : Nat) (leaf : Bool) : List Ins :=
  let size : Int := 8 + N
  [.alu .subu 29 29 (.imm size), .store .sw 30 (.ind 29 (size - 8)), .alu .addu 30 29 (.imm (size - 8))] ++ if leaf then [] else [.store .sw 31 (.ind 30 4)]

/-- `GenFxnProlog`, cgmips.c:554-577 -/
def prolog (n N : Nat) (leaf : Bool) : List Ins := (List.range n).map (fun i => .store .sw (4 + i) (.ind 29 (4 * i : Nat))) ++ frame N leaf

/-- `GenFxnEpilog` without the jump, cgmips.c:590-606 -/
def epilog (N : Nat) (leaf : Bool) : List Ins :=
  (if leaf then [] else [.load .lw 31 (.ind 30 4)]) ++ [.load .lw 30 (.ind 30 0), .alu .addu 29 29 (.imm (8 + N))]

/-- a function, smlrc.c:8368-8438 -/
def function (x : Int) (lo hi N : Nat) (leaf : Bool) (body : List Ins) : List XIns :=
  [.fn x] ++ (prolog (count lo hi) N leaf ++ body ++ epilog N leaf).map .base ++ [.jr 31]

/-- `GenGrowStack`, cgmips.c:579-588 -/
def growStack (size : Int) : List Ins := if size = 0 then [] else [.alu .subu 29 29 (.imm size)]

/-- the beginning of the case of `')'`, cgmips.c:1697-1719: arguments of nested calls are on the stack (`deep`), the others are in registers -/
def ready (deep : Bool) (v : Nat) : List Ins :=
  if deep then
    (if v ≥ 4 then [.load .lw 4 (.ind 29 0)] else []) ++ (if v ≥ 8 then [.load .lw 5 (.ind 29 4)] else []) ++
    (if v ≥ 12 then [.load .lw 6 (.ind 29 8)] else []) ++ (if v ≥ 16 then [.load .lw 7 (.ind 29 12)] else [])
  else growStack 16

/-- the case of `')'`, cgmips.c:1695-1733; `f` is `jal` with a name or with `$2` (`GenWreg`), and `v` the size of the arguments -/
def callCode (deep : Bool) (f : XIns) (v : Nat) : List XIns :=
  let v' : Int := if v < 16 then 16 else v
  (ready deep v).map .base ++ [f] ++ (growStack (- v')).map .base

end Smlr.Mframe
