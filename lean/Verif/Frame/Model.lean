import Verif.Cg.Machine
set_option autoImplicit false
/-! The frame of a function: where its parameters and local variables are, what is printed before and after its body, and what is printed for a call. -/
namespace Smlr.Frame
open Smlr.Cg (Wd Ins Opd)

/-! ### Local variables -/

/-- `int`, `unsigned` of the compiler -/
abbrev I32 := BitVec 32

/-- `GenMaxLocalsSize`, cgx86.c:923-931; `flat` is false for the huge and unreal models -/
def maxLocals (W : Nat) (flat : Bool) : I32 := if W = 4 ∧ flat = true then 0x7FFFFFFF#32 else 0x7FFF#32

/-- `CurFxnLocalOfs`, `CurFxnMinLocalOfs`, smlrc.c:664-665 -/
structure Ofs where
  cur : I32
  min : I32
  deriving DecidableEq, Repr

/-- `truncInt`, smlrc.c:698-712 -/
def truncInt (W : Nat) (n : I32) : I32 := if W = 2 then (n.setWidth 16).signExtend 32 else n

/-- `AllocLocal`, smlrc.c:3546-3564; `none` is `errorVarSize` -/
def allocLocal (W : Nat) (flat : Bool) (size : I32) (s : Ofs) : Option Ofs :=
  let cur := (s.cur - size) &&& ~~~(BitVec.ofNat 32 W - 1#32)
  if cur.toInt ≥ s.cur.toInt ∨ cur ≠ truncInt W cur ∨ cur.toInt < (- maxLocals W flat).toInt then none
  else some ⟨cur, if s.min.toInt > cur.toInt then cur else s.min⟩

/-- What is declared in a function, in the order of the text: variables, and scopes that end, with what is declared inside.  A scope is a block (smlrc.c:8784, 8797), a `for` with declarations (9285, 9437), or an expression with its temporaries (5602, 5770). -/
inductive Decls
  | nil
  | var (size : I32) (rest : Decls)
  | scope (inside rest : Decls)
  deriving DecidableEq, Repr

/-- the same with offsets -/
inductive Placed
  | nil
  | var (ofs : I32) (size : I32) (rest : Placed)
  | scope (inside rest : Placed)
  deriving DecidableEq, Repr

/-- `AllocLocal` for all variables (smlrc.c:8284, 4927), and going back at the ends of scopes -/
def place (W : Nat) (flat : Bool) : Decls → Ofs → Option (Placed × Ofs)
  | .nil, s => some (.nil, s)
  | .var size rest, s =>
    (allocLocal W flat size s).bind fun s1 => (place W flat rest s1).map fun (p, s2) => (.var s1.cur size p, s2)
  | .scope inside rest, s =>
    (place W flat inside s).bind fun (q, s1) => (place W flat rest ⟨s.cur, s1.min⟩).map fun (p, s2) => (.scope q p, s2)

/-- a function: smlrc.c:8629-8630; the size of the frame is `-CurFxnMinLocalOfs` (cgx86.c:848) -/
def locals (W : Nat) (flat : Bool) (ds : Decls) : Option (Placed × I32) :=
  (place W flat ds ⟨0#32, 0#32⟩).map fun (p, s) => (p, - s.min)

/-! ### Parameters -/

/-- the loop of `AddFxnParamSymbols`, smlrc.c:8654-8735: sizes of parameters to offsets; `none` is `errorDecl` for an incomplete structure and `errorVarSize` -/
def paramLoop (W : Nat) (flat : Bool) : I32 → List I32 → Option (List I32)
  | _, [] => some []
  | ofs, sz :: szs =>
    if sz = 0#32 then none
    else if (sz + BitVec.ofNat 32 W - 1#32).toNat < sz.toNat then none
    else
      let r := (sz + BitVec.ofNat 32 W - 1#32) &&& ~~~(BitVec.ofNat 32 W - 1#32)
      if (ofs + r).toNat < ofs.toNat then none
      else if (ofs + r).toNat > (maxLocals W flat).toNat then none
      else (paramLoop W flat (ofs + r) szs).map (ofs :: ·)

/-- `AddFxnParamSymbols`, smlrc.c:8616-8735; a function that returns a structure has the address of it as the first parameter (8633-8649), of which the size is that of a word -/
def params (W : Nat) (flat : Bool) (szs : List I32) : Option (List I32) := paramLoop W flat (2#32 * BitVec.ofNat 32 W) szs

/-! ### Code -/

/-- instructions: those of expressions and statements (`Cg.Ins`) and those of functions and calls -/
inductive XIns
  | base (i : Ins)
  | pushBp | movBpSp
  | subSp (n : Int)
  | leave | ret
  /-- the name of a function, as a label -/
  | fn (x : Int)
  | call (x : Int)
  /-- `call ax` -/
  | calla
  deriving DecidableEq, Repr

/-- `GenFxnProlog`, cgx86.c:890-903, with `GenWriteFrameSize` (845-877) as it is when `GenUpdateFrameSize` has been called at the end of the function; with nothing to subtract, the line is a comment.
No probing of the stack for Windows; no huge and unreal models. -/
def prolog (size : Int) : List XIns := [.pushBp, .movBpSp] ++ if size = 0 then [] else [.subSp size]

/-- `GenFxnEpilog`, cgx86.c:914-920 -/
def epilog : List XIns := [.leave, .ret]

/-- `ParseDecl` for a function, smlrc.c:8390-8444: `GenLabel`, prologue, body, epilogue; `CurFxnEpilogLabel` is the last label of the body in `Stmt.fxn` -/
def function (x : Int) (size : Int) (body : List Ins) : List XIns := [.fn x] ++ prolog size ++ body.map .base ++ epilog

/-- `GenGrowStack`, cgx86.c:905-912 -/
def growStack (size : Int) : List XIns := if size = 0 then [] else [.subSp size]

/-- the end of a call, `case ')'`, cgx86.c:2688-2731; `v` is the size of the arguments -/
def callCode (x : Int) (v : Int) : List XIns := [.call x] ++ growStack (-v)

/-- the same through a pointer -/
def callPtrCode (v : Int) : List XIns := [.calla] ++ growStack (-v)

end Smlr.Frame
