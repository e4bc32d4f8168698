import Verif.Lex.Model
import Verif.Trans.Props
import Verif.Mips.Model
set_option autoImplicit false
/-! An expression from its text to code: `GetToken`, `ParseExpr` (`expr`, `exprval`) and `GenExpr` one after the other. -/
namespace Smlr.Text
open Smlr.Lex (Str Token Tk tokens)
open Smlr.Expr (V Ty)

/-- The codes of tokens are those that `expr` looks for, smlrc.c:217-300; the models of the two have different names for them. -/
def opOf : Tk → Parse.Tk
  | .chr c =>
    if c = 0x28 then .lpar else if c = 0x29 then .rpar else if c = 0x5B then .lbrk else if c = 0x5D then .rbrk else if c = 0x7D then .rbrace
    else if c = 0x3B then .semi else if c = 0x3A then .colon else if c = 0x2C then .comma else if c = 0x2E then .dot
    else if c = 0x7E then .tilde else if c = 0x21 then .excl else if c = 0x26 then .amp else if c = 0x2A then .star else if c = 0x2B then .plus
    else if c = 0x2D then .minus else if c = 0x2F then .slash else if c = 0x25 then .percent else if c = 0x3C then .lt else if c = 0x3E then .gt
    else if c = 0x5E then .xor else if c = 0x7C then .or else if c = 0x3F then .quest else if c = 0x3D then .assign else .other
  | .LShift => .shl | .RShift => .shr | .LogAnd => .land | .LogOr => .lor | .EQ => .eq | .NEQ => .ne | .LEQ => .le | .GEQ => .ge
  | .Inc => .inc | .Dec => .dec | .Arrow => .arrow | .Sizeof => .sizeof
  | .AssignMul => .aMul | .AssignDiv => .aDiv | .AssignMod => .aMod | .AssignAdd => .aAdd | .AssignSub => .aSub | .AssignLSh => .aShl
  | .AssignRSh => .aShr | .AssignAnd => .aAnd | .AssignXor => .aXor | .AssignOr => .aOr
  | _ => .other

/-- a token with its value (smlrc.c:2673-2683, 2755-2763); `id` is `AddIdent`.  Strings are not told apart. -/
def lxOf (id : Str → Nat) : Token → Parse.Lx
  | .op t => (opOf t, 0)
  | .ident w => (.ident, id w)
  | .num .int v => (.numInt, v)
  | .num .uint v => (.numUint, v)
  | .num .float v => (.numFloat, v)
  | .chr false v => (.numInt, (BitVec.ofInt 32 v).toNat)
  | .chr true v => (.numWide, (BitVec.ofInt 32 v).toNat)
  | .str _ _ => (.litStr, 0)

/-- `TokenStartsDeclaration` with `params`, smlrc.c:6124-6157, for keywords; `long` is no type in the 16-bit memory models.  Names of types are not known here. -/
def typeWord (W : Nat) : Tk → Bool
  | .Void | .Char | .Int | .Signed | .Unsigned | .Short | .Float | .Double | .Struct | .Union | .Enum => true
  | .Long => W ≠ 2
  | _ => false

/-- what a type name without names and brackets is made of -/
def typePart (W : Nat) : Token → Bool
  | .op (.chr c) => c = 0x2A
  | .op t => typeWord W t
  | _ => false

/-- does the parenthesis before these tokens begin a type name -/
def declAhead (W : Nat) : List Token → Bool
  | .op k :: _ => typeWord W k
  | _ => false

/-- the tokens as the parser sees them: behind a parenthesis, if a token begins a declaration, `ParseDecl` reads a type name (smlrc.c:2764-2772).  `tn` are the numbers under which it leaves the types in the table (C36, C45 are about the types); it gets all keywords and stars that follow. -/
def fuse (W : Nat) (id : Str → Nat) (tn : List Token → Option Nat) : Nat → List Token → List Parse.Lx
  | 0, _ => []
  | _ + 1, [] => []
  | n + 1, t :: ts =>
    if t = .op (.chr 0x28) ∧ declAhead W ts = true then
      match tn (ts.takeWhile (typePart W)) with
      | some k => (.lpar, 0) :: (.tname, k) :: fuse W id tn n (ts.dropWhile (typePart W))
      | none => (.lpar, 0) :: (.other, 0) :: fuse W id tn n (ts.dropWhile (typePart W))
    else lxOf id t :: fuse W id tn n ts

inductive Err
  | lex (e : Lex.Err)
  | parse (e : Parse.Err)
  | expr (e : Expr.Err)
  /-- `errorLongExpr` -/
  | long
  | gen

/-- `ParseExpr` (smlrc.c:5598-5775) and `GenExpr` on the text `s`, which begins on line `line`, with the limits `cap` of stacks; `lab` is `LabelCnt`.  The result has the token after the expression, the type of the expression, and code. -/
def compile {α : Type} (gen : List Cg.T → Option α) (T : Lex.Cfg) (c : Expr.Cfg) (nm : Nat → V) (id : Str → Nat) (tn : List Token → Option Nat) (cap : Parse.Cap) (fuel : Nat) (s : Str) (line lab : Nat) :
    Except Err (Parse.Lx × Ty × α) :=
  match tokens T fuel s line with
  | .error e => .error (.lex e)
  | .ok ts =>
    match Parse.parse cap fuel false ⟨fuse c.W id tn (ts.length + 1) (ts.map Prod.fst), [], []⟩ with
    | .error .long => .error .long
    | .error e => .error (.parse e)
    | .ok ((t, _), ps) =>
      match Expr.exprval c fuel (ps.stk.length - 1) ⟨ps.stk.map (Trans.lx nm), lab, []⟩ with
      | .error .long => .error .long
      | .error e => .error (.expr e)
      | .ok (r, st) =>
        match gen (st.stack.map Trans.tk) with
        | none => .error .gen
        | some code => .ok (t, r.ty, code)

/-- an expression whose value is used, for x86 -/
def x86 (W : Nat) (S : List Cg.T) : Option (List Cg.Ins) := Cg.genExpr W S

/-- the same for MIPS; it ends with `tokReturn` -/
def mips (S : List Cg.T) : Option (List Mips.Ins) := Mips.genExpr (S ++ [(.ret, 0)])

end Smlr.Text
