import Verif.Stmt.Props
import Verif.Trans.Props
import Verif.Mips.Spec
set_option autoImplicit false
/-! From the body of a function to x86 code: the code of statements (`Stmt.fxn`) with expressions as `exprval` leaves them, and what each piece of it is printed as. -/
namespace Smlr.Fn
open Smlr.Cg (Wd Mem Env Ins Safe Steps wd)

/-- An expression in a statement: what it means, the tree whose tokens are on the stack when `GenExpr` is called, and its value if `ParseExpr` has found it constant (`c47_exprval` says that there is one for what `exprval` makes of an expression).  Evaluation of the tree leads only to what evaluation of the expression may lead to. -/
structure Item (W : Nat) where
  den : Cg.E
  tree : Cg.E
  const : Option Int
  ok : tree.ok W
  /-- values of type `void` are not used -/
  typed : Mips.typed tree
  num : ∀ v, const = some v → tree = .num v
  ref : ∀ (V : Env W) (m : Mem W), Safe V den m → Safe V tree m ∧ ∀ v m', Steps V tree m (.num v) m' → ∃ w, wd W w = wd W v ∧ Steps V den m (.num w) m'

/-- `push(tokNumInt)`, smlrc.c:8430-8431 -/
def zero (W : Nat) : Item W where
  den := .num 0
  tree := .num 0
  const := some 0
  ok := trivial
  typed := trivial
  num := fun v h => by cases h; rfl
  ref := fun _ _ h => ⟨h, fun v _ hs => ⟨v, rfl, hs⟩⟩

/-- the comparison tokens, smlrc.c:9013-9022 -/
def isRel {W : Nat} (x : Item W × Cg.T) : Bool :=
  match x.2.1 with
  | .cmp _ => true
  | _ => false

/-- the stack; its elements know which expression they are from -/
def rpn {W : Nat} (i : Item W) : List (Item W × Cg.T) := (Cg.toks i.tree).map (i, ·)

/-- the language of statements (`Stmt.Model`) with expressions of words of `W` bytes; `truncInt` (smlrc.c:671-684) makes a signed word -/
@[reducible] def lang (W : Nat) : Stmt.Lang where
  E := Item W
  X := Item W × Cg.T
  rpn := rpn
  const := Item.const
  isRel := isRel
  trunc v := (wd W v).toInt
  zero := rpn (zero W)

/-- What is printed; `ρ` is the number that a label has in the output (`LabelCnt` is also increased for labels in expressions, which `Stmt.Model` does not count).
`GenNumLabel` (cgx86.c:199-206), `GenJumpUncond` (800-805), `GenJumpIfZero`, `GenJumpIfNotZero` (817-841), `GenExpr` with `tokIfNot`, `tokIf`, nothing or `tokReturn` on the top, `GenJumpIfEqual` (807-815) -/
def one {W : Nat} (ρ : Nat → Int) : Stmt.I (lang W).X → Option (List Ins)
  | .lab l => some [.lab (ρ l)]
  | .jmp l => some [.jmp (ρ l)]
  | .jz l => some (Cg.jumpIf W false (ρ l))
  | .jnz l => some (Cg.jumpIf W true (ρ l))
  | .ifNot e l => Cg.genExpr W (e.map Prod.snd ++ [(.ifN, ρ l)])
  | .ifYes e l => Cg.genExpr W (e.map Prod.snd ++ [(.ifT, ρ l)])
  | .eval e => Cg.genExpr W (e.map Prod.snd)
  | .evalR e => Cg.genExpr W (e.map Prod.snd ++ [(.ret, 0)])
  | .je v l => some (Cg.p2 W .cmp .ax (.imm v) ++ [.jcc .eq (ρ l)])

/-- the program -/
def print {W : Nat} (ρ : Nat → Int) : List (Stmt.I (lang W).X) → Option (List Ins)
  | [] => some []
  | i :: is => (one ρ i).bind fun a => (print ρ is).map (a ++ ·)

/-- the value of `return` on the stack, when `GenExpr` is called: smlrc.c:8828-8832 (no `void`), 8847 (`decayArray`), 8905-8956; `t` is the type that the function returns.  No structures, no floating-point types. -/
def ret (c : Expr.Cfg) (t : Expr.Ty) (r : Expr.Res) (S : List (Expr.Tok × Expr.V)) : Except Expr.Err (List (Expr.Tok × Expr.V)) :=
  if r.ty = .void then .error .type
  else match Expr.declSize c true t, Expr.declSize c true (Expr.decay r.ty) with
  | .ok castSize, .ok size =>
    if castSize ≠ c.W ∧ castSize ≠ size then
      if r.const then
        let v : Expr.V :=
          if castSize = 1 then r.s &&& 0xFF#32
          else if castSize = -1 then (if (r.s &&& 0xFF#32).toNat ≥ 0x80 then (r.s &&& 0xFF#32) - 0x100#32 else r.s &&& 0xFF#32)
          else if castSize = 2 then r.s &&& 0xFFFF#32
          else if castSize = -2 then (if (r.s &&& 0xFFFF#32).toNat ≥ 0x8000 then (r.s &&& 0xFFFF#32) - 0x10000#32 else r.s &&& 0xFFFF#32)
          else r.s
        .ok (match S with | (tok, _) :: S => (tok, v) :: S | [] => [])
      else
        let tok : Option Expr.Tok :=
          if castSize = 1 then some .uchar else if castSize = -1 then some .schar else if castSize = 2 then some .ushort else if castSize = -2 then some .short else none
        match tok with
        | none => .ok S
        | some tok => if S.length ≥ Expr.stackSize then .error .long else .ok (S ++ [(tok, 0#32)])
    else .ok (match r.const, S with | true, (tok, _) :: S => (tok, r.s) :: S | _, S => S)
  | .error e, _ => .error e
  | _, .error e => .error e

end Smlr.Fn
