import Verif.Parse.Model
set_option autoImplicit false
/-! The grammar of C expressions (C99 6.5), as a derivation relation between token lists and trees.  It does not use the precedence table of the parser. -/
namespace Smlr.Parse.Spec

inductive UOp | addr | deref | plus | minus | compl | lnot
inductive BOp | mul | div | mod | add | sub | shl | shr | lt | gt | le | ge | eq | ne | and | xor | or | land | lor
inductive AOp | set | mul | div | mod | add | sub | shl | shr | and | xor | or

inductive Lit | int | uint | float | wide | str

/-- expression trees.  `none`, `one`, `more` are argument lists -/
inductive Ex
  | lit (k : Lit) (v : Nat)
  | id (v : Nat)
  | index (a i : Ex)
  | call (f args : Ex)
  | dot (a : Ex) (m : Nat)
  | arrow (a : Ex) (m : Nat)
  | postfix (dec : Bool) (a : Ex)
  | pre (dec : Bool) (a : Ex)
  | un (op : UOp) (a : Ex)
  | sizeofExpr (a : Ex)
  | sizeofType (t : Nat)
  | cast (t : Nat) (a : Ex)
  | bin (op : BOp) (a b : Ex)
  | cond (a b c : Ex)
  | assign (op : AOp) (a b : Ex)
  | comma (a b : Ex)
  | none
  | one (a : Ex)
  | more (a rest : Ex)

def UOp.tk : UOp → Tk
  | .addr => .amp | .deref => .star | .plus => .plus | .minus => .minus | .compl => .tilde | .lnot => .excl

def BOp.tk : BOp → Tk
  | .mul => .star | .div => .slash | .mod => .percent | .add => .plus | .sub => .minus | .shl => .shl | .shr => .shr
  | .lt => .lt | .gt => .gt | .le => .le | .ge => .ge | .eq => .eq | .ne => .ne | .and => .amp | .xor => .xor | .or => .or | .land => .land | .lor => .lor

def AOp.tk : AOp → Tk
  | .set => .assign | .mul => .aMul | .div => .aDiv | .mod => .aMod | .add => .aAdd | .sub => .aSub | .shl => .aShl | .shr => .aShr
  | .and => .aAnd | .xor => .aXor | .or => .aOr

def Lit.tk : Lit → Tk
  | .int => .numInt | .uint => .numUint | .float => .numFloat | .wide => .numWide | .str => .litStr

/-- the rule of the grammar that the operator belongs to: 13 multiplicative, 12 additive, 11 shift, 10 relational, 9 equality, 8 AND, 7 exclusive OR, 6 inclusive OR, 5 logical AND,
4 logical OR -/
def BOp.level : BOp → Nat
  | .mul | .div | .mod => 13
  | .add | .sub => 12
  | .shl | .shr => 11
  | .lt | .gt | .le | .ge => 10
  | .eq | .ne => 9
  | .and => 8
  | .xor => 7
  | .or => 6
  | .land => 5
  | .lor => 4

/-- Derivations.  Levels: 17 primary, 16 postfix, 15 unary, 14 cast, 13 to 4 binary operators, 3 conditional, 2 assignment, 1 expression; 0 is a nonempty argument list -/
inductive D : Nat → List Lx → Ex → Prop
  | lit (k : Lit) (v : Nat) (hk : k.tk ≠ .litStr) : D 17 [(k.tk, v)] (.lit k v)
  /-- adjacent string literals are one -/
  | str (v : Nat) (more : List Lx) (h : ∀ x ∈ more, x.1 = .litStr) : D 17 ((.litStr, v) :: more) (.lit .str v)
  | id (v : Nat) : D 17 [(.ident, v)] (.id v)
  | paren {ts : List Lx} {e : Ex} (h : D 1 ts e) : D 17 ((.lpar, 0) :: ts ++ [(.rpar, 0)]) e
  | index {ts ti : List Lx} {a i : Ex} (ha : D 16 ts a) (hi : D 1 ti i) : D 16 (ts ++ (.lbrk, 0) :: ti ++ [(.rbrk, 0)]) (.index a i)
  | call0 {ts : List Lx} {f : Ex} (hf : D 16 ts f) : D 16 (ts ++ [(.lpar, 0), (.rpar, 0)]) (.call f .none)
  | call {ts ta : List Lx} {f as : Ex} (hf : D 16 ts f) (ha : D 0 ta as) : D 16 (ts ++ (.lpar, 0) :: ta ++ [(.rpar, 0)]) (.call f as)
  | dot {ts : List Lx} {a : Ex} (m : Nat) (h : D 16 ts a) : D 16 (ts ++ [(.dot, 0), (.ident, m)]) (.dot a m)
  | arrow {ts : List Lx} {a : Ex} (m : Nat) (h : D 16 ts a) : D 16 (ts ++ [(.arrow, 0), (.ident, m)]) (.arrow a m)
  | postfix {ts : List Lx} {a : Ex} (dec : Bool) (h : D 16 ts a) : D 16 (ts ++ [(if dec then .dec else .inc, 0)]) (.postfix dec a)
  | pre {ts : List Lx} {a : Ex} (dec : Bool) (h : D 15 ts a) : D 15 ((if dec then .dec else .inc, 0) :: ts) (.pre dec a)
  | un {ts : List Lx} {a : Ex} (op : UOp) (h : D 14 ts a) : D 15 ((op.tk, 0) :: ts) (.un op a)
  | sizeofExpr {ts : List Lx} {a : Ex} (h : D 15 ts a) : D 15 ((.sizeof, 0) :: ts) (.sizeofExpr a)
  | sizeofType (t : Nat) : D 15 [(.sizeof, 0), (.lpar, 0), (.tname, t), (.rpar, 0)] (.sizeofType t)
  | cast {ts : List Lx} {a : Ex} (t : Nat) (h : D 14 ts a) : D 14 ((.lpar, 0) :: (.tname, t) :: (.rpar, 0) :: ts) (.cast t a)
  | bin {ts ts' : List Lx} {a b : Ex} (op : BOp) (ha : D op.level ts a) (hb : D (op.level + 1) ts' b) : D op.level (ts ++ (op.tk, 0) :: ts') (.bin op a b)
  | cond {tc tm tr : List Lx} {a b c : Ex} (hc : D 4 tc a) (hm : D 1 tm b) (hr : D 3 tr c) : D 3 (tc ++ (.quest, 0) :: tm ++ (.colon, 0) :: tr) (.cond a b c)
  | assign {ts ts' : List Lx} {a b : Ex} (op : AOp) (ha : D 15 ts a) (hb : D 2 ts' b) : D 2 (ts ++ (op.tk, 0) :: ts') (.assign op a b)
  | comma {ts ts' : List Lx} {a b : Ex} (ha : D 1 ts a) (hb : D 2 ts' b) : D 1 (ts ++ (.comma, 0) :: ts') (.comma a b)
  /-- `multiplicative-expression: cast-expression` and the like -/
  | up {p : Nat} {ts : List Lx} {e : Ex} (hp : 1 ≤ p) (h : D (p + 1) ts e) : D p ts e
  | one {ts : List Lx} {a : Ex} (h : D 2 ts a) : D 0 ts (.one a)
  | more {ts ts' : List Lx} {a r : Ex} (ha : D 2 ts a) (hr : D 0 ts' r) : D 0 (ts ++ (.comma, 0) :: ts') (.more a r)

/-! ### the form in which the parser leaves a tree: reverse Polish notation -/

def UOp.post : UOp → List Lx
  | .addr => [(.uAnd, 0)]
  | .deref => [(.uStar, 0)]
  | .plus => [(.uPlus, 0)]
  | .minus => [(.uMinus, 0)]
  | .compl => [(.tilde, 0)]
  /- `!x` is `x == 0` -/
  | .lnot => [(.numInt, 0), (.eq, 0)]

/-- `a[i]` is `*(a + i)`, `a.m` is `(&a)->m`; the operands of `?:` stand in the order first, third, second; a call is in brackets, with the arguments from the last to the first
and the function behind them -/
def Ex.post : Ex → List Lx
  | .lit k v => [(k.tk, v)]
  | .id v => [(.ident, v)]
  | .index a i => a.post ++ i.post ++ [(.plus, 0), (.uStar, 0)]
  | .call f as => (.lpar, 0) :: as.post ++ f.post ++ [(.rpar, 0)]
  | .dot a m => a.post ++ [(.uAnd, 0), (.ident, m), (.arrow, 0), (.uStar, 0)]
  | .arrow a m => a.post ++ [(.ident, m), (.arrow, 0), (.uStar, 0)]
  | .postfix dec a => a.post ++ [(if dec then .postDec else .postInc, 0)]
  | .pre dec a => a.post ++ [(if dec then .dec else .inc, 0)]
  | .un op a => a.post ++ op.post
  | .sizeofExpr a => a.post ++ [(.sizeof, 0)]
  | .sizeofType t => [(.sizeName, t), (.sizeof, 0)]
  | .cast t a => a.post ++ [(.castName, t)]
  | .bin op a b => a.post ++ b.post ++ [(op.tk, 0)]
  | .cond a b c => a.post ++ c.post ++ b.post ++ [(.quest, 0)]
  | .assign op a b => a.post ++ b.post ++ [(op.tk, 0)]
  | .comma a b => a.post ++ b.post ++ [(.commaOp, 0)]
  | .none => []
  | .one a => a.post
  | .more a r => r.post ++ (.comma, 0) :: a.post

/-- a token that can follow an expression, in the places where expressions are used -/
def stop : Tk → Prop
  | .eof | .comma | .semi | .colon | .rpar | .rbrk | .rbrace => True
  | _ => False

end Smlr.Parse.Spec
