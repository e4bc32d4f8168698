import Verif.Cg.Spec
import Verif.Expr.Tree
set_option autoImplicit false
/-! What a C expression with integers and pointers means: its type, and the operations that it stands for, as a tree of operations on words (`Cg.E`, whose evaluation is `Cg.Steps`).
Nothing is computed here: every operator of the expression becomes one of the tree, and implicit conversions, the scaling of pointer arithmetic and the loads from objects become explicit.
Objects are used by their addresses.  The constraints of C on the types of operands are here, except that pointers may be compared with and subtracted from pointers to other types, and that any pointer or number may be assigned to any object that is not an array. -/
namespace Smlr.Trans
open Smlr.Expr (Ty Sym Cfg V)

/-! ### types -/

/-- number of bytes -/
def size (W : Nat) : Ty → Nat
  | .void => 0
  | .char | .schar | .uchar => 1
  | .short | .ushort => 2
  | .int | .uint | .ptr _ => W
  | .arr n t => n * size W t

/-- types of objects.  Objects fit into memory; with words of 2 bytes, `short` is another name of `int` (smlrc.c:7089-7095) -/
def obj (W : Nat) : Ty → Bool
  | .void => false
  | .short | .ushort => W = 4
  | .arr n t => 0 < n && obj W t && n * size W t < 2 ^ (8 * W)
  | _ => true

/-- integer types -/
def int : Ty → Bool
  | .char | .schar | .uchar | .short | .ushort | .int | .uint => true
  | _ => false

def array : Ty → Bool
  | .arr _ _ => true
  | _ => false

/-- the type of the value: that of an array is the address of its first element -/
def rty : Ty → Ty
  | .arr _ t => .ptr t
  | t => t

/-- integer promotions and usual arithmetic conversions: only `unsigned` is not changed to `int` -/
def common (a b : Ty) : Ty := if a = .uint ∨ b = .uint then .uint else .int

/-- how objects are accessed: the number of bytes, negative for signed types that are narrower than a word -/
def acc (c : Cfg) : Ty → Int
  | .char => if c.charSigned then -1 else 1
  | .schar => -1
  | .uchar => 1
  | .short => -2
  | .ushort => 2
  | _ => c.W

/-- conversion to a type -/
def convert (c : Cfg) (t : Ty) (x : Cg.E) : Cg.E :=
  match t with
  | .void => .un .void x
  | .char => .un (if c.charSigned then .schar else .uchar) x
  | .schar => .un .schar x
  | .uchar => .un .uchar x
  | .short => .un .short x
  | .ushort => .un .ushort x
  | _ => x

/-! ### operators -/

/-- binary operators; `u`: the common type is unsigned, `lu`: the promoted left operand is -/
def binOp (u lu : Bool) : Expr.Tok → Option Cg.Ar
  | .mul => some .mul
  | .div => some (if u then .udiv else .div)
  | .mod => some (if u then .umod else .mod)
  | .shl => some .shl
  | .shr => some (if lu then .shr else .sar)
  | .and => some .band
  | .xor => some .xor
  | .or => some .bor
  | _ => none

/-- the operator of a compound assignment -/
def asgOp (u lu : Bool) : Expr.Tok → Option Cg.Ar
  | .aMul => some .mul
  | .aDiv => some (if u then .udiv else .div)
  | .aMod => some (if u then .umod else .mod)
  | .aAdd => some .add
  | .aSub => some .sub
  | .aShl => some .shl
  | .aShr => some (if lu then .shr else .sar)
  | .aAnd => some .band
  | .aXor => some .xor
  | .aOr => some .bor
  | _ => none

/-- comparisons; `u`: unsigned -/
def relOp (u : Bool) : Expr.Tok → Option Cg.Cc
  | .lt => some (if u then .ult else .lt)
  | .gt => some (if u then .ugt else .gt)
  | .le => some (if u then .ule else .le)
  | .ge => some (if u then .uge else .ge)
  | .eq => some .eq
  | .ne => some .ne
  | _ => none

def unOp : Expr.Tok → Option Cg.Un
  | .not => some .not
  | .uplus => some .plus
  | .neg => some .neg
  | _ => none

/-- `+` and `-` -/
def addOp : Expr.Tok → Option Cg.Ar
  | .plus => some .add
  | .minus => some .sub
  | _ => none

/-! ### the meaning of expressions -/

/-- the meaning of an expression -/
structure D where
  ty : Ty
  x : Cg.E
  /-- of an lvalue, the address -/
  loc : Option Cg.E := none
  /-- a null pointer constant: 0 or `(void *)0` (other constant expressions that are zero are not taken for one) -/
  npc : Bool := false
  /-- a pointer that `?:` may have made of a null pointer constant: arithmetic with it is not defined -/
  nul : Bool := false

/-- the object of type `t` at the address `a` -/
def object (c : Cfg) (t : Ty) (a : Cg.E) : Option D :=
  if obj c.W t then some ⟨t, if array t then a else .deref (acc c t) a, some a, false, false⟩ else none

def dId (c : Cfg) (s : V) : Option D :=
  match c.env s with
  | some (.enumConst v) => some { ty := .int, x := .num v.toInt }
  | some (.localVar o t) => object c t (.loc o.toInt)
  | some (.globalVar t) => object c t (.glob s.toInt)
  | _ => none

def dCast (c : Cfg) (t : Ty) (d : D) : Option D :=
  if t = .void ∨ (obj c.W t ∧ ¬ array t ∧ d.ty ≠ .void) then some { ty := t, x := convert c t d.x, npc := t = .ptr .void ∧ d.npc ∧ int d.ty } else none

def dSizeof (c : Cfg) (d : D) : Option D := if obj c.W d.ty then some { ty := .uint, x := .num (size c.W d.ty) } else none

def dAddr (d : D) : Option D := d.loc.map fun a => { ty := .ptr d.ty, x := a }

def dDeref (c : Cfg) (d : D) : Option D :=
  match rty d.ty with
  | .ptr t => object c t d.x
  | _ => none

/-- `n` is added by `++`: one, or the size of what a pointer points to -/
def incBy (c : Cfg) (t : Ty) : Option Int :=
  match t with
  | .ptr t => if obj c.W t then some (size c.W t) else none
  | t => if int t then some 1 else none

/-- `++E` is `E += 1` -/
def dInc (c : Cfg) (tok : Expr.Tok) (d : D) : Option D :=
  d.loc.bind fun a => (incBy c d.ty).bind fun n =>
    match tok with
    | .inc => some { ty := d.ty, x := .asgo .add (acc c d.ty) a (.num n) }
    | .dec => some { ty := d.ty, x := .asgo .sub (acc c d.ty) a (.num n) }
    | .pinc => some { ty := d.ty, x := .padd false (acc c d.ty) n a }
    | .pdec => some { ty := d.ty, x := .padd true (acc c d.ty) n a }
    | _ => none

def dUn (tok : Expr.Tok) (d : D) : Option D := (unOp tok).bind fun o => if int d.ty then some { ty := common d.ty d.ty, x := .un o d.x } else none

/-- a number of elements, as a number of bytes -/
def scaled (c : Cfg) (t : Ty) (x : Cg.E) : Cg.E := .bin .mul x (.num (size c.W t))

def dAdd (c : Cfg) (tok : Expr.Tok) (l r : D) : Option D :=
  (addOp tok).bind fun o =>
    match rty l.ty, rty r.ty with
    | .ptr t, .ptr t' => if o = .sub ∧ obj c.W t ∧ obj c.W t' ∧ size c.W t = size c.W t' then some { ty := .int, x := .bin .div (.bin .sub l.x r.x) (.num (size c.W t)) } else none
    | .ptr t, u => if obj c.W t ∧ int u ∧ ¬ l.nul then some { ty := .ptr t, x := .bin o l.x (scaled c t r.x) } else none
    | u, .ptr t => if o = .add ∧ obj c.W t ∧ int u ∧ ¬ r.nul then some { ty := .ptr t, x := .bin o (scaled c t l.x) r.x } else none
    | u, v => if int u ∧ int v then some { ty := common u v, x := .bin o l.x r.x } else none

/-- the type of the result of a shift is that of its left operand -/
def dBin (tok : Expr.Tok) (l r : D) : Option D :=
  (binOp (common l.ty r.ty = .uint) (l.ty = .uint) tok).bind fun o =>
    if int l.ty ∧ int r.ty then some { ty := if tok = .shl ∨ tok = .shr then common l.ty l.ty else common l.ty r.ty, x := .bin o l.x r.x } else none

/-- pointers are compared as unsigned numbers; with an integer only if that is 0 -/
def relOk (tok : Expr.Tok) (l r : D) : Bool :=
  match rty l.ty, rty r.ty with
  | .ptr _, .ptr _ => true
  | .ptr _, u => (tok = .eq || tok = .ne) && int u && r.npc
  | u, .ptr _ => (tok = .eq || tok = .ne) && int u && l.npc
  | u, v => int u && int v

def dRel (tok : Expr.Tok) (l r : D) : Option D :=
  (relOp (!(int (rty l.ty) && int (rty r.ty)) || common l.ty r.ty = .uint) tok).bind fun o =>
    if relOk tok l r then some { ty := .int, x := .cmp o l.x r.x } else none

def dLogic (isAnd : Bool) (l r : D) : Option D :=
  if l.ty = .void ∨ r.ty = .void then none else some { ty := .int, x := if isAnd then .land 0 l.x r.x else .lor 0 l.x r.x }

/-- the right operand must not be an array (see `c46_comma_defect`) -/
def dComma (l r : D) : Option D := if array r.ty then none else some { ty := r.ty, x := .comma l.x r.x, nul := r.nul }

def dAssign (c : Cfg) (l r : D) : Option D :=
  l.loc.bind fun a => if array l.ty ∨ r.ty = .void then none else some { ty := l.ty, x := .asg (acc c l.ty) a r.x }

def dCompound (c : Cfg) (tok : Expr.Tok) (l r : D) : Option D :=
  l.loc.bind fun a => (asgOp (common l.ty r.ty = .uint) (l.ty = .uint) tok).bind fun o =>
    if ¬ int r.ty then none
    else match l.ty with
      | .ptr t => if obj c.W t ∧ (tok = .aAdd ∨ tok = .aSub) then some { ty := l.ty, x := .asgo o (acc c l.ty) a (scaled c t r.x) } else none
      | t => if int t then some { ty := t, x := .asgo o (acc c t) a r.x } else none

/-- the type of `?:`; `nl`, `nr`: null pointer constants, `vl`, `vr`: objects -/
def condType (l r : Ty) (nl nr vl vr : Bool) : Option Ty :=
  match l, r with
  | .void, .void => some .void
  | .ptr a, .ptr b =>
    if a = b then some (.ptr a)
    else if a = .void then if nl then some (.ptr b) else if vl then some (.ptr .void) else none
    else if b = .void then if nr then some (.ptr a) else if vr then some (.ptr .void) else none
    else none
  | .ptr a, u => if int u ∧ nr then some (.ptr a) else none
  | u, .ptr b => if int u ∧ nl then some (.ptr b) else none
  | u, v => if int u ∧ int v then some (common u v) else none

def dCond (cd m r : D) : Option D :=
  if cd.ty = .void then none
  else (condType (rty m.ty) (rty r.ty) m.npc r.npc (m.loc.isSome && !array m.ty) (r.loc.isSome && !array r.ty)).map fun t =>
    { ty := t, x := .cond 0 cd.x m.x r.x, nul := !int t && (int m.ty || int r.ty || m.nul || r.nul) }

/-- the meaning of an expression, as the parser has left it -/
def den (c : Cfg) : Expr.E → Option D
  | .num u v => some { ty := if u then .uint else .int, x := .num v.toInt, npc := v = 0#32 }
  | .id s => dId c s
  | .cast s e => (den c e).bind fun d => match c.env s with
    | some (.cast t) => dCast c t d
    | _ => none
  | .sizeof e => (den c e).bind (dSizeof c)
  | .addr e => (den c e).bind dAddr
  | .deref e => (den c e).bind (dDeref c)
  | .inc tok e => (den c e).bind (dInc c tok)
  | .un tok e => (den c e).bind (dUn tok)
  | .bool _ => none
  | .add tok l r => (den c l).bind fun a => (den c r).bind fun b => dAdd c tok a b
  | .bin tok l r => (den c l).bind fun a => (den c r).bind fun b => dBin tok a b
  | .rel tok l r => (den c l).bind fun a => (den c r).bind fun b => dRel tok a b
  | .logic isAnd l r => (den c l).bind fun a => (den c r).bind fun b => dLogic isAnd a b
  | .comma l r => (den c l).bind fun a => (den c r).bind fun b => dComma a b
  | .assign l r => (den c l).bind fun a => (den c r).bind fun b => dAssign c a b
  | .compound tok l r => (den c l).bind fun a => (den c r).bind fun b => dCompound c tok a b
  | .cond k m r => (den c k).bind fun a => (den c m).bind fun b => (den c r).bind fun d => dCond a b d

/-- how many labels an expression needs -/
def labels : Expr.E → Nat
  | .num _ _ | .id _ => 0
  | .cast _ e | .sizeof e | .addr e | .deref e | .inc _ e | .un _ e | .bool e => labels e
  | .add _ l r | .bin _ l r | .rel _ l r | .compound _ l r | .comma l r | .assign l r => labels l + labels r
  | .logic _ l r => labels l + labels r + 1
  | .cond c m r => labels c + labels m + labels r + 2

/-! ### the stack that the code generator gets -/

/-- unary operators; `push` for tokens that are none -/
def unTok : Expr.Tok → Cg.Tok
  | .uplus => .uplus
  | .not => .not
  | .neg => .neg
  | .bool => .bool
  | .uchar => .uchar
  | .schar => .schar
  | .short => .tshort
  | .ushort => .tushort
  | .void => .void
  | _ => .push

/-- the tokens of `exprval` as those of `GenExpr1`.  The value that comes with a unary operator is not used there (cgx86.c:1912-1975) -/
def tk (p : Expr.Tok × V) : Cg.T :=
  match p.1 with
  | .numInt | .numUint => (.num, p.2.toInt)
  | .ident => (.ident, p.2.toInt)
  | .localOfs => (.locl, p.2.toInt)
  | .star => (.star, p.2.toInt)
  | .plus => (.ar .add, 0)
  | .minus => (.ar .sub, 0)
  | .mul => (.ar .mul, 0)
  | .div => (.ar .div, 0)
  | .mod => (.ar .mod, 0)
  | .udiv => (.ar .udiv, 0)
  | .umod => (.ar .umod, 0)
  | .shl => (.ar .shl, 0)
  | .shr => (.ar .sar, 0)
  | .ushr => (.ar .shr, 0)
  | .and => (.ar .band, 0)
  | .xor => (.ar .xor, 0)
  | .or => (.ar .bor, 0)
  | .lt => (.cmp .lt, 0)
  | .gt => (.cmp .gt, 0)
  | .le => (.cmp .le, 0)
  | .ge => (.cmp .ge, 0)
  | .eq => (.cmp .eq, 0)
  | .ne => (.cmp .ne, 0)
  | .ult => (.cmp .ult, 0)
  | .ugt => (.cmp .ugt, 0)
  | .ule => (.cmp .ule, 0)
  | .uge => (.cmp .uge, 0)
  | .inc => (.inc, p.2.toInt)
  | .dec => (.dec, p.2.toInt)
  | .pinc => (.pinc, p.2.toInt)
  | .pdec => (.pdec, p.2.toInt)
  | .padd => (.padd, p.2.toInt)
  | .psub => (.psub, p.2.toInt)
  | .assign => (.asg, p.2.toInt)
  | .aAdd => (.asgo .add, p.2.toInt)
  | .aSub => (.asgo .sub, p.2.toInt)
  | .aMul => (.asgo .mul, p.2.toInt)
  | .aDiv => (.asgo .div, p.2.toInt)
  | .aMod => (.asgo .mod, p.2.toInt)
  | .aUDiv => (.asgo .udiv, p.2.toInt)
  | .aUMod => (.asgo .umod, p.2.toInt)
  | .aShl => (.asgo .shl, p.2.toInt)
  | .aShr => (.asgo .sar, p.2.toInt)
  | .aUShr => (.asgo .shr, p.2.toInt)
  | .aAnd => (.asgo .band, p.2.toInt)
  | .aXor => (.asgo .xor, p.2.toInt)
  | .aOr => (.asgo .bor, p.2.toInt)
  | .land => (.logAnd, p.2.toInt)
  | .lor => (.logOr, p.2.toInt)
  | .shortCirc => (.short, p.2.toInt)
  | .goto => (.goto, p.2.toInt)
  | .comma => (.comma, 0)
  | t => (unTok t, 0)

end Smlr.Trans
