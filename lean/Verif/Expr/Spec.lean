import Verif.Expr.Tree
set_option autoImplicit false
/-! What a constant expression means: types and values by the rules of C for a machine with words of `W` bytes, with two's complement arithmetic that wraps around. -/
namespace Smlr.Expr.Spec

/-- integer types -/
inductive IT
  | char | schar | uchar | short | ushort | int | uint
  deriving DecidableEq

/-- the number of bits -/
def IT.bits (W : Nat) : IT → Nat
  | .char | .schar | .uchar => 8
  | .short | .ushort => 16
  | .int | .uint => 8 * W

/-- `cs` tells that `char` is signed -/
def IT.signed (cs : Bool) : IT → Bool
  | .char => cs
  | .schar | .short | .int => true
  | .uchar | .ushort | .uint => false

/-- integer promotions: `int` has all values of the narrower types -/
def IT.prom : IT → IT
  | .uint => .uint
  | _ => .int

/-- the usual arithmetic conversions -/
def IT.usual (a b : IT) : IT := if a.prom = .uint ∨ b.prom = .uint then .uint else .int

inductive UOp
  | plus | neg | not | lnot
  deriving DecidableEq

inductive BOp
  | add | sub | mul | div | mod | shl | shr | and | xor | or
  deriving DecidableEq

inductive ROp
  | lt | gt | le | ge | eq | ne
  deriving DecidableEq

/-- constant expressions -/
inductive K
  /-- an integer constant; `u` tells that its type is `unsigned` -/
  | lit (u : Bool) (n : V)
  /-- an enumeration constant: its name and its value -/
  | enum (name : V) (n : V)
  | cast (t : IT) (k : K)
  | sizeof (k : K)
  | un (op : UOp) (k : K)
  | bin (op : BOp) (l r : K)
  | rel (op : ROp) (l r : K)
  | land (l r : K)
  | lor (l r : K)
  | cond (c m r : K)
  | comma (l r : K)

def K.typeOf : K → IT
  | .lit u _ => if u then .uint else .int
  | .enum _ _ => .int
  | .cast t _ => t
  | .sizeof _ => .uint
  | .un .lnot _ => .int
  | .un _ k => k.typeOf.prom
  | .bin .shl l _ | .bin .shr l _ => l.typeOf.prom
  | .bin _ l r => l.typeOf.usual r.typeOf
  | .rel _ _ _ | .land _ _ | .lor _ _ => .int
  | .cond _ m r => m.typeOf.usual r.typeOf
  | .comma _ r => r.typeOf

section
variable {w : Nat}

/-- conversion to a type of `bits` bits: the value modulo 2^bits, in the range of the type, as a word -/
def conv (bits : Nat) (signed : Bool) (v : BitVec w) : BitVec w :=
  if signed then BitVec.ofInt w ((v.toInt).bmod (2 ^ bits)) else BitVec.ofNat w (v.toNat % 2 ^ bits)

def bool (b : Bool) : BitVec w := if b then 1#w else 0#w

/-- the quotient does not exist or cannot be represented -/
def divOut (uns : Bool) (l r : BitVec w) : Bool := r = 0#w || (!uns && decide (l.toInt.tdiv r.toInt ≥ 2 ^ (w - 1)))

/-- the shift count is not in the range that C defines -/
def shiftOut (uns : Bool) (r : BitVec w) : Bool := if uns then decide (r.toNat ≥ w) else decide (r.toInt < 0 ∨ r.toInt ≥ w)

/-- `uns`: the common type is unsigned, `lu`: the promoted left operand is.  Shift counts out of range are taken modulo the number of bits -/
def binVal (op : BOp) (uns lu : Bool) (l r : BitVec w) : Option (BitVec w) :=
  match op with
  | .add => some (l + r)
  | .sub => some (l - r)
  | .mul => some (l * r)
  | .and => some (l &&& r)
  | .xor => some (l ^^^ r)
  | .or => some (l ||| r)
  | .div => if divOut uns l r then none else some (if uns then BitVec.ofNat w (l.toNat / r.toNat) else BitVec.ofInt w (l.toInt.tdiv r.toInt))
  | .mod => if divOut uns l r then none else some (if uns then BitVec.ofNat w (l.toNat % r.toNat) else BitVec.ofInt w (l.toInt.tmod r.toInt))
  | .shl => some (BitVec.ofNat w (l.toNat * 2 ^ (r.toNat % w)))
  | .shr => some (if lu then BitVec.ofNat w (l.toNat / 2 ^ (r.toNat % w)) else BitVec.ofInt w (l.toInt / 2 ^ (r.toNat % w)))

def relVal (op : ROp) (uns : Bool) (l r : BitVec w) : Bool :=
  let a : Int := if uns then l.toNat else l.toInt
  let b : Int := if uns then r.toNat else r.toInt
  match op with
  | .lt => a < b
  | .gt => b < a
  | .le => a ≤ b
  | .ge => b ≤ a
  | .eq => a = b
  | .ne => a ≠ b

def unVal (op : UOp) (v : BitVec w) : BitVec w :=
  match op with
  | .plus => v
  | .neg => - v
  | .not => ~~~ v
  | .lnot => bool (v = 0#w)
end

/-- the value as a word; `none` if a division that is evaluated has none -/
def K.value (W : Nat) (cs : Bool) : K → Option (BitVec (8 * W))
  | .lit _ n => some (BitVec.ofNat _ n.toNat)
  | .enum _ n => some (BitVec.ofNat _ n.toNat)
  | .cast t k => (k.value W cs).map (conv (t.bits W) (t.signed cs))
  | .sizeof k => some (BitVec.ofNat _ (k.typeOf.bits W / 8))
  | .un op k => (k.value W cs).map (unVal op)
  | .bin op l r => match l.value W cs, r.value W cs with
    | some a, some b => binVal op (l.typeOf.usual r.typeOf = .uint) (l.typeOf.prom = .uint) a b
    | _, _ => none
  | .rel op l r => match l.value W cs, r.value W cs with
    | some a, some b => some (bool (relVal op (l.typeOf.usual r.typeOf = .uint) a b))
    | _, _ => none
  | .land l r => match l.value W cs with
    | none => none
    | some a => if a = 0#_ then some 0#_ else (r.value W cs).map fun b => bool (b ≠ 0#_)
  | .lor l r => match l.value W cs with
    | none => none
    | some a => if a ≠ 0#_ then some 1#_ else (r.value W cs).map fun b => bool (b ≠ 0#_)
  | .cond c m r => match c.value W cs with
    | none => none
    | some a => if a ≠ 0#_ then m.value W cs else r.value W cs
  | .comma l r => match l.value W cs with
    | none => none
    | some _ => r.value W cs

/-- what an operator is warned about -/
def binDiag (W : Nat) (op : BOp) (uns ru : Bool) (l r : Option (BitVec (8 * W))) : List Warn :=
  match op, l, r with
  | .div, some a, some b | .mod, some a, some b => if divOut uns a b then [.div] else []
  | .div, none, some b | .mod, none, some b => if b = 0#_ then [.div] else []
  | .shl, _, some b | .shr, _, some b => if shiftOut ru b then [.shift] else []
  | _, _, _ => []

/-- the warnings, also those for operands that are not evaluated.  Right operands come first -/
def K.diag (W : Nat) (cs : Bool) : K → List Warn
  | .lit _ _ | .enum _ _ => []
  | .cast _ k | .sizeof k | .un _ k => k.diag W cs
  | .bin op l r => r.diag W cs ++ l.diag W cs ++ binDiag W op (l.typeOf.usual r.typeOf = .uint) (r.typeOf.prom = .uint) (l.value W cs) (r.value W cs)
  | .rel _ l r | .land l r | .lor l r | .comma l r => r.diag W cs ++ l.diag W cs
  | .cond c m r => m.diag W cs ++ r.diag W cs ++ c.diag W cs

/-- enumeration constants are declared; with 16-bit words `short` is another name of `int`, so that the type does not occur (smlrc.c:7089-7095) -/
def K.OK (c : Cfg) : K → Prop
  | .lit _ _ => True
  | .enum s n => c.env s = some (.enumConst n)
  | .cast t k => (c.W = 2 → t ≠ .short ∧ t ≠ .ushort) ∧ k.OK c
  | .sizeof k | .un _ k => k.OK c
  | .bin _ l r | .rel _ l r | .land l r | .lor l r | .comma l r => l.OK c ∧ r.OK c
  | .cond a b d => a.OK c ∧ b.OK c ∧ d.OK c

/-! ### the expression as the parser leaves it -/

def IT.toTy : IT → Ty
  | .char => .char | .schar => .schar | .uchar => .uchar | .short => .short | .ushort => .ushort | .int => .int | .uint => .uint

def BOp.tok : BOp → Tok
  | .add => .plus | .sub => .minus | .mul => .mul | .div => .div | .mod => .mod | .shl => .shl | .shr => .shr | .and => .and | .xor => .xor | .or => .or

def ROp.tok : ROp → Tok
  | .lt => .lt | .gt => .gt | .le => .le | .ge => .ge | .eq => .eq | .ne => .ne

/-- `nm` gives the names of types.  `!x` is parsed as `x == 0` (smlrc.c:2660-2664) -/
def K.toE (nm : IT → V) : K → E
  | .lit u n => .num u n
  | .enum s _ => .id s
  | .cast t k => .cast (nm t) (k.toE nm)
  | .sizeof k => .sizeof (k.toE nm)
  | .un .plus k => .un .uplus (k.toE nm)
  | .un .neg k => .un .neg (k.toE nm)
  | .un .not k => .un .not (k.toE nm)
  | .un .lnot k => .rel .eq (k.toE nm) (.num false 0#32)
  | .bin .add l r => .add .plus (l.toE nm) (r.toE nm)
  | .bin .sub l r => .add .minus (l.toE nm) (r.toE nm)
  | .bin op l r => .bin op.tok (l.toE nm) (r.toE nm)
  | .rel op l r => .rel op.tok (l.toE nm) (r.toE nm)
  | .land l r => .logic true (l.toE nm) (r.toE nm)
  | .lor l r => .logic false (l.toE nm) (r.toE nm)
  | .cond c m r => .cond (c.toE nm) (m.toE nm) (r.toE nm)
  | .comma l r => .comma (l.toE nm) (r.toE nm)

end Smlr.Expr.Spec
