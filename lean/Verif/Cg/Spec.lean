import Verif.Cg.Tree
set_option autoImplicit false
/-! What an expression means in C: small steps that evaluate unsequenced operands in any order, interleaved in any way.  Values are words; arithmetic wraps around. -/
namespace Smlr.Cg

/-- where objects are: the addresses of identifiers, the frame pointer, and the bytes that belong to objects -/
structure Env (W : Nat) where
  G : Int → Wd W
  bp : Wd W
  A : Wd W → Prop

variable {W : Nat}

/-- the word for a number -/
abbrev wd (W : Nat) (v : Int) : Wd W := BitVec.ofInt (8 * W) v

/-- an object of a size can be accessed at an address -/
def Acc (A : Wd W → Prop) (a : Wd W) (sz : Int) : Prop := ∀ i < sz.natAbs, A (a + BitVec.ofNat _ i)

/-- conversion to the type of an object: the value of the type that is congruent modulo 256 to the number of bytes -/
def conv (sz : Int) (x : Int) : Int :=
  if 0 < sz then x % 256 ^ sz.natAbs else Int.bmod x (256 ^ sz.natAbs)

/-- the value of the object at an address -/
def val (m : Mem W) (a : Wd W) (sz : Int) : Int := conv sz (ld m a sz.natAbs)

/-- memory after storing a value -/
def upd (m : Mem W) (a : Wd W) (sz : Int) (x : Wd W) : Mem W := st m a sz.natAbs x.toNat

/-- the value of an operator; `none` where C says that the behaviour is undefined (overflow is not: it wraps around) -/
def arith (o : Ar) (x y : Wd W) : Option Int :=
  match o with
  | .add => some (x.toInt + y.toInt)
  | .sub => some (x.toInt - y.toInt)
  | .mul => some (x.toInt * y.toInt)
  | .div => if y.toInt = 0 ∨ (x.toInt = -2 ^ (8 * W - 1) ∧ y.toInt = -1) then none else some (Int.tdiv x.toInt y.toInt)
  | .mod => if y.toInt = 0 ∨ (x.toInt = -2 ^ (8 * W - 1) ∧ y.toInt = -1) then none else some (Int.tmod x.toInt y.toInt)
  | .udiv => if y.toNat = 0 then none else some (x.toNat / y.toNat : Nat)
  | .umod => if y.toNat = 0 then none else some (x.toNat % y.toNat : Nat)
  | .shl => if y.toNat < 8 * W then some (x.toInt * 2 ^ y.toNat) else none
  | .sar => if y.toNat < 8 * W then some (x.toInt / 2 ^ y.toNat) else none
  | .shr => if y.toNat < 8 * W then some (x.toNat / 2 ^ y.toNat : Nat) else none
  | .band => some ((x &&& y).toNat)
  | .xor => some ((x ^^^ y).toNat)
  | .bor => some ((x ||| y).toNat)

/-- comparisons -/
def rel (c : Cc) (x y : Wd W) : Bool :=
  match c with
  | .lt => x.toInt < y.toInt
  | .gt => x.toInt > y.toInt
  | .le => x.toInt ≤ y.toInt
  | .ge => x.toInt ≥ y.toInt
  | .ult => x.toNat < y.toNat
  | .ugt => x.toNat > y.toNat
  | .ule => x.toNat ≤ y.toNat
  | .uge => x.toNat ≥ y.toNat
  | .eq => x.toNat = y.toNat
  | .ne => x.toNat ≠ y.toNat

def b2i (b : Bool) : Int := if b then 1 else 0

/-- unary operators and conversions -/
def unary (u : Un) (x : Wd W) : Int :=
  match u with
  | .not => -x.toInt - 1
  | .plus => x.toInt
  | .neg => -x.toInt
  | .bool => b2i (x.toNat ≠ 0)
  | .void => x.toInt
  | .uchar => conv 1 x.toInt
  | .schar => conv (-1) x.toInt
  | .short => conv (-2) x.toInt
  | .ushort => conv 2 x.toInt

/-- one step of evaluation: an expression and memory become an expression and memory.  A value is `num`. -/
inductive Step (V : Env W) : E → Mem W → E → Mem W → Prop
  | glob (x : Int) (m : Mem W) : Step V (.glob x) m (.num (V.G x).toInt) m
  | loc (o : Int) (m : Mem W) : Step V (.loc o) m (.num (V.bp + wd W o).toInt) m
  | deref (sz a : Int) (m : Mem W) : Acc V.A (wd W a) sz → Step V (.deref sz (.num a)) m (.num (val m (wd W a) sz)) m
  | derefC {sz : Int} {e e' : E} {m m' : Mem W} : Step V e m e' m' → Step V (.deref sz e) m (.deref sz e') m'
  | un (u : Un) (v : Int) (m : Mem W) : Step V (.un u (.num v)) m (.num (unary u (wd W v))) m
  | unC {u : Un} {e e' : E} {m m' : Mem W} : Step V e m e' m' → Step V (.un u e) m (.un u e') m'
  /-- `++E` is `E += 1` -/
  | preInc (sz a : Int) (m : Mem W) :
    Step V (.inc .inc sz (.num a)) m (.asgo .add sz (.num a) (.num 1)) m
  | preDec (sz a : Int) (m : Mem W) :
    Step V (.inc .dec sz (.num a)) m (.asgo .sub sz (.num a) (.num 1)) m
  | postInc (sz a : Int) (m : Mem W) : Acc V.A (wd W a) sz →
    Step V (.inc .pinc sz (.num a)) m (.num (val m (wd W a) sz)) (upd m (wd W a) sz (wd W (val m (wd W a) sz + 1)))
  | postDec (sz a : Int) (m : Mem W) : Acc V.A (wd W a) sz →
    Step V (.inc .pdec sz (.num a)) m (.num (val m (wd W a) sz)) (upd m (wd W a) sz (wd W (val m (wd W a) sz - 1)))
  | incC {k : IncK} {sz : Int} {e e' : E} {m m' : Mem W} : Step V e m e' m' → Step V (.inc k sz e) m (.inc k sz e') m'
  | postAdd (sz n a : Int) (m : Mem W) : Acc V.A (wd W a) sz →
    Step V (.padd false sz n (.num a)) m (.num (val m (wd W a) sz)) (upd m (wd W a) sz (wd W (val m (wd W a) sz + n)))
  | postSub (sz n a : Int) (m : Mem W) : Acc V.A (wd W a) sz →
    Step V (.padd true sz n (.num a)) m (.num (val m (wd W a) sz)) (upd m (wd W a) sz (wd W (val m (wd W a) sz - n)))
  | paddC {b : Bool} {sz n : Int} {e e' : E} {m m' : Mem W} : Step V e m e' m' → Step V (.padd b sz n e) m (.padd b sz n e') m'
  | bin {o : Ar} {v w x : Int} (m : Mem W) : arith o (wd W v) (wd W w) = some x →
    Step V (.bin o (.num v) (.num w)) m (.num x) m
  | binL {o : Ar} {l l' r : E} {m m' : Mem W} : Step V l m l' m' → Step V (.bin o l r) m (.bin o l' r) m'
  | binR {o : Ar} {l r r' : E} {m m' : Mem W} : Step V r m r' m' → Step V (.bin o l r) m (.bin o l r') m'
  | cmp (c : Cc) (v w : Int) (m : Mem W) : Step V (.cmp c (.num v) (.num w)) m (.num (b2i (rel c (wd W v) (wd W w)))) m
  | cmpL {c : Cc} {l l' r : E} {m m' : Mem W} : Step V l m l' m' → Step V (.cmp c l r) m (.cmp c l' r) m'
  | cmpR {c : Cc} {l r r' : E} {m m' : Mem W} : Step V r m r' m' → Step V (.cmp c l r) m (.cmp c l r') m'
  | asg (sz a v : Int) (m : Mem W) : Acc V.A (wd W a) sz →
    Step V (.asg sz (.num a) (.num v)) m (.num (conv sz v)) (upd m (wd W a) sz (wd W v))
  | asgL {sz : Int} {l l' r : E} {m m' : Mem W} : Step V l m l' m' → Step V (.asg sz l r) m (.asg sz l' r) m'
  | asgR {sz : Int} {l r r' : E} {m m' : Mem W} : Step V r m r' m' → Step V (.asg sz l r) m (.asg sz l r') m'
  /-- `E op= F` is `E = E op F` with `E` evaluated once -/
  | asgo (o : Ar) (sz a : Int) (r : E) (m : Mem W) :
    Step V (.asgo o sz (.num a) r) m (.asg sz (.num a) (.bin o (.deref sz (.num a)) r)) m
  | asgoL {o : Ar} {sz : Int} {l l' r : E} {m m' : Mem W} : Step V l m l' m' → Step V (.asgo o sz l r) m (.asgo o sz l' r) m'
  | asgoR {o : Ar} {sz : Int} {l r r' : E} {m m' : Mem W} : Step V r m r' m' → Step V (.asgo o sz l r) m (.asgo o sz l r') m'
  | landF (lab v : Int) (r : E) (m : Mem W) : wd W v = 0 → Step V (.land lab (.num v) r) m (.num 0) m
  | landT (lab v : Int) (r : E) (m : Mem W) : wd W v ≠ 0 → Step V (.land lab (.num v) r) m (.un .bool r) m
  | landC {lab : Int} {l l' r : E} {m m' : Mem W} : Step V l m l' m' → Step V (.land lab l r) m (.land lab l' r) m'
  | lorT (lab v : Int) (r : E) (m : Mem W) : wd W v ≠ 0 → Step V (.lor lab (.num v) r) m (.num 1) m
  | lorF (lab v : Int) (r : E) (m : Mem W) : wd W v = 0 → Step V (.lor lab (.num v) r) m (.un .bool r) m
  | lorC {lab : Int} {l l' r : E} {m m' : Mem W} : Step V l m l' m' → Step V (.lor lab l r) m (.lor lab l' r) m'
  | condT (lab v : Int) (a b : E) (m : Mem W) : wd W v ≠ 0 → Step V (.cond lab (.num v) a b) m a m
  | condF (lab v : Int) (a b : E) (m : Mem W) : wd W v = 0 → Step V (.cond lab (.num v) a b) m b m
  | condC {lab : Int} {c c' a b : E} {m m' : Mem W} : Step V c m c' m' → Step V (.cond lab c a b) m (.cond lab c' a b) m'
  | comma (v : Int) (r : E) (m : Mem W) : Step V (.comma (.num v) r) m r m
  | commaC {l l' r : E} {m m' : Mem W} : Step V l m l' m' → Step V (.comma l r) m (.comma l' r) m'

/-- any number of steps -/
inductive Steps (V : Env W) : E → Mem W → E → Mem W → Prop
  | refl (e : E) (m : Mem W) : Steps V e m e m
  | step {e e₁ e₂ : E} {m m₁ m₂ : Mem W} : Step V e m e₁ m₁ → Steps V e₁ m₁ e₂ m₂ → Steps V e m e₂ m₂

/-- the behaviour is undefined now: an access to what is not an object, or an operation without a value, is due -/
inductive Ub (V : Env W) : E → Mem W → Prop
  | deref (sz a : Int) (m : Mem W) : ¬ Acc V.A (wd W a) sz → Ub V (.deref sz (.num a)) m
  | derefC {sz : Int} {e : E} {m : Mem W} : Ub V e m → Ub V (.deref sz e) m
  | unC {u : Un} {e : E} {m : Mem W} : Ub V e m → Ub V (.un u e) m
  | inc (k : IncK) (sz a : Int) (m : Mem W) : ¬ Acc V.A (wd W a) sz → Ub V (.inc k sz (.num a)) m
  | incC {k : IncK} {sz : Int} {e : E} {m : Mem W} : Ub V e m → Ub V (.inc k sz e) m
  | padd (b : Bool) (sz n a : Int) (m : Mem W) : ¬ Acc V.A (wd W a) sz → Ub V (.padd b sz n (.num a)) m
  | paddC {b : Bool} {sz n : Int} {e : E} {m : Mem W} : Ub V e m → Ub V (.padd b sz n e) m
  | bin (o : Ar) (v w : Int) (m : Mem W) : arith o (wd W v) (wd W w) = none → Ub V (.bin o (.num v) (.num w)) m
  | binL {o : Ar} {l r : E} {m : Mem W} : Ub V l m → Ub V (.bin o l r) m
  | binR {o : Ar} {l r : E} {m : Mem W} : Ub V r m → Ub V (.bin o l r) m
  | cmpL {c : Cc} {l r : E} {m : Mem W} : Ub V l m → Ub V (.cmp c l r) m
  | cmpR {c : Cc} {l r : E} {m : Mem W} : Ub V r m → Ub V (.cmp c l r) m
  | asg (sz a v : Int) (m : Mem W) : ¬ Acc V.A (wd W a) sz → Ub V (.asg sz (.num a) (.num v)) m
  | asgL {sz : Int} {l r : E} {m : Mem W} : Ub V l m → Ub V (.asg sz l r) m
  | asgR {sz : Int} {l r : E} {m : Mem W} : Ub V r m → Ub V (.asg sz l r) m
  | asgoL {o : Ar} {sz : Int} {l r : E} {m : Mem W} : Ub V l m → Ub V (.asgo o sz l r) m
  | asgoR {o : Ar} {sz : Int} {l r : E} {m : Mem W} : Ub V r m → Ub V (.asgo o sz l r) m
  | landC {lab : Int} {l r : E} {m : Mem W} : Ub V l m → Ub V (.land lab l r) m
  | lorC {lab : Int} {l r : E} {m : Mem W} : Ub V l m → Ub V (.lor lab l r) m
  | condC {lab : Int} {c a b : E} {m : Mem W} : Ub V c m → Ub V (.cond lab c a b) m
  | commaC {l r : E} {m : Mem W} : Ub V l m → Ub V (.comma l r) m

/-- no order of evaluation leads to undefined behaviour -/
def Safe (V : Env W) (e : E) (m : Mem W) : Prop := ∀ e' m', Steps V e m e' m' → ¬ Ub V e' m'

/-! ### Programs and the stack -/

/-- the labels of a program -/
def labs (P : List Ins) : List Int := P.filterMap fun i => match i with
  | .lab l => some l
  | _ => none

/-- the `d` words under the stack pointer -/
def Zone (sp : Wd W) (d : Nat) (a : Wd W) : Prop := ∃ k, 1 ≤ k ∧ k ≤ d * W ∧ a = sp - BitVec.ofNat _ k

/-- the words under the stack pointer do not belong to objects, and do not wrap around -/
structure StkOk (A : Wd W → Prop) (sp : Wd W) (d : Nat) : Prop where
  free : ∀ a, Zone sp d a → ¬ A a
  small : d * W < 2 ^ (8 * W)

/-! ### Expressions without side effects have one value -/

/-- no assignments -/
def E.pure : E → Bool
  | .num _ | .glob _ | .loc _ => true
  | .deref _ e | .un _ e => e.pure
  | .bin _ l r | .cmp _ l r | .land _ l r | .lor _ l r | .comma l r => l.pure && r.pure
  | .cond _ c a b => c.pure && a.pure && b.pure
  | .inc .. | .padd .. | .asg .. | .asgo .. => false

open Classical in
/-- the value of an expression without side effects, if it is defined -/
noncomputable def ev (V : Env W) (m : Mem W) : E → Option Int
  | .num v => some v
  | .glob x => some (V.G x).toInt
  | .loc o => some (V.bp + wd W o).toInt
  | .deref sz e => (ev V m e).bind fun a => if Acc V.A (wd W a) sz then some (val m (wd W a) sz) else none
  | .un u e => (ev V m e).map fun v => unary u (wd W v)
  | .bin o l r => (ev V m l).bind fun x => (ev V m r).bind fun y => arith o (wd W x) (wd W y)
  | .cmp c l r => (ev V m l).bind fun x => (ev V m r).map fun y => b2i (rel c (wd W x) (wd W y))
  | .land _ l r => (ev V m l).bind fun x => if wd W x = 0 then some 0 else (ev V m r).map fun y => b2i (wd W y ≠ 0)
  | .lor _ l r => (ev V m l).bind fun x => if wd W x = 0 then (ev V m r).map fun y => b2i (wd W y ≠ 0) else some 1
  | .cond _ c a b => (ev V m c).bind fun x => if wd W x = 0 then ev V m b else ev V m a
  | .comma l r => (ev V m l).bind fun _ => ev V m r
  | .inc .. | .padd .. | .asg .. | .asgo .. => none

end Smlr.Cg
