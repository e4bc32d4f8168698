set_option autoImplicit false
/-! Model of the processing of a parsed expression, `exprval` (smlrc.c:3570-5595), with the functions it uses: `truncUint`, `truncInt` (685-717), `ins2`, `del` (2427-2453),
`isAnyPtr` to `simplifyConstExpr` (3034-3544), `GetDeclSize` (6342-6437).  The expression is on the stack in reverse Polish notation, as `expr` leaves it there; `exprval` works on it
in place.  Left out: floating point, structures, functions and their calls, string literals, wide characters, `__func__`. -/
namespace Smlr.Expr

/-- the host's `int` -/
abbrev V := BitVec 32

/-- tokens on the expression stack; those from `opNumInt` on are used by the code generator only (cgx86.c:1244-1255) -/
inductive Tok
  | numInt | numUint | ident | localOfs | sizeof | addr | star
  | plus | minus | mul | div | mod | udiv | umod | shl | shr | ushr | and | xor | or
  | lt | gt | le | ge | eq | ne | ult | ugt | ule | uge
  | bool | void | uchar | schar | short | ushort | not | uplus | neg
  | inc | dec | pinc | pdec | padd | psub
  | assign | aAdd | aSub | aMul | aDiv | aMod | aUDiv | aUMod | aShl | aShr | aUShr | aAnd | aXor | aOr
  | land | lor | shortCirc | goto | comma | quest | tif | tifNot | treturn
  | opNumInt | opNumUint | opIdent | opLocalOfs | opAcc | opIndIdent | opIndLocalOfs | opIndAcc | opStack | opIndStack | pushAcc
  deriving DecidableEq

/-- the types that the syntax stack describes, without functions, structures and `float`.  A type that the code gives by a negative index is `ptr` -/
inductive Ty
  | void | char | schar | uchar | short | ushort | int | uint
  | ptr (t : Ty)
  | arr (n : Nat) (t : Ty)
  deriving DecidableEq

/-- what `FindSymbol` finds for an identifier; a type name in parentheses is an identifier, too (smlrc.c:3679-3682) -/
inductive Sym
  | enumConst (v : V)
  | cast (t : Ty)
  | localVar (ofs : V) (t : Ty)
  | globalVar (t : Ty)
  deriving DecidableEq

inductive Err
  /-- "Expression too long" -/
  | long
  /-- `errorOpType`, `errorUnexpectedVoid` -/
  | type
  /-- `errorNotLvalue` -/
  | lvalue
  /-- "Undeclared identifier" -/
  | undeclared
  /-- "sizeof of incomplete type" -/
  | sizeof
  /-- `errorVarSize` -/
  | size
  /-- `errorInternal` -/
  | internal
  /-- access outside the array -/
  | ub
  deriving DecidableEq

inductive Warn
  | shift | div
  deriving DecidableEq

/-- `SizeOfWord`, `CharIsSigned` and the symbols -/
structure Cfg where
  W : Nat
  charSigned : Bool
  env : V → Option Sym

/-- `truncUint` -/
def truncUint (W : Nat) (n : V) : V := n &&& ~~~ ((~~~ 0#32) <<< (8 * W))

/-- `truncInt` -/
def truncInt (W : Nat) (n : V) : V :=
  let un := n &&& ~~~ ((~~~ 0#32) <<< (8 * W))
  un ||| ((((un >>> (8 * W - 1)) &&& 1#32) * ~~~ 0#32) <<< (8 * W))

/-! ### types -/

/-- the loop of `GetDeclSize`; `arr` tells that an array has been entered.  The result is an `int` -/
def declSizeFrom (c : Cfg) (deref : Bool) : Nat → Bool → Ty → Except Err Int
  | size, arr, .char => .ok (if !arr && c.charSigned && deref then -1 else size)
  | size, arr, .schar => .ok (if !arr && deref then -1 else size)
  | size, _, .uchar => .ok size
  | size, arr, .short => if !arr && deref then .ok (-2) else if size * 2 % 2 ^ 32 / 2 ≠ size ∨ size * 2 % 2 ^ 32 ≥ 2 ^ (8 * c.W) then .error .size else .ok (size * 2 % 2 ^ 32 : Nat)
  | size, _, .ushort => if size * 2 % 2 ^ 32 / 2 ≠ size ∨ size * 2 % 2 ^ 32 ≥ 2 ^ (8 * c.W) then .error .size else .ok (size * 2 % 2 ^ 32 : Nat)
  | size, _, .int | size, _, .uint | size, _, .ptr _ =>
    if size * c.W % 2 ^ 32 / c.W ≠ size ∨ size * c.W % 2 ^ 32 ≥ 2 ^ (8 * c.W) then .error .size else .ok (size * c.W % 2 ^ 32 : Nat)
  | size, _, .arr n t =>
    if (n ≠ 0 ∧ size * n % 2 ^ 32 / n ≠ size) ∨ size * n % 2 ^ 32 ≥ 2 ^ (8 * c.W) then .error .size else declSizeFrom c deref (size * n % 2 ^ 32) true t
  | _, _, .void => .ok 0

/-- `GetDeclSize` -/
def declSize (c : Cfg) (deref : Bool) (t : Ty) : Except Err Int := declSizeFrom c deref 1 false t

def isAnyPtr : Ty → Bool
  | .ptr _ | .arr _ _ => true
  | _ => false

/-- `derefAnyPtr` -/
def pointee : Ty → Ty
  | .ptr t | .arr _ t => t
  | t => t

def isArr : Ty → Bool
  | .arr _ _ => true
  | _ => false

/-- the array part of `decayArray` -/
def decay : Ty → Ty
  | .arr _ t => .ptr t
  | t => t

/-- the check in `decayArray` with `arithmetic` nonzero -/
def arithCheck (c : Cfg) (t : Ty) : Except Err Unit :=
  if isAnyPtr t then
    if pointee t = .void then .error .type
    else match declSize c false (pointee t) with
      | .error e => .error e
      | .ok s => if s = 0 then .error .type else .ok ()
  else .ok ()

/-- `nonVoidTypeCheck`, `scalarTypeCheck` -/
def scalarCheck (t : Ty) : Except Err Unit := if t = .void then .error .type else .ok ()

/-- the arithmetic types -/
def isNumeric : Ty → Bool
  | .char | .schar | .uchar | .short | .ushort | .int | .uint => true
  | _ => false

/-- `numericTypeCheck` -/
def numericCheck (t : Ty) : Except Err Unit := if isNumeric t then .ok () else .error .type

/-- `isUint` -/
def isUint (t : Ty) : Bool := t = .uint

/-- `promoteType` -/
def promote (t other : Ty) : Ty :=
  let t := match t with | .char | .short | .ushort | .schar | .uchar => .int | t => t
  if t = .int ∧ other = .uint then .uint else t

/-! ### arithmetic on constants -/

/-- C's comparison of `int` -/
def b2v (b : Bool) : V := if b then 1#32 else 0#32

/-- `shiftCountCheck`: the count and if there was a warning; `uns` tells that its type is unsigned -/
def shiftCount (W : Nat) (uns : Bool) (sr : V) : V × Bool :=
  if (!uns && sr.slt 0#32) || sr.toNat ≥ 32 || sr.toNat ≥ 8 * W then (sr &&& BitVec.ofNat 32 (W * 8 - 1), true) else (sr, false)

/-- `divCheckAndCalc`: the value and `div0`.  Division of the host truncates -/
def divCalc (W : Nat) (isDiv : Bool) (sl sr : V) (uns : Bool) (cl cr : Bool) : V × Bool :=
  if !cr then (sl, false)
  else
    let l := if uns then truncUint W sl else truncInt W sl
    let r := if uns then truncUint W sr else truncInt W sr
    if r = 0#32 then (sl, true)
    else if !cl then (sl, false)
    else if !uns && ((l = BitVec.intMin 32 && r = -1#32) || l.sdiv r ≠ truncInt W (l.sdiv r)) then (sl, true)
    else if uns then (if isDiv then l.udiv r else l.umod r, false)
    else (if isDiv then l.sdiv r else l.srem r, false)

/-- what is computed for an arithmetic or bitwise binary operator: the value, if it is constant, the new operator, the new right operand, and a warning -/
structure BinRes where
  s : V
  const : Bool
  tok : Tok
  count : Option V
  warn : Option Warn

/-- smlrc.c:4393-4398 and 4476-4545 -/
def binCalc (W : Nat) (tok : Tok) (L R : Ty) (sl sr : V) (cl cr : Bool) : BinRes :=
  let uns := isUint L || isUint R
  let both := cl && cr
  match tok with
  | .div | .mod =>
    let d := divCalc W (tok = .div) sl sr uns cl cr
    ⟨d.1, both && !d.2, if uns then (if tok = .div then .udiv else .umod) else tok, none, if d.2 then some .div else none⟩
  | .mul => ⟨sl * sr, both, tok, none, none⟩
  | .shl | .shr =>
    let k := if isUint R then truncUint W sr else truncInt W sr
    let ck := shiftCount W (isUint R) k
    let sr' := if cr then ck.1 else sr
    let s := if both then
        if tok = .shl then sl <<< sr'.toNat
        else if isUint L then truncUint W sl >>> sr'.toNat
        else if sr' ≠ 0#32 then
          let l := truncInt W sl
          (truncUint W l >>> sr'.toNat) ||| (b2v (l.slt 0#32) * ((~~~ 0#32) <<< (8 * W - sr'.toNat)))
        else sl
      else sl
    ⟨s, both, if isUint L && tok = .shr then .ushr else tok, if cr && ck.2 then some ck.1 else none, if cr && ck.2 then some .shift else none⟩
  | .and => ⟨sl &&& sr, both, tok, none, none⟩
  | .xor => ⟨sl ^^^ sr, both, tok, none, none⟩
  | .or => ⟨sl ||| sr, both, tok, none, none⟩
  | _ => ⟨sl, both, tok, none, none⟩

/-- the type that `promoteType` is given for the right operand, smlrc.c:4534-4535 -/
def otherTy (tok : Tok) (R : Ty) : Ty := match tok with | .shl | .shr => .int | _ => R

/-- smlrc.c:4676-4708 -/
def relCalc (W : Nat) (tok : Tok) (uns : Bool) (sl sr : V) : V :=
  let l := if uns then truncUint W sl else truncInt W sl
  let r := if uns then truncUint W sr else truncInt W sr
  match tok with
  | .lt => b2v (if uns then l.ult r else l.slt r)
  | .gt => b2v (if uns then r.ult l else r.slt l)
  | .le => b2v (if uns then l.ule r else l.sle r)
  | .ge => b2v (if uns then r.ule l else r.sle l)
  | .eq => b2v (l == r)
  | .ne => b2v (l != r)
  | _ => l

/-- smlrc.c:4712-4722 -/
def relTok (uns : Bool) (tok : Tok) : Tok :=
  if uns then match tok with | .lt => .ult | .gt => .ugt | .le => .ule | .ge => .uge | t => t else tok

/-- checks of the operand types, smlrc.c:4565-4592.  Without functions the only pointers are those to objects -/
def relCheck (W : Nat) (tok : Tok) (L R : Ty) (sl sr : V) (cl cr : Bool) : Except Err Unit :=
  if R = .void ∨ L = .void then .error .type
  else if tok ≠ .eq ∧ tok ≠ .ne then
    if isAnyPtr L ≠ isAnyPtr R then .error .type else .ok ()
  else if isAnyPtr R ∧ ¬ isAnyPtr L ∧ ¬ (cl ∧ truncInt W sl = 0#32) then .error .type
  else if isAnyPtr L ∧ ¬ isAnyPtr R ∧ ¬ (cr ∧ truncInt W sr = 0#32) then .error .type
  else .ok ()

/-- is this a comparison?  smlrc.c:4812-4824 -/
def isRel : Tok → Bool
  | .lt | .ult | .gt | .ugt | .le | .ule | .ge | .uge | .eq | .ne => true
  | _ => false

def isNum : Tok → Bool
  | .numInt | .numUint => true
  | _ => false

/-- `compatCheck` for the operands of ?: after promotion.  `zl`, `zr` tell that the operand is on the stack as a number that is zero.  The result is the type -/
def compat (L R : Ty) (cl cr zl zr : Bool) : Except Err Ty :=
  let num (t : Ty) : Bool := t = .int || t = .uint
  if num L && num R then .ok L
  else if L = .void && R = .void then .ok L
  else match L, R with
    | .ptr l, .ptr r =>
      if r = .void ∧ zr then .ok L
      else if l = .void ∧ zl then .ok R
      else if l = .void then .ok L
      else if r = .void then .ok R
      else if l = r then .ok L
      else .error .type
    | .ptr _, _ => if num R && cr && zr then .ok L else .error .type
    | _, .ptr _ => if num L && cl && zl then .ok R else .error .type
    | _, _ => .error .type

/-- the effect of a cast on a constant, and the operator that replaces it, smlrc.c:3742-3793; `deref` tells that the operand is a dereference -/
def castCalc (W : Nat) (size : Int) (deref : Bool) (s : V) : V × Option Tok :=
  if size = 1 then (s &&& 0xFF#32, some .uchar)
  else if size = -1 then
    let s := s &&& 0xFF#32
    (if s.toNat ≥ 0x80 then s - 0x100#32 else s, some .schar)
  else if size ≠ 0 ∧ size ≠ W then
    if size = 2 then (s &&& 0xFFFF#32, some .ushort)
    else
      let s := s &&& 0xFFFF#32
      (if s.toNat ≥ 0x8000 then s - 0x10000#32 else s, some .short)
  else (s, if deref then some .uplus else none)

/-- is the result of a cast to `t` constant if the operand is? -/
def castConst (t : Ty) (c : Bool) : Bool := c && isNumeric t

/-! ### the stack -/

/-- a computation with state `σ` that can fail -/
abbrev MS (σ α : Type) := σ → Except Err (α × σ)

def MS.pure {σ α : Type} (a : α) : MS σ α := fun s => .ok (a, s)
def MS.bind {σ α β : Type} (x : MS σ α) (f : α → MS σ β) : MS σ β := fun s =>
  match x s with
  | .error e => .error e
  | .ok (a, s') => f a s'

instance {σ : Type} : Monad (MS σ) where
  pure := MS.pure
  bind := MS.bind

def fail {σ α : Type} (e : Err) : MS σ α := fun _ => .error e

/-- a check -/
def chk {σ α : Type} (x : Except Err α) : MS σ α := fun s =>
  match x with
  | .error e => .error e
  | .ok a => .ok (a, s)

/-- fail if the condition holds -/
def failIf {σ : Type} (p : Prop) [Decidable p] (e : Err) : MS σ Unit := chk (if p then .error e else .ok ())

structure St where
  stack : List (Tok × V)
  /-- `LabelCnt` -/
  lab : Nat
  warns : List Warn

abbrev M (α : Type) := MS St α

/-- `sp` -/
def getSp : M Int := fun s => .ok (s.stack.length, s)

/-- `STACK_SIZE` -/
def stackSize : Nat := 129

def getTok (pos : Int) : M (Tok × V) := fun s =>
  if pos < 0 then .error .ub
  else match s.stack[pos.toNat]? with
    | none => .error .ub
    | some x => .ok (x, s)

def setTok (pos : Int) (x : Tok × V) : M Unit := fun s =>
  if pos < 0 ∨ pos.toNat ≥ s.stack.length then .error .ub
  else .ok ((), { s with stack := s.stack.set pos.toNat x })

/-- `stack[pos][0] = tok` -/
def setKind (pos : Int) (tok : Tok) : M Unit := do
  let x ← getTok pos
  setTok pos (tok, x.2)

/-- `stack[pos][1] = v` -/
def setVal (pos : Int) (v : V) : M Unit := do
  let x ← getTok pos
  setTok pos (x.1, v)

def setKind? (pos : Int) : Option Tok → M Unit
  | none => pure ()
  | some tok => setKind pos tok

def setVal? (pos : Int) : Option V → M Unit
  | none => pure ()
  | some v => setVal pos v

/-- `ins2` -/
def ins2 (pos : Int) (tok : Tok) (v : V) : M Unit := fun s =>
  if s.stack.length ≥ stackSize then .error .long
  else if pos < 0 ∨ pos.toNat > s.stack.length then .error .ub
  else .ok ((), { s with stack := s.stack.take pos.toNat ++ (tok, v) :: s.stack.drop pos.toNat })

/-- `del` -/
def del (pos : Int) (cnt : Int) : M Unit := fun s =>
  if pos < 0 ∨ cnt < 0 ∨ (pos + cnt).toNat > s.stack.length then .error .ub
  else .ok ((), { s with stack := s.stack.take pos.toNat ++ s.stack.drop (pos + cnt).toNat })

def warn (w : Option Warn) : M Unit := fun s => .ok ((), { s with warns := s.warns ++ w.toList })

/-- `LabelCnt += n`; the old value -/
def newLab (n : Nat) : M Nat := fun s => .ok (s.lab, { s with lab := s.lab + n })

/-- `simplifyConstExpr` with constant `val` -/
def simplifyConst (val : V) (ty : Ty) (top bottom : Int) : M Unit := do
  let x ← getTok top
  (if isNum x.1 then pure ()
  else do
    setTok top (if ty = .uint then .numUint else .numInt, val)
    del bottom (top - bottom) : M Unit)

/-- `simplifyConstExpr` -/
def simplify (val : V) (const : Bool) (ty : Ty) (top bottom : Int) : M Unit :=
  if const then simplifyConst val ty top bottom else pure ()

/-- the search for a constant or an address of a local variable that a constant can be added to (smlrc.c:4008-4010, 4047-4049); the first argument bounds the number of steps -/
def seek : Nat → Int → M Int
  | 0, _ => fail .ub
  | n + 1, i => do
    let x ← getTok i
    (if x.1 = .uplus ∨ x.1 = .plus then seek n (i - 1) else pure i)

/-- smlrc.c:4006-4022 and 4045-4063: `d` is added to a constant in the pointer operand, which ends at `j`; the answer tells if that was possible -/
def absorb (j : Int) (d : V) : M Bool := do
  let sp ← getSp
  let k ← seek sp.toNat j
  let y ← getTok k
  (if isNum y.1 ∨ y.1 = .localOfs then do
    setVal k (y.2 + d)
    pure true
  else pure false)

def lvalueCheck (ty : Ty) (pos : Int) : M Unit := do
  failIf (isArr ty) .lvalue
  let x ← getTok pos
  failIf (x.1 ≠ .star) .lvalue

/-- the value, the type, if it is constant, and the new `*idx` -/
structure Res where
  s : V
  ty : Ty
  const : Bool
  idx : Int

/-- smlrc.c:3846-3851: the dereference after the address of a variable -/
def insDeref (c : Cfg) (pos : Int) (t : Ty) : M Unit :=
  if isArr t then pure ()
  else do
    let sz ← chk (declSize c true t)
    ins2 pos .star (BitVec.ofInt 32 sz)

/-- smlrc.c:3806-3808 -/
def dropCast (const : Bool) (q : Int) : M Unit :=
  if const then pure ()
  else do
    let y ← getTok q
    (if y.1 = .ident then del q 1 else pure ())

/-- smlrc.c:3683-3834: a cast to type `t`; `i` is `*idx`, already decremented, and `ev` the recursive call -/
def exprCast (c : Cfg) (ev : Int → M Res) (i : Int) (t : Ty) : M Res := do
  let oldSp ← getSp
  let r ← ev i
  failIf (r.ty = .void ∧ t ≠ .void) .type
  failIf (isArr t) .type
  let sp ← getSp
  let x ← getTok (i - (oldSp - sp))
  let sz ← chk (declSize c true t)
  let k := castCalc c.W sz (x.1 = .star) (if !r.const && isNum x.1 then x.2 else r.s)
  let const := r.const || isNum x.1
  setKind? (i + 1 - (oldSp - sp)) k.2
  setVal? (i - (oldSp - sp)) (if const then some k.1 else none)
  simplify k.1 const t (i + 1 - (oldSp - sp)) (r.idx + 1)
  let sp ← getSp
  dropCast const (i + 1 - (oldSp - sp))
  pure ⟨k.1, t, castConst t const, r.idx⟩

/-- smlrc.c:3626-3862: an identifier.  The renaming of `static` variables of a function is left out: `s` is the name after it -/
def exprIdent (c : Cfg) (ev : Int → M Res) (i : Int) (s : V) : M Res :=
  match c.env s with
  | none => fail .undeclared
  | some (.enumConst v) => do
    setTok (i + 1) (.numInt, v)
    pure ⟨v, .int, true, i⟩
  | some (.localVar ofs t) => do
    setTok (i + 1) (.localOfs, ofs)
    insDeref c (i + 2) t
    pure ⟨s, t, false, i⟩
  | some (.globalVar t) => do
    insDeref c (i + 2) t
    pure ⟨s, t, false, i⟩
  | some (.cast t) => exprCast c ev i t

/-- smlrc.c:3866-3880 -/
def exprSizeof (c : Cfg) (ev : Int → M Res) (i : Int) : M Res := do
  let oldSp ← getSp
  let r ← ev i
  let sz ← chk (declSize c false r.ty)
  failIf (sz = 0) .sizeof
  let sp ← getSp
  setTok (i + 1 - (oldSp - sp)) (.numUint, BitVec.ofInt 32 sz)
  del (r.idx + 1) (i - (oldSp - sp) - r.idx)
  pure ⟨BitVec.ofInt 32 sz, .uint, true, r.idx⟩

/-- smlrc.c:3883-3912.  A type given by a negative index is never that of a dereference, so the tests `*ExprTypeSynPtr >= 0` are left out -/
def exprAddr (ev : Int → M Res) (i : Int) (s : V) : M Res := do
  let oldSp ← getSp
  let r ← ev i
  let sp ← getSp
  (if isArr r.ty then do
    del (i + 1 - (oldSp - sp)) 1
    pure ⟨s, .ptr r.ty, false, r.idx⟩
  else do
    let x ← getTok (i - (oldSp - sp))
    failIf (x.1 ≠ .star) .lvalue
    del (i - (oldSp - sp)) 2
    pure ⟨s, .ptr r.ty, false, r.idx⟩)

/-- smlrc.c:3915-3960 -/
def exprStar (c : Cfg) (ev : Int → M Res) (i : Int) (s : V) : M Res := do
  let oldSp ← getSp
  let r ← ev i
  let sp ← getSp
  failIf (isAnyPtr r.ty = false ∨ r.ty = .ptr .void) .type
  (if isArr (pointee r.ty) then do
    del (i + 1 - (oldSp - sp)) 1
    pure ⟨s, pointee r.ty, false, r.idx⟩
  else do
    let sz ← chk (declSize c true (pointee r.ty))
    setVal (i + 1 - (oldSp - sp)) (BitVec.ofInt 32 sz)
    pure ⟨s, pointee r.ty, false, r.idx⟩)

/-- smlrc.c:4025-4029, 4066-4070, 5301-5305: multiply an operand by the size of what is pointed to; `pos` is behind the operand -/
def insScale (pos : Int) (tok : Tok) (inc : Int) : M Unit :=
  if inc = 1 then pure ()
  else do
    let sp ← getSp
    ins2 pos .numInt (BitVec.ofInt 32 inc)
    let sp' ← getSp
    ins2 (pos - (sp - sp')) tok 0#32

/-- smlrc.c:4001-4032: number plus pointer.  `left` and `right` are the ends of the operands -/
def addNumPtr (c : Cfg) (left right : Int) (R : Ty) (sl : V) (cl : Bool) : M Ty := do
  let inc ← chk (declSize c false (pointee R))
  (if cl then do
    setVal left (sl * BitVec.ofInt 32 inc)
    let ok ← absorb right (sl * BitVec.ofInt 32 inc)
    (if ok then do
      let sp ← getSp
      del left 1
      let sp' ← getSp
      del (right - (sp - sp') + 1) 1
    else pure ())
  else insScale (left + 1) .mul inc : M Unit)
  pure R

/-- smlrc.c:4033-4072: pointer plus or minus number -/
def addPtrNum (c : Cfg) (left right : Int) (tok : Tok) (L : Ty) (sr : V) (cr : Bool) : M Ty := do
  let inc ← chk (declSize c false (pointee L))
  (if cr then do
    setVal right (sr * BitVec.ofInt 32 inc)
    let ok ← absorb left (if tok = .minus then ~~~ (sr * BitVec.ofInt 32 inc - 1#32) else sr * BitVec.ofInt 32 inc)
    (if ok then del right 2 else pure ())
  else insScale (right + 1) .mul inc : M Unit)
  pure L

/-- smlrc.c:4073-4086: difference of pointers -/
def subPtr (c : Cfg) (right : Int) (L R : Ty) : M Ty := do
  let inc ← chk (declSize c false (pointee L))
  let inc' ← chk (declSize c false (pointee R))
  failIf (inc ≠ inc') .type
  insScale (right + 2) .div inc
  pure .int

/-- smlrc.c:3998-4089 -/
def addPtr (c : Cfg) (left right : Int) (tok : Tok) (L R : Ty) (sl sr : V) (cl cr : Bool) : M Ty :=
  if isAnyPtr R ∧ ¬ isAnyPtr L ∧ tok = .plus then addNumPtr c left right R sl cl
  else if isAnyPtr L ∧ ¬ isAnyPtr R then addPtrNum c left right tok L sr cr
  else if isAnyPtr L ∧ isAnyPtr R ∧ tok = .minus then subPtr c right L R
  else if isAnyPtr L ∨ isAnyPtr R then fail .type
  else pure L

/-- smlrc.c:3963-4168 -/
def exprAdd (c : Cfg) (ev : Int → M Res) (i : Int) (tok : Tok) : M Res := do
  let spR ← getSp
  let r ← ev i
  let spL ← getSp
  let l ← ev r.idx
  chk (arithCheck c (decay r.ty))
  chk (arithCheck c (decay l.ty))
  chk (scalarCheck (decay r.ty))
  chk (scalarCheck (decay l.ty))
  let sp ← getSp
  let ty ← addPtr c (r.idx - (spL - sp)) (i - (spR - sp)) tok (decay l.ty) (decay r.ty) l.s r.s l.const r.const
  let s := if tok = .plus then l.s + r.s else l.s - r.s
  let sp ← getSp
  simplify s (l.const && r.const) (promote ty (decay r.ty)) (i + 1 - (spR - sp)) (l.idx + 1)
  pure ⟨s, promote ty (decay r.ty), l.const && r.const, l.idx⟩

/-- smlrc.c:4216-4221 -/
def incTok : Tok → Tok
  | .inc => .aAdd
  | .dec => .aSub
  | .pinc => .padd
  | _ => .psub

/-- by how much a variable of type `t` is incremented -/
def incSize (c : Cfg) (t : Ty) : Except Err Int := if isAnyPtr t then declSize c false (pointee t) else .ok 1

/-- smlrc.c:4171-4232 -/
def exprInc (c : Cfg) (ev : Int → M Res) (i : Int) (tok : Tok) (s : V) : M Res := do
  let oldSp ← getSp
  let r ← ev i
  let sp ← getSp
  lvalueCheck r.ty (i - (oldSp - sp))
  chk (arithCheck c r.ty)
  chk (scalarCheck r.ty)
  let x ← getTok (i - (oldSp - sp))
  del (i - (oldSp - sp)) 1
  let inc ← chk (incSize c r.ty)
  let sp ← getSp
  (if inc = 1 then do
    setVal (i + 1 - (oldSp - sp)) x.2
    pure ⟨s, r.ty, false, r.idx⟩
  else do
    setTok (i + 1 - (oldSp - sp)) (incTok tok, x.2)
    ins2 (i + 1 - (oldSp - sp)) .numInt (BitVec.ofInt 32 inc)
    pure ⟨s, r.ty, false, r.idx⟩)

/-- smlrc.c:4235-4335 -/
def exprAssign (ev : Int → M Res) (i : Int) (s : V) : M Res := do
  let spR ← getSp
  let r ← ev i
  let spL ← getSp
  let l ← ev r.idx
  let sp ← getSp
  lvalueCheck l.ty (r.idx - (spL - sp))
  chk (scalarCheck r.ty)
  chk (scalarCheck l.ty)
  let x ← getTok (r.idx - (spL - sp))
  setVal (i + 1 - (spR - sp)) x.2
  del (r.idx - (spL - sp)) 1
  pure ⟨s, l.ty, false, l.idx⟩

/-- the value of a unary operator -/
def unCalc (tok : Tok) (s : V) : V :=
  match tok with
  | .not => ~~~ s
  | .neg => ~~~ (s - 1#32)
  | _ => s

/-- smlrc.c:4340-4389 -/
def exprUnary (ev : Int → M Res) (i : Int) (tok : Tok) : M Res := do
  let oldSp ← getSp
  let r ← ev i
  chk (numericCheck r.ty)
  let sp ← getSp
  simplify (unCalc tok r.s) r.const (promote r.ty r.ty) (i + 1 - (oldSp - sp)) (r.idx + 1)
  pure ⟨unCalc tok r.s, promote r.ty r.ty, r.const, r.idx⟩

/-- smlrc.c:4392-4550 -/
def exprBin (c : Cfg) (ev : Int → M Res) (i : Int) (tok : Tok) : M Res := do
  let spR ← getSp
  let r ← ev i
  let l ← ev r.idx
  chk (numericCheck r.ty)
  chk (numericCheck l.ty)
  let k := binCalc c.W tok l.ty r.ty l.s r.s l.const r.const
  let sp ← getSp
  warn k.warn
  setVal? (i - (spR - sp)) k.count
  setKind (i + 1 - (spR - sp)) k.tok
  simplify k.s k.const (promote l.ty (otherTy tok r.ty)) (i + 1 - (spR - sp)) (l.idx + 1)
  pure ⟨k.s, promote l.ty (otherTy tok r.ty), k.const, l.idx⟩

/-- smlrc.c:4553-4728 -/
def exprRel (c : Cfg) (ev : Int → M Res) (i : Int) (tok : Tok) : M Res := do
  let spR ← getSp
  let r ← ev i
  let l ← ev r.idx
  chk (relCheck c.W tok l.ty r.ty l.s r.s l.const r.const)
  let uns := isUint l.ty || isUint r.ty
  let s := if l.const && r.const then relCalc c.W tok uns l.s r.s else l.s
  let sp ← getSp
  setKind (i + 1 - (spR - sp)) (relTok (isAnyPtr l.ty || isAnyPtr r.ty || uns) tok)
  simplify s (l.const && r.const) .int (i + 1 - (spR - sp)) (l.idx + 1)
  pure ⟨s, .int, l.const && r.const, l.idx⟩

/-- smlrc.c:4731-4766 -/
def exprBool (c : Cfg) (ev : Int → M Res) (i : Int) : M Res := do
  let oldSp ← getSp
  let r ← ev i
  chk (scalarCheck r.ty)
  let sp ← getSp
  simplify (b2v (truncInt c.W r.s != 0#32)) r.const .int (i + 1 - (oldSp - sp)) (r.idx + 1)
  pure ⟨b2v (truncInt c.W r.s != 0#32), .int, r.const, r.idx⟩

/-- smlrc.c:4790-4807, 4818-4835: insert the conversion to `_Bool` at `pos` if the operand, which ends before that, is not a comparison.  The new end of the operand -/
def insBool (pos : Int) : M Int := do
  let x ← getTok (pos - 1)
  (if isRel x.1 then pure (pos - 1)
  else do
    ins2 pos .bool 0#32
    pure pos)

/-- the left operand decides, smlrc.c:4849-4862 -/
def decides (isAnd : Bool) (cl : Bool) (sl : V) : Bool := cl && (if isAnd then sl == 0#32 else sl != 0#32)

/-- smlrc.c:4839-4862 -/
def logicCalc (isAnd : Bool) (sl sr : V) (cl : Bool) : V :=
  if decides isAnd cl sl then b2v (!isAnd)
  else b2v (if isAnd then sl != 0#32 && sr != 0#32 else sl != 0#32 || sr != 0#32)

/-- smlrc.c:4769-4866 -/
def exprLogic (ev : Int → M Res) (i : Int) (isAnd : Bool) : M Res := do
  let spR ← getSp
  let sc ← newLab 1
  setVal (i + 1) (BitVec.ofNat 32 sc)
  let i1 ← insBool (i + 1)
  let r ← ev i1
  ins2 (r.idx + 1) .shortCirc (if isAnd then BitVec.ofNat 32 sc else - BitVec.ofNat 32 sc)
  let i2 ← insBool (r.idx + 1)
  let l ← ev i2
  let s := logicCalc isAnd l.s r.s l.const
  let const := (l.const && r.const) || decides isAnd l.const l.s
  let sp ← getSp
  simplify s const .int (i + 1 - (spR - sp)) (l.idx + 1)
  pure ⟨s, .int, const, l.idx⟩

/-- smlrc.c:5138-5191 -/
def exprComma (ev : Int → M Res) (i : Int) : M Res := do
  let spR ← getSp
  let r ← ev i
  let spL ← getSp
  ins2 (r.idx + 1) .void 0#32
  let l ← ev r.idx
  let sp ← getSp
  (if l.const && r.const then simplifyConst r.s r.ty (i + 1 - (spR - sp)) (l.idx + 1)
  else if l.const then do
    del (l.idx + 1) (r.idx - (spL - sp) - l.idx)
    let sp ← getSp
    setKind (i + 1 - (spR - sp)) .uplus
  else pure () : M Unit)
  pure ⟨r.s, r.ty, l.const && r.const, l.idx⟩

/-- the operator of a compound assignment, smlrc.c:5307-5322 -/
def assignTok (tok : Tok) (L R : Ty) : Tok :=
  match tok with
  | .aDiv => if isUint L || isUint R then .aUDiv else tok
  | .aMod => if isUint L || isUint R then .aUMod else tok
  | .aShr => if isUint L then .aUShr else tok
  | t => t

/-- smlrc.c:5262-5285: the new right operand and a warning -/
def assignCalc (W : Nat) (tok : Tok) (R : Ty) (sr : V) (cr : Bool) : Option V × Option Warn :=
  match tok with
  | .aShl | .aShr =>
    let ck := shiftCount W (isUint R) (if isUint R then truncUint W sr else truncInt W sr)
    if cr && ck.2 then (some ck.1, some .shift) else (none, none)
  | .aDiv | .aMod => (none, if (divCalc W (tok = .aDiv) 0#32 sr true false cr).2 then some .div else none)
  | _ => (none, none)

/-- smlrc.c:5288-5322: the right operand is scaled or the operator is replaced -/
def scaleAssign (c : Cfg) (right : Int) (tok : Tok) (L R : Ty) (cr : Bool) : M Unit :=
  if isAnyPtr L then do
    let inc ← chk (declSize c false (pointee L))
    (if cr then do
      let y ← getTok right
      setVal right (y.2 * BitVec.ofInt 32 inc)
    else insScale (right + 1) .mul inc)
  else setKind (right + 1) (assignTok tok L R)

/-- smlrc.c:5194-5328 -/
def exprCompound (c : Cfg) (ev : Int → M Res) (i : Int) (tok : Tok) (s : V) : M Res := do
  let spR ← getSp
  let r ← ev i
  let spL ← getSp
  let l ← ev r.idx
  let sp ← getSp
  lvalueCheck l.ty (r.idx - (spL - sp))
  chk (arithCheck c l.ty)
  chk (scalarCheck r.ty)
  chk (scalarCheck l.ty)
  let x ← getTok (r.idx - (spL - sp))
  setVal (i + 1 - (spR - sp)) x.2
  del (r.idx - (spL - sp)) 1
  failIf (isAnyPtr r.ty ∨ (isAnyPtr l.ty ∧ tok ≠ .aAdd ∧ tok ≠ .aSub)) .type
  let sp ← getSp
  let k := assignCalc c.W tok r.ty r.s r.const
  warn k.2
  setVal? (i - (spR - sp)) k.1
  scaleAssign c (i - (spR - sp)) tok l.ty r.ty r.const
  pure ⟨s, l.ty, false, l.idx⟩

/-- a null pointer constant, on the stack as a number -/
def isZero (W : Nat) (x : Tok × V) : Bool := isNum x.1 && truncInt W x.2 == 0#32

/-- the type of ?:, smlrc.c:5357-5360, 5424-5428 -/
def condTy (W : Nat) (m r : Ty) (cm cr : Bool) (x y : Tok × V) : Except Err Ty :=
  let R := promote (decay r) (decay m)
  let L := promote (decay m) R
  compat L R cm cr (isZero W x) (isZero W y)

/-- smlrc.c:5493-5499: drop an operand that is not evaluated.  `c1` tokens behind `bottom` and `c2` tokens that end before `top` -/
def dropCond (bottom top c1 c2 : Int) : M Unit := do
  let z ← getTok (top - c2 - 1)
  (if z.1 = .star then do
    setKind (top - c2) .uplus
    del (top - c2 + 1) (c2 - 1)
  else del (top - c2) c2 : M Unit)
  del (bottom + 1) c1

/-- smlrc.c:5334-5506.  The stack has the condition, the third operand and the second one -/
def exprCond (c : Cfg) (ev : Int → M Res) (i : Int) : M Res := do
  let spR ← getSp
  let sc ← newLab 2
  setTok (i + 1) (.land, BitVec.ofNat 32 (sc + 1))
  let m ← ev i
  let spL ← getSp
  let r ← ev m.idx
  let sp ← getSp
  let x ← getTok (i - (spR - sp))
  let y ← getTok (m.idx - (spL - sp))
  let ty ← chk (condTy c.W m.ty r.ty m.const r.const x y)
  ins2 (m.idx + 1 - (spL - sp)) .land (BitVec.ofNat 32 sc)
  let sp ← getSp
  ins2 (m.idx - (spL - sp)) .goto (BitVec.ofNat 32 (sc + 1))
  ins2 (r.idx + 1) .shortCirc (- BitVec.ofNat 32 sc)
  let spC ← getSp
  let cd ← ev r.idx
  chk (scalarCheck cd.ty)
  let sp ← getSp
  let taken := truncUint c.W cd.s != 0#32
  let const := cd.const && (if taken then m.const else r.const)
  let s := if const then (if taken then m.s else r.s) else 0#32
  (if cd.const && !const then
    if taken then dropCond cd.idx (i - (spR - sp) + 2) (m.idx - (spL - sp) - cd.idx) 1
    else dropCond cd.idx (i - (spR - sp) + 2) (r.idx - (spC - sp) - cd.idx + 1) (i - (spR - sp) - (m.idx - (spL - sp)) + 3)
  else pure () : M Unit)
  let sp ← getSp
  simplify s const ty (i + 1 - (spR - sp)) (cd.idx + 1)
  pure ⟨s, ty, const, cd.idx⟩

/-- the operator `tok` with value `v` -/
def exprOp (c : Cfg) (ev : Int → M Res) (i : Int) (tok : Tok) (v : V) : M Res :=
  match tok with
  | .numInt => pure ⟨v, .int, true, i⟩
  | .numUint => pure ⟨v, .uint, true, i⟩
  | .ident => exprIdent c ev i v
  | .sizeof => exprSizeof c ev i
  | .addr => exprAddr ev i v
  | .star => exprStar c ev i v
  | .plus | .minus => exprAdd c ev i tok
  | .inc | .dec | .pinc | .pdec => exprInc c ev i tok v
  | .assign => exprAssign ev i v
  | .not | .uplus | .neg => exprUnary ev i tok
  | .mul | .div | .mod | .shl | .shr | .and | .xor | .or => exprBin c ev i tok
  | .lt | .gt | .le | .ge | .eq | .ne => exprRel c ev i tok
  | .bool => exprBool c ev i
  | .land => exprLogic ev i true
  | .lor => exprLogic ev i false
  | .comma => exprComma ev i
  | .aMul | .aDiv | .aMod | .aAdd | .aSub | .aShl | .aShr | .aAnd | .aXor | .aOr => exprCompound c ev i tok v
  | .quest => exprCond c ev i
  | _ => fail .internal

/-- `exprval`; the first argument bounds the depth of the recursion -/
def exprval (c : Cfg) : Nat → Int → M Res
  | 0, _ => fail .internal
  | n + 1, idx => do
    failIf (idx < 0) .internal
    let x ← getTok idx
    exprOp c (exprval c n) (idx - 1) x.1 x.2

end Smlr.Expr
