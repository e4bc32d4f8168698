import Verif.Expr.Model
set_option autoImplicit false
/-! Expression trees: before (`E`) and after (`T`) the processing by `exprval`, their reverse Polish notation, and `ev`, which does to trees what `exprval` does to the stack.
That it does is proved in `Verif.Expr.Sim`. -/
namespace Smlr.Expr

/-- an expression as the parser leaves it -/
inductive E
  | num (u : Bool) (v : V)
  | id (s : V)
  /-- a cast; `s` names the type -/
  | cast (s : V) (e : E)
  | sizeof (e : E)
  | addr (e : E)
  | deref (e : E)
  | inc (tok : Tok) (e : E)
  | un (tok : Tok) (e : E)
  | bool (e : E)
  | add (tok : Tok) (l r : E)
  | bin (tok : Tok) (l r : E)
  | rel (tok : Tok) (l r : E)
  | logic (isAnd : Bool) (l r : E)
  | comma (l r : E)
  | assign (l r : E)
  | compound (tok : Tok) (l r : E)
  /-- condition, second and third operand -/
  | cond (c m r : E)

def numTok (u : Bool) : Tok := if u then .numUint else .numInt
def logTok (isAnd : Bool) : Tok := if isAnd then .land else .lor

/-- reverse Polish notation -/
def E.post : E → List (Tok × V)
  | .num u v => [(numTok u, v)]
  | .id s => [(.ident, s)]
  | .cast s e => e.post ++ [(.ident, s)]
  | .sizeof e => e.post ++ [(.sizeof, 0#32)]
  | .addr e => e.post ++ [(.addr, 0#32)]
  | .deref e => e.post ++ [(.star, 0#32)]
  | .inc tok e => e.post ++ [(tok, 0#32)]
  | .un tok e => e.post ++ [(tok, 0#32)]
  | .bool e => e.post ++ [(.bool, 0#32)]
  | .add tok l r | .bin tok l r | .rel tok l r | .compound tok l r => l.post ++ r.post ++ [(tok, 0#32)]
  | .logic isAnd l r => l.post ++ r.post ++ [(logTok isAnd, 0#32)]
  | .comma l r => l.post ++ r.post ++ [(.comma, 0#32)]
  | .assign l r => l.post ++ r.post ++ [(.assign, 0#32)]
  | .cond c m r => c.post ++ r.post ++ m.post ++ [(.quest, 0#32)]

/-- each node has an operator of its kind, and casts are where a type is named -/
def E.WF (env : V → Option Sym) : E → Prop
  | .num _ _ => True
  | .id s => ∀ t, env s ≠ some (.cast t)
  | .cast s e => (∃ t, env s = some (.cast t)) ∧ e.WF env
  | .sizeof e | .addr e | .deref e | .bool e => e.WF env
  | .inc tok e => (tok = .inc ∨ tok = .dec ∨ tok = .pinc ∨ tok = .pdec) ∧ e.WF env
  | .un tok e => (tok = .not ∨ tok = .uplus ∨ tok = .neg) ∧ e.WF env
  | .add tok l r => (tok = .plus ∨ tok = .minus) ∧ l.WF env ∧ r.WF env
  | .bin tok l r => (tok = .mul ∨ tok = .div ∨ tok = .mod ∨ tok = .shl ∨ tok = .shr ∨ tok = .and ∨ tok = .xor ∨ tok = .or) ∧ l.WF env ∧ r.WF env
  | .rel tok l r => (tok = .lt ∨ tok = .gt ∨ tok = .le ∨ tok = .ge ∨ tok = .eq ∨ tok = .ne) ∧ l.WF env ∧ r.WF env
  | .logic _ l r | .comma l r | .assign l r => l.WF env ∧ r.WF env
  | .compound tok l r =>
    (tok = .aMul ∨ tok = .aDiv ∨ tok = .aMod ∨ tok = .aAdd ∨ tok = .aSub ∨ tok = .aShl ∨ tok = .aShr ∨ tok = .aAnd ∨ tok = .aXor ∨ tok = .aOr) ∧ l.WF env ∧ r.WF env
  | .cond c m r => c.WF env ∧ m.WF env ∧ r.WF env

/-- a bound on the depth of the recursion of `exprval` -/
def E.depth : E → Nat
  | .num _ _ | .id _ => 1
  | .cast _ e | .sizeof e | .addr e | .deref e | .inc _ e | .un _ e | .bool e => e.depth + 1
  | .add _ l r | .bin _ l r | .rel _ l r | .compound _ l r | .comma l r | .assign l r => max l.depth r.depth + 1
  | .logic _ l r => max l.depth r.depth + 2
  | .cond c m r => max c.depth (max m.depth r.depth) + 1

/-- the token at the end of the notation -/
def E.root : E → Tok
  | .num u _ => numTok u
  | .id _ | .cast _ _ => .ident
  | .sizeof _ => .sizeof
  | .addr _ => .addr
  | .deref _ => .star
  | .inc tok _ | .un tok _ | .add tok _ _ | .bin tok _ _ | .rel tok _ _ | .compound tok _ _ => tok
  | .bool _ => .bool
  | .logic isAnd _ _ => logTok isAnd
  | .comma _ _ => .comma
  | .assign _ _ => .assign
  | .cond _ _ _ => .quest

/-- an expression as the code generator gets it.  `un` is used for dereferences with their size, conversions, `tokUnaryPlus`, ++ and --; `bin` for assignments with their size, too -/
inductive T
  | num (u : Bool) (v : V)
  | ident (s : V)
  | localOfs (ofs : V)
  | un (tok : Tok) (v : V) (t : T)
  | bin (tok : Tok) (v : V) (l r : T)
  | logic (isAnd : Bool) (sc : Nat) (l r : T)
  | comma (l r : T)
  | cond (sc : Nat) (c m r : T)

def scVal (isAnd : Bool) (sc : Nat) : V := if isAnd then BitVec.ofNat 32 sc else - BitVec.ofNat 32 sc

def T.post : T → List (Tok × V)
  | .num u v => [(numTok u, v)]
  | .ident s => [(.ident, s)]
  | .localOfs ofs => [(.localOfs, ofs)]
  | .un tok v t => t.post ++ [(tok, v)]
  | .bin tok v l r => l.post ++ r.post ++ [(tok, v)]
  | .logic isAnd sc l r => l.post ++ [(.shortCirc, scVal isAnd sc)] ++ r.post ++ [(logTok isAnd, BitVec.ofNat 32 sc)]
  | .comma l r => l.post ++ [(.void, 0#32)] ++ r.post ++ [(.comma, 0#32)]
  | .cond sc c m r =>
    c.post ++ [(.shortCirc, - BitVec.ofNat 32 sc)] ++ r.post ++ [(.goto, BitVec.ofNat 32 (sc + 1)), (.land, BitVec.ofNat 32 sc)] ++ m.post ++ [(.land, BitVec.ofNat 32 (sc + 1))]

def T.root : T → Tok × V
  | .num u v => (numTok u, v)
  | .ident s => (.ident, s)
  | .localOfs ofs => (.localOfs, ofs)
  | .un tok v _ => (tok, v)
  | .bin tok v _ _ => (tok, v)
  | .logic isAnd sc _ _ => (logTok isAnd, BitVec.ofNat 32 sc)
  | .comma _ _ => (.comma, 0#32)
  | .cond sc _ _ _ => (.land, BitVec.ofNat 32 (sc + 1))

/-- the tree without its dereference -/
def T.arg : T → T
  | .un _ _ t => t
  | t => t

/-- the value in a number replaced -/
def T.setVal (v : V) : T → T
  | .num u _ => .num u v
  | t => t

def T.setVal? (o : Option V) (t : T) : T :=
  match o with
  | none => t
  | some v => t.setVal v

/-- add `d` to the constant or offset that `seek` finds -/
def T.absorb (d : V) : T → Option T
  | .num u v => some (.num u (v + d))
  | .localOfs ofs => some (.localOfs (ofs + d))
  | .un tok v t => if tok = .uplus then (t.absorb d).map (.un tok v) else none
  | .bin tok v l r => if tok = .plus then (r.absorb d).map (.bin tok v l) else none
  | _ => none

def T.scale (tok : Tok) (inc : Int) (t : T) : T := if inc = 1 then t else .bin tok 0#32 t (.num false (BitVec.ofInt 32 inc))

structure NS where
  lab : Nat
  warns : List Warn

abbrev N (α : Type) := MS NS α

def nwarn (w : Option Warn) : N Unit := fun s => .ok ((), { s with warns := s.warns ++ w.toList })
def nlab (n : Nat) : N Nat := fun s => .ok (s.lab, { s with lab := s.lab + n })

structure TR where
  s : V
  ty : Ty
  const : Bool
  t : T

/-- a constant tree becomes a number, unless it is one already -/
def mk (s : V) (ty : Ty) (const : Bool) (t : T) : TR := ⟨s, ty, const, if const && !isNum t.root.1 then .num (ty = .uint) s else t⟩

def evVar (c : Cfg) (s : V) (ty : Ty) (t : T) : N TR :=
  if isArr ty then pure ⟨s, ty, false, t⟩
  else do
    let sz ← chk (declSize c true ty)
    pure ⟨s, ty, false, .un .star (BitVec.ofInt 32 sz) t⟩

def evId (c : Cfg) (s : V) : N TR :=
  match c.env s with
  | none => fail .undeclared
  | some (.enumConst v) => pure ⟨v, .int, true, .num false v⟩
  | some (.localVar ofs t) => evVar c s t (.localOfs ofs)
  | some (.globalVar t) => evVar c s t (.ident s)
  | some (.cast _) => fail .internal

/-- the tree of a cast to `t` that is not constant -/
def castTree (o : Option Tok) (s : V) (t : T) : T :=
  match o with
  | none => t
  | some tok => .un tok s t

def evCast (c : Cfg) (s : V) (t : Ty) (e : N TR) : N TR := do
  let r ← e
  failIf (r.ty = .void ∧ t ≠ .void) .type
  failIf (isArr t) .type
  let sz ← chk (declSize c true t)
  let k := castCalc c.W sz (r.t.root.1 = .star) (if !r.const && isNum r.t.root.1 then r.t.root.2 else r.s)
  let const := r.const || isNum r.t.root.1
  pure ⟨k.1, t, castConst t const, if const then .num (t = .uint) k.1 else castTree k.2 s r.t⟩

def evSizeof (c : Cfg) (e : N TR) : N TR := do
  let r ← e
  let sz ← chk (declSize c false r.ty)
  failIf (sz = 0) .sizeof
  pure ⟨BitVec.ofInt 32 sz, .uint, true, .num true (BitVec.ofInt 32 sz)⟩

def evAddr (e : N TR) : N TR := do
  let r ← e
  (if isArr r.ty then pure ⟨0#32, .ptr r.ty, false, r.t⟩
  else do
    failIf (r.t.root.1 ≠ .star) .lvalue
    pure ⟨0#32, .ptr r.ty, false, r.t.arg⟩)

def evDeref (c : Cfg) (e : N TR) : N TR := do
  let r ← e
  failIf (isAnyPtr r.ty = false ∨ r.ty = .ptr .void) .type
  (if isArr (pointee r.ty) then pure ⟨0#32, pointee r.ty, false, r.t⟩
  else do
    let sz ← chk (declSize c true (pointee r.ty))
    pure ⟨0#32, pointee r.ty, false, .un .star (BitVec.ofInt 32 sz) r.t⟩)

def evNumPtr (c : Cfg) (R : Ty) (l r : TR) : N (Ty × T) := do
  let inc ← chk (declSize c false (pointee R))
  pure (R,
    if l.const then
      match r.t.absorb (l.s * BitVec.ofInt 32 inc) with
      | some t => t
      | none => .bin .plus 0#32 (l.t.setVal (l.s * BitVec.ofInt 32 inc)) r.t
    else .bin .plus 0#32 (l.t.scale .mul inc) r.t)

def evPtrNum (c : Cfg) (tok : Tok) (L : Ty) (l r : TR) : N (Ty × T) := do
  let inc ← chk (declSize c false (pointee L))
  pure (L,
    if r.const then
      match l.t.absorb (if tok = .minus then ~~~ (r.s * BitVec.ofInt 32 inc - 1#32) else r.s * BitVec.ofInt 32 inc) with
      | some t => t
      | none => .bin tok 0#32 l.t (r.t.setVal (r.s * BitVec.ofInt 32 inc))
    else .bin tok 0#32 l.t (r.t.scale .mul inc))

def evSubPtr (c : Cfg) (tok : Tok) (L R : Ty) (l r : TR) : N (Ty × T) := do
  let inc ← chk (declSize c false (pointee L))
  let inc' ← chk (declSize c false (pointee R))
  failIf (inc ≠ inc') .type
  pure (.int, T.scale .div inc (.bin tok 0#32 l.t r.t))

def evAddPtr (c : Cfg) (tok : Tok) (L R : Ty) (l r : TR) : N (Ty × T) :=
  if isAnyPtr R ∧ ¬ isAnyPtr L ∧ tok = .plus then evNumPtr c R l r
  else if isAnyPtr L ∧ ¬ isAnyPtr R then evPtrNum c tok L l r
  else if isAnyPtr L ∧ isAnyPtr R ∧ tok = .minus then evSubPtr c tok L R l r
  else if isAnyPtr L ∨ isAnyPtr R then fail .type
  else pure (L, .bin tok 0#32 l.t r.t)

def evAdd (c : Cfg) (tok : Tok) (el er : N TR) : N TR := do
  let r ← er
  let l ← el
  chk (arithCheck c (decay r.ty))
  chk (arithCheck c (decay l.ty))
  chk (scalarCheck (decay r.ty))
  chk (scalarCheck (decay l.ty))
  let p ← evAddPtr c tok (decay l.ty) (decay r.ty) l r
  pure (mk (if tok = .plus then l.s + r.s else l.s - r.s) (promote p.1 (decay r.ty)) (l.const && r.const) p.2)

/-- the operand must be a dereference -/
def evLvalue (r : TR) : N Unit := do
  failIf (isArr r.ty) .lvalue
  failIf (r.t.root.1 ≠ .star) .lvalue

def evInc (c : Cfg) (tok : Tok) (e : N TR) : N TR := do
  let r ← e
  evLvalue r
  chk (arithCheck c r.ty)
  chk (scalarCheck r.ty)
  let inc ← chk (incSize c r.ty)
  pure ⟨0#32, r.ty, false, if inc = 1 then .un tok r.t.root.2 r.t.arg else .bin (incTok tok) r.t.root.2 r.t.arg (.num false (BitVec.ofInt 32 inc))⟩

def evAssign (el er : N TR) : N TR := do
  let r ← er
  let l ← el
  evLvalue l
  chk (scalarCheck r.ty)
  chk (scalarCheck l.ty)
  pure ⟨0#32, l.ty, false, .bin .assign l.t.root.2 l.t.arg r.t⟩

def evUnary (tok : Tok) (e : N TR) : N TR := do
  let r ← e
  chk (numericCheck r.ty)
  pure (mk (unCalc tok r.s) (promote r.ty r.ty) r.const (.un tok 0#32 r.t))

def evBin (c : Cfg) (tok : Tok) (el er : N TR) : N TR := do
  let r ← er
  let l ← el
  chk (numericCheck r.ty)
  chk (numericCheck l.ty)
  let k := binCalc c.W tok l.ty r.ty l.s r.s l.const r.const
  nwarn k.warn
  pure (mk k.s (promote l.ty (otherTy tok r.ty)) k.const (.bin k.tok 0#32 l.t (r.t.setVal? k.count)))

def evRel (c : Cfg) (tok : Tok) (el er : N TR) : N TR := do
  let r ← er
  let l ← el
  chk (relCheck c.W tok l.ty r.ty l.s r.s l.const r.const)
  let uns := isUint l.ty || isUint r.ty
  pure (mk (if l.const && r.const then relCalc c.W tok uns l.s r.s else l.s) .int (l.const && r.const)
    (.bin (relTok (isAnyPtr l.ty || isAnyPtr r.ty || uns) tok) 0#32 l.t r.t))

def evBool (c : Cfg) (e : N TR) : N TR := do
  let r ← e
  chk (scalarCheck r.ty)
  pure (mk (b2v (truncInt c.W r.s != 0#32)) .int r.const (.un .bool 0#32 r.t))

/-- an operand of && or || -/
def evCondOp (c : Cfg) (root : Tok) (e : N TR) : N TR := if isRel root then e else evBool c e

def evLogic (c : Cfg) (isAnd : Bool) (rl rr : Tok) (el er : N TR) : N TR := do
  let sc ← nlab 1
  let r ← evCondOp c rr er
  let l ← evCondOp c rl el
  pure (mk (logicCalc isAnd l.s r.s l.const) .int ((l.const && r.const) || decides isAnd l.const l.s) (.logic isAnd sc l.t r.t))

def evComma (el er : N TR) : N TR := do
  let r ← er
  let l ← el
  pure (if l.const && !r.const then ⟨r.s, r.ty, false, .un .uplus 0#32 r.t⟩ else mk r.s r.ty (l.const && r.const) (.comma l.t r.t))

def scaleTree (c : Cfg) (tok : Tok) (v : V) (L R : Ty) (cr : Bool) (l r : T) : N T :=
  if isAnyPtr L then do
    let inc ← chk (declSize c false (pointee L))
    pure (.bin tok v l (if cr then r.setVal (r.root.2 * BitVec.ofInt 32 inc) else r.scale .mul inc))
  else pure (.bin (assignTok tok L R) v l r)

def evCompound (c : Cfg) (tok : Tok) (el er : N TR) : N TR := do
  let r ← er
  let l ← el
  evLvalue l
  chk (arithCheck c l.ty)
  chk (scalarCheck r.ty)
  chk (scalarCheck l.ty)
  failIf (isAnyPtr r.ty ∨ (isAnyPtr l.ty ∧ tok ≠ .aAdd ∧ tok ≠ .aSub)) .type
  let k := assignCalc c.W tok r.ty r.s r.const
  nwarn k.2
  let t ← scaleTree c tok l.t.root.2 l.ty r.ty r.const l.t.arg (r.t.setVal? k.1)
  pure ⟨0#32, l.ty, false, t⟩

/-- a tree that is no dereference -/
def T.hide (sc : Nat) (t : T) : T := if t.root.1 = .star then .un .uplus (BitVec.ofNat 32 (sc + 1)) t else t

/-- the result of ?:; `drop` tells that the operand that is not evaluated is dropped -/
def condRes (sc : Nat) (ty : Ty) (s : V) (const drop taken : Bool) (cd m r : TR) : TR :=
  if drop then ⟨s, ty, false, if taken then m.t.hide sc else r.t.hide sc⟩ else mk s ty const (.cond sc cd.t m.t r.t)

def evCond (c : Cfg) (ec em er : N TR) : N TR := do
  let sc ← nlab 2
  let m ← em
  let r ← er
  let ty ← chk (condTy c.W m.ty r.ty m.const r.const m.t.root r.t.root)
  let cd ← ec
  chk (scalarCheck cd.ty)
  let taken := truncUint c.W cd.s != 0#32
  let const := cd.const && (if taken then m.const else r.const)
  let s := if const then (if taken then m.s else r.s) else 0#32
  pure (condRes sc ty s const (cd.const && !const) taken cd m r)

/-- the processing of a tree -/
def ev (c : Cfg) : E → N TR
  | .num u v => pure ⟨v, if u then .uint else .int, true, .num u v⟩
  | .id s => evId c s
  | .cast s e => match c.env s with
    | some (.cast t) => evCast c s t (ev c e)
    | _ => fail .internal
  | .sizeof e => evSizeof c (ev c e)
  | .addr e => evAddr (ev c e)
  | .deref e => evDeref c (ev c e)
  | .inc tok e => evInc c tok (ev c e)
  | .un tok e => evUnary tok (ev c e)
  | .bool e => evBool c (ev c e)
  | .add tok l r => evAdd c tok (ev c l) (ev c r)
  | .bin tok l r => evBin c tok (ev c l) (ev c r)
  | .rel tok l r => evRel c tok (ev c l) (ev c r)
  | .logic isAnd l r => evLogic c isAnd l.root r.root (ev c l) (ev c r)
  | .comma l r => evComma (ev c l) (ev c r)
  | .assign l r => evAssign (ev c l) (ev c r)
  | .compound tok l r => evCompound c tok (ev c l) (ev c r)
  | .cond cd m r => evCond c (ev c cd) (ev c m) (ev c r)

end Smlr.Expr
