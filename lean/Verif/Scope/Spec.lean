import Verif.Scope.Model
/-!
# Scopes: specification

The scopes of C (6.2.1, 6.7.2.3): a list of scopes, the innermost first, each with the names and the tags declared in it, the last first.
A name is in scope from the end of its declarator, an enumeration constant from the end of its enumerator, a tag from where it appears; parameters have function prototype scope, and those of a function definition also the scope of its body.
The result is the sequence of what the names, typedef names and tags of the program refer to, in the order in which the compiler meets them, or `none` for programs that violate a constraint (undeclared names, typedef names in expressions, tags of two kinds or defined twice in one scope), and for two kinds of programs that Smaller C documents as unsupported: those with new structures in parameter lists or in expressions.
-/
set_option autoImplicit false

namespace Smlr.Scope

/-- what a declared type is, as far as it matters here -/
inductive Hd where
  | void | fn | other
  deriving DecidableEq, Repr

inductive Ent where
  | obj (id : Nat) (c : Cls)
  | tdef (id : Nat) (h : Hd)
  deriving DecidableEq, Repr

structure TEnt where
  id : Nat
  k : Kind
  complete : Bool
  deriving DecidableEq, Repr

structure Env where
  names : List (List (Nat × Ent))
  tags : List (List (Nat × TEnt))
  deriving DecidableEq, Repr

/-- the last declaration in the innermost scope that has one -/
def find {α : Type} (x : Nat) : List (Nat × α) → Option α
  | [] => none
  | (y, a) :: r => if y = x then some a else find x r

def lookup (x : Nat) : List (List (Nat × Ent)) → Option Ent
  | [] => none
  | sc :: r =>
    match find x sc with
    | some a => some a
    | none => lookup x r

/-- the tag and whether it belongs to the current scope -/
def tlookup (x : Nat) : List (List (Nat × TEnt)) → Bool → Option (TEnt × Bool)
  | [], _ => none
  | sc :: r, cur =>
    match find x sc with
    | some a => some (a, cur)
    | none => tlookup x r false

def addTo {α : Type} (x : Nat) (a : α) : List (List (Nat × α)) → List (List (Nat × α))
  | [] => [[(x, a)]]
  | sc :: r => ((x, a) :: sc) :: r

def Env.add (e : Env) (x : Nat) (a : Ent) : Env := { e with names := addTo x a e.names }
def Env.addTag (e : Env) (x : Nat) (a : TEnt) : Env := { e with tags := addTo x a e.tags }
/-- a block begins -/
def Env.block (e : Env) : Env := ⟨[] :: e.names, [] :: e.tags⟩
/-- a parameter list begins; no tags are declared in it -/
def Env.proto (e : Env) : Env := ⟨[] :: e.names, e.tags⟩

/-- an outcome, and whether the name was looked up inside the declarator of a declaration of the same name -/
structure SEv where
  ev : Ev
  own : Bool
  deriving DecidableEq, Repr

/-- the name in a declarator -/
def dname : Dr → Option (Nat × Nat)
  | .mk _ (.name x id) _ => some (x, id)
  | .mk _ .anon _ => none
  | .mk _ (.nest d) _ => dname d

def owns (d : Dr) (P : List Nat) : List Nat :=
  match dname d with
  | some (x, _) => x :: P
  | none => P

/-- the derivation of the suffix and the stars of a declarator that is next to the name -/
def sufHead (n : Nat) : Suf → Option Hd
  | .fn _ => some .fn
  | .arr .nil => if n = 0 then none else some .other
  | .arr _ => some .other
  | .none => if n = 0 then none else some .other

/-- the outermost derivation of the declared type, next to the name; `none` if there is none -/
def headOf : Dr → Option Hd
  | .mk n (.nest d) sf =>
    match headOf d with
    | some h => some h
    | none => sufHead n sf
  | .mk n (.name _ _) sf => sufHead n sf
  | .mk n .anon sf => sufHead n sf

def hd (d : Dr) (h : Hd) : Hd := (headOf d).getD h

def sufPars : Suf → Option Pars
  | .fn ps => some ps
  | _ => none

/-- the parameters of a function definition: those next to the name -/
def headPars : Dr → Option Pars
  | .mk _ (.nest d) sf =>
    match headOf d with
    | some _ => headPars d
    | none => sufPars sf
  | .mk _ (.name _ _) sf => sufPars sf
  | .mk _ .anon sf => sufPars sf

def sName (P : List Nat) (u : Use) (e : Env) : Option (Env × List SEv) :=
  match lookup u.x e.names with
  | some (.obj id c) => some (e, [⟨.sym u.x id c, decide (u.x ∈ P)⟩])
  | some (.tdef _ _) => none
  | none =>
    if u.call then some (e.add u.x (.obj u.id .plain), [⟨.sym u.x u.id .plain, decide (u.x ∈ P)⟩])
    else none

def sNames (P : List Nat) : List Use → Env → Option (Env × List SEv)
  | [], e => some (e, [])
  | u :: r, e => (sName P u e).bind fun (e, a) => (sNames P r e).bind fun (e, b) => some (e, a ++ b)

/-- a tag that is about to be defined -/
def sHeader (k : Kind) (x : Option Nat) (e : Env) : Option (List SEv) :=
  match x with
  | none => some []
  | some x =>
    match tlookup x e.tags true with
    | some (t, cur) => if cur = true ∧ (t.k ≠ k ∨ k = .enum ∨ t.complete = true) then none else some [⟨.tag x t.id t.k cur, false⟩]
    | none => some [⟨.notag x, false⟩]

def Env.addTag? (e : Env) (x : Option Nat) (a : TEnt) : Env :=
  match x with
  | some x => e.addTag x a
  | none => e

mutual
def sExpr (P : List Nat) (pl : Bool) : Expr → Env → Option (Env × List SEv)
  | .mk ts us, e => (sTys P pl ts e).bind fun (e, a) => (sNames P us e).bind fun (e, b) => some (e, a ++ b)

def sTys (P : List Nat) (pl : Bool) : Tys → Env → Option (Env × List SEv)
  | .nil, e => some (e, [])
  | .cons b d r, e =>
    (sBase P pl true b e).bind fun (e, a, _) =>
      (sDr P pl d e).bind fun a' =>
        match dname d with
        | some _ => none
        | none => (sTys P pl r e).bind fun (e, a'') => some (e, a ++ a' ++ ⟨.self true, false⟩ :: a'')

def sBase (P : List Nat) (pl ex : Bool) : Base → Env → Option (Env × List SEv × Hd)
  | .void, e => some (e, [], .void)
  | .prim, e => some (e, [], .other)
  | .tdef x, e =>
    match lookup x e.names with
    | some (.tdef id h) => some (e, [⟨.tdef x id, decide (x ∈ P)⟩], h)
    | _ => none
  | .ref k x id, e =>
    match tlookup x e.tags true with
    | some (t, cur) => if t.k = k then some (e, [⟨.tag x t.id t.k cur, false⟩], .other) else none
    | none => if pl = true ∨ k = .enum then none else some (e.addTag x ⟨id, k, false⟩, [⟨.notag x, false⟩], .other)
  | .def k x id ms, e =>
    if pl = true ∨ ex = true ∨ k = .enum then none
    else
      (sHeader k x e).bind fun a =>
        (sMems P ms (e.addTag? x ⟨id, k, true⟩)).bind fun (e, a') => some (e, a ++ a', .other)
  | .enm x id es, e =>
    if pl = true ∨ ex = true then none
    else
      (sHeader .enum x e).bind fun a =>
        (sEnums P es (e.addTag? x ⟨id, .enum, false⟩)).bind fun (e, a') => some (e, a ++ a', .other)

/-- declarators declare nothing by themselves -/
def sDr (P : List Nat) (pl : Bool) : Dr → Env → Option (List SEv)
  | .mk _ i sf, e => (sIn P pl i e).bind fun a => (sSuf P pl sf e).bind fun b => some (a ++ b)

def sIn (P : List Nat) (pl : Bool) : In → Env → Option (List SEv)
  | .nest d, e => sDr P pl d e
  | _, _ => some []

def sSuf (P : List Nat) (pl : Bool) : Suf → Env → Option (List SEv)
  | .none, _ => some []
  | .fn ps, e => (sPars P true ps e.proto).bind fun (_, a, _) => some a
  | .arr ds, e => sDims P pl ds e

/-- what an array dimension declares (an undeclared function or a tag) does not outlive it; in C it would -/
def sDims (P : List Nat) (pl : Bool) : Dims → Env → Option (List SEv)
  | .nil, _ => some []
  | .empty r, e => sDims P pl r e
  | .cons x r, e => (sExpr P pl x e).bind fun (_, a) => (sDims P pl r e).bind fun b => some (a ++ b)

/-- parameters; the list of their names is also returned -/
def sPars (P : List Nat) (f : Bool) : Pars → Env → Option (Env × List SEv × List (Option (Nat × Nat)))
  | .nil, e => some (e, [], [])
  | .ell, e => if f then none else some (e, [], [])
  | .cons b d r, e =>
    (sBase P true false b e).bind fun (e, a, h) =>
      (sDr (owns d P) true d e).bind fun a' =>
        if hd d h = .void then
          match dname d, f, r with
          | none, true, .nil => some (e, a ++ a', [])
          | _, _, _ => none
        else
          (sPars P false r (match dname d with | some (x, id) => e.add x (.obj id .plain) | none => e)).bind fun (e, a'', l) =>
            some (e, a ++ a' ++ a'', dname d :: l)

/-- members; their names are in a name space of their own -/
def sMems (P : List Nat) : Mems → Env → Option (Env × List SEv)
  | .nil, e => some (e, [])
  | .cons b ds r, e =>
    (sBase P false false b e).bind fun (e, a, _) =>
      (sMemDrs P ds e).bind fun a' => (sMems P r e).bind fun (e, a'') => some (e, a ++ a' ++ a'')

def sMemDrs (P : List Nat) : Drs → Env → Option (List SEv)
  | .nil, _ => some []
  | .cons d r, e => (sDr (owns d P) false d e).bind fun a => (sMemDrs P r e).bind fun b => some (a ++ b)

def sEnums (P : List Nat) : Enums → Env → Option (Env × List SEv)
  | .nil, e => some (e, [])
  | .auto x id r, e => sEnums P r (e.add x (.obj id .enum))
  | .cons x id v r, e =>
    (sExpr P false v e).bind fun (_, a) => (sEnums P r (e.add x (.obj id .enum))).bind fun (e, b) => some (e, a ++ b)
end

/-- what constant initialisers declare does not outlive them, as in `sDims` -/
def sData : List Expr → Env → Option (List SEv)
  | [], _ => some []
  | x :: r, e => (sExpr [] false x e).bind fun (_, a) => (sData r e).bind fun b => some (a ++ b)

def sInit (x : Nat) : Init → Env → Option (Env × List SEv)
  | .none, e => some (e, [])
  | .data es, e => (sData es e).bind fun a => some (e, a)
  | .assign v, e =>
    (sExpr [] false v e).bind fun (e, a) => (sName [] ⟨x, false, 0⟩ e).bind fun (e, b) => some (e, a ++ b)

/-- functions and objects with linkage are `plain` -/
def clsOf (blk : Bool) (sto : Sto) (h : Hd) : Cls :=
  if h = .fn ∨ blk = false then .plain
  else match sto with
    | .none => .auto
    | .static => .static
    | _ => .plain

def sDeclr (blk : Bool) (sto : Sto) (h : Hd) : List (Dr × Init) → Env → Option (Env × List SEv)
  | [], e => some (e, [])
  | (d, i) :: r, e =>
    match dname d with
    | none => none
    | some (x, id) =>
      (sDr [x] false d e).bind fun a =>
        if sto = .typedef then
          (sDeclr blk sto h r (e.add x (.tdef id (hd d h)))).bind fun (e, b) => some (e, a ++ b)
        else
          (sInit x i (e.add x (.obj id (clsOf blk sto (hd d h))))).bind fun (e, b) =>
            (sDeclr blk sto h r e).bind fun (e, c) => some (e, a ++ b ++ c)

def sDecl (blk : Bool) (d : Decl) (e : Env) : Option (Env × List SEv) :=
  (sBase [] false false d.base e).bind fun (e, a, h) =>
    (sDeclr blk d.sto h d.ds e).bind fun (e, b) => some (e, a ++ b)

/-- `struct s;` declares a new type unless one of this scope has the tag -/
def sTagDecl (b : Base) (e : Env) : Option (Env × List SEv) :=
  match b with
  | .ref k x id =>
    (sBase [] false false b e).bind fun (e', a, _) =>
      match tlookup x e'.tags true with
      | some (_, false) => if k = .enum then some (e', a) else some (e'.addTag x ⟨id, k, false⟩, a)
      | _ => some (e', a)
  | .def _ (some _) _ _ => (sBase [] false false b e).bind fun (e, a, _) => some (e, a)
  | .enm _ _ _ => (sBase [] false false b e).bind fun (e, a, _) => some (e, a)
  | _ => none

def sItems : Items → Env → Option (Env × List SEv)
  | .nil, e => some (e, [])
  | .decl d r, e => (sDecl true d e).bind fun (e, a) => (sItems r e).bind fun (e, b) => some (e, a ++ b)
  | .tag t r, e => (sTagDecl t e).bind fun (e, a) => (sItems r e).bind fun (e, b) => some (e, a ++ b)
  | .expr x r, e => (sExpr [] false x e).bind fun (e, a) => (sItems r e).bind fun (e, b) => some (e, a ++ b)
  | .block t r, e => (sItems t e.block).bind fun (_, a) => (sItems r e).bind fun (e, b) => some (e, a ++ b)
  | .for_ d t r, e =>
    (sDecl true d e.block).bind fun (e', a) =>
      (sItems t e').bind fun (_, b) => (sItems r e).bind fun (e, c) => some (e, a ++ b ++ c)

/-- the parameters become variables of the body -/
def withParams : List (Option (Nat × Nat)) → Env → Option Env
  | [], e => some e
  | none :: _, _ => none
  | some (x, id) :: r, e => withParams r (e.add x (.obj id .auto))

def sFn (b : Base) (d : Dr) (body : Items) (e : Env) : Option (Env × List SEv) :=
  (sBase [] false false b e).bind fun (e, a, _) =>
    match dname d, headPars d with
    | some (x, id), some ps =>
      (sDr [x] false d e).bind fun a' =>
        (sPars [x] true ps e.proto).bind fun (_, _, l) =>
          (withParams l (e.add x (.obj id .plain)).block).bind fun eb =>
            (sItems body eb).bind fun (_, a'') => some (e.add x (.obj id .plain), a ++ a' ++ a'')
    | _, _ => none

def sTop : Top → Env → Option (Env × List SEv)
  | .decl d, e => sDecl false d e
  | .tag b, e => sTagDecl b e
  | .fn b d body, e => sFn b d body e

def sProg : List Top → Env → Option (Env × List SEv)
  | [], e => some (e, [])
  | t :: r, e => (sTop t e).bind fun (e, a) => (sProg r e).bind fun (e, b) => some (e, a ++ b)

/-- what the names of a program refer to in C -/
def meaning (p : List Top) : Option (List SEv) := (sProg p ⟨[[]], [[]]⟩).bind fun (_, a) => some a

end Smlr.Scope
