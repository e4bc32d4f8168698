import Verif.Declr.Model

set_option autoImplicit false
/-
Declarators of C (C99 6.7.5, 6.7.6): syntax, the type they give to a name, and the constraints.
Only the tokens and the set of base types are taken from the model.
-/
namespace Smlr.Declr.Spec

mutual
/-- types; `arr 0` is an array of unknown size -/
inductive Ty where
  | base (b : B)
  | ptr (t : Ty)
  | arr (n : Nat) (t : Ty)
  | fn (ps : Ps) (t : Ty)
/-- parameters: `unknown` for `()`, `nil` for the end of the list, `dots` for `...` -/
inductive Ps where
  | unknown
  | nil
  | dots
  | cons (x : Option Nat) (t : Ty) (ps : Ps)
end

/-- declaration specifiers: of a type, or the name of a typedef -/
inductive Sp where
  | kw (b : B)
  | td (x : Nat) (p : Nat)

mutual
/-- declarators, also abstract ones -/
inductive D where
  | none
  | name (x : Nat) (td : Option Nat)
  | paren (d : D)
  | ptr (d : D)
  | arr (d : D) (n : Option Nat)
  | fn (d : D) (q : Q)
/-- parameter lists; `comma`: a comma after the last parameter (which C does not allow) -/
inductive Q where
  | empty
  | one (b : Sp) (d : D) (comma : Bool)
  | dots (b : Sp) (d : D) (comma : Bool)
  | more (b : Sp) (d : D) (q : Q)
end

/-! ### text -/

def Sp.text : Sp → Tok
  | .kw b => .kw b
  | .td x p => .ident x (some p)

def trail (comma : Bool) : List Tok := if comma then [.comma] else []

def dimText : Option Nat → List Tok
  | some n => [.num n]
  | none => []

mutual
def D.text : D → List Tok
  | .none => []
  | .name x td => [.ident x td]
  | .paren d => [.lpar] ++ d.text ++ [.rpar]
  | .ptr d => .star :: d.text
  | .arr d n => d.text ++ [.lbrk] ++ dimText n ++ [.rbrk]
  | .fn d q => d.text ++ [.lpar] ++ q.text ++ [.rpar]
def Q.text : Q → List Tok
  | .empty => []
  | .one b d c => b.text :: d.text ++ trail c
  | .dots b d c => b.text :: d.text ++ [.comma, .ellipsis] ++ trail c
  | .more b d q => b.text :: d.text ++ [.comma] ++ q.text
end

/-! ### meaning -/

/-- the adjustment of the type of a parameter, 6.7.5.3 paragraphs 7 and 8 -/
def adjust : Ty → Ty
  | .arr _ t => .ptr t
  | .fn ps t => .ptr (.fn ps t)
  | t => t

/-- the type of specifiers; an enumeration is an `int` here -/
def Sp.ty (env : Nat → Ty) : Sp → Ty
  | .kw .enum => .base (.plain 0)
  | .kw b => .base b
  | .td _ p => env p

def D.nm : D → Option Nat
  | .none => Option.none
  | .name x _ => some x
  | .paren d => d.nm
  | .ptr d => d.nm
  | .arr d _ => d.nm
  | .fn d _ => d.nm

mutual
/-- the type that `T D` gives to the name, 6.7.5.1 to 6.7.5.3 -/
def D.ty (env : Nat → Ty) : D → Ty → Ty
  | .none, t => t
  | .name _ _, t => t
  | .paren d, t => d.ty env t
  | .ptr d, t => d.ty env (.ptr t)
  | .arr d n, t => d.ty env (.arr (n.getD 0) t)
  | .fn d q, t => d.ty env (.fn (q.ps env) t)
/-- a lone unnamed parameter of type `void` says that there are no parameters, 6.7.5.3 paragraph 10 -/
def Q.ps (env : Nat → Ty) : Q → Ps
  | .empty => .unknown
  | .one b d _ => match d.nm, d.ty env (b.ty env) with
    | Option.none, .base .void => .nil
    | x, t => .cons x (adjust t) .nil
  | .dots b d _ => .cons d.nm (adjust (d.ty env (b.ty env))) .dots
  | .more b d q => .cons d.nm (adjust (d.ty env (b.ty env))) (q.ps' env)
/-- the same for the rest of a list -/
def Q.ps' (env : Nat → Ty) : Q → Ps
  | .empty => .nil
  | .one b d _ => .cons d.nm (adjust (d.ty env (b.ty env))) .nil
  | .dots b d _ => .cons d.nm (adjust (d.ty env (b.ty env))) .dots
  | .more b d q => .cons d.nm (adjust (d.ty env (b.ty env))) (q.ps' env)
end

/-! ### constraints -/

def Ty.isFn : Ty → Bool
  | .fn _ _ => true
  | _ => false
def Ty.isArr : Ty → Bool
  | .arr _ _ => true
  | _ => false
def Ty.isVoid : Ty → Bool
  | .base .void => true
  | _ => false
/-- an array of unknown size -/
def Ty.open : Ty → Bool
  | .arr 0 _ => true
  | _ => false

/-- Functions return neither functions nor arrays, 6.7.5.3 paragraph 1; elements of arrays are neither functions
nor `void`, and, if `strict`, have a known size, 6.7.5.2 paragraph 1. -/
def Ty.lawful (strict : Bool) : Ty → Prop
  | .base _ => True
  | .ptr t => t.lawful strict
  | .arr _ t => t.lawful strict ∧ t.isFn = false ∧ t.isVoid = false ∧ (strict = true → t.open = false)
  | .fn _ t => t.lawful strict ∧ t.isFn = false ∧ t.isArr = false

/-- what can stand before `[` and `(` -/
def D.direct : D → Bool
  | .ptr _ => false
  | _ => true

def D.isArr : D → Bool
  | .arr _ _ => true
  | _ => false

/-- In parentheses stands something, and nothing that could be a list of parameters (6.7.5.3 paragraph 11 for a
name of a typedef in parentheses). -/
def closed : List Tok → Bool
  | [] => false
  | .rpar :: _ => false
  | .kw _ :: _ => false
  | .ident _ (some _) :: _ => false
  | _ => true

/-- a dimension is at least 1; it is omitted only if it is the first of a row -/
def dimOk (later : Bool) : Option Nat → Prop
  | some n => 1 ≤ n
  | none => later = false

mutual
/-- syntax, and the constraints on dimensions and parameters.  If not `strict`, commas may follow lists of
parameters.  A dimension is not omitted right after another one (if `strict`, this also follows from the
constraint on elements). -/
def D.ok (env : Nat → Ty) (strict : Bool) : D → Prop
  | .none => True
  | .name _ _ => True
  | .paren d => d.ok env strict ∧ closed d.text = true
  | .ptr d => d.ok env strict
  | .arr d n => d.ok env strict ∧ d.direct = true ∧ dimOk d.isArr n
  | .fn d q => d.ok env strict ∧ d.direct = true ∧ q.ok env strict
/-- the first parameter may be `void` if it is the only one and has no name -/
def Q.ok (env : Nat → Ty) (strict : Bool) : Q → Prop
  | .empty => True
  | .one b d c => d.ok env strict ∧ (d.ty env (b.ty env)).lawful strict ∧
    ((d.ty env (b.ty env)).isVoid = true → d.nm = Option.none ∧ c = false) ∧ (strict = true → c = false)
  | .dots b d c => d.ok env strict ∧ (d.ty env (b.ty env)).lawful strict ∧ (d.ty env (b.ty env)).isVoid = false ∧
    (strict = true → c = false)
  | .more b d q => d.ok env strict ∧ (d.ty env (b.ty env)).lawful strict ∧ (d.ty env (b.ty env)).isVoid = false ∧ q.ok' env strict
def Q.ok' (env : Nat → Ty) (strict : Bool) : Q → Prop
  | .empty => False
  | .one b d c => d.ok env strict ∧ (d.ty env (b.ty env)).lawful strict ∧ (d.ty env (b.ty env)).isVoid = false ∧
    (strict = true → c = false)
  | .dots b d c => d.ok env strict ∧ (d.ty env (b.ty env)).lawful strict ∧ (d.ty env (b.ty env)).isVoid = false ∧
    (strict = true → c = false)
  | .more b d q => d.ok env strict ∧ (d.ty env (b.ty env)).lawful strict ∧ (d.ty env (b.ty env)).isVoid = false ∧ q.ok' env strict
end

/-- a declaration of one declarator with the specifiers `b` -/
def ok (env : Nat → Ty) (strict : Bool) (b : Sp) (d : D) : Prop :=
  d.ok env strict ∧ (d.ty env (b.ty env)).lawful strict

/-! ### how types are written down in the symbol table -/

mutual
def Ty.enc : Ty → List Ent
  | .base b => [.base b]
  | .ptr t => .star :: t.enc
  | .arr n t => .lbrk :: .num n :: .rbrk :: t.enc
  | .fn ps t => .lpar :: ps.enc ++ .rpar :: t.enc
def Ps.enc : Ps → List Ent
  | .unknown => []
  | .nil => [.ident none, .base .void]
  | .dots => [.ident none, .ellipsis]
  | .cons x t ps => .ident x :: t.enc ++ ps.enc'
def Ps.enc' : Ps → List Ent
  | .unknown => []
  | .nil => []
  | .dots => [.ident none, .ellipsis]
  | .cons x t ps => .ident x :: t.enc ++ ps.enc'
end

mutual
/-- types as declarations make them: no enumerations, and lawful throughout -/
def Ty.deep : Ty → Prop
  | .base b => b ≠ .enum
  | .ptr t => t.deep
  | .arr _ t => t.deep ∧ t.isFn = false ∧ t.isVoid = false
  | .fn ps t => t.deep ∧ t.isFn = false ∧ t.isArr = false ∧ ps.deep
def Ps.deep : Ps → Prop
  | .unknown => True
  | .nil => True
  | .dots => False
  | .cons _ t ps => t.deep ∧ t.isVoid = false ∧ ps.deep'
def Ps.deep' : Ps → Prop
  | .unknown => False
  | .nil => True
  | .dots => True
  | .cons _ t ps => t.deep ∧ t.isVoid = false ∧ ps.deep'
end

/-- the symbol table `s` has the type of every typedef that the tokens use -/
def Env (env : Nat → Ty) (s : List Ent) (ts : List Tok) : Prop :=
  ∀ x p, Tok.ident x (some p) ∈ ts → (env p).deep ∧ ∃ rest, s.drop (p + 1) = (env p).enc ++ rest

end Smlr.Declr.Spec
