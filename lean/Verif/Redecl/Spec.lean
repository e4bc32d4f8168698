import Verif.Redecl.Model
import Verif.Declr.Spec

set_option autoImplicit false
/-
Redeclarations in C (C99 6.2.2, 6.2.7, 6.7 paragraphs 3 and 4, 6.7.5): which declarations of a name may follow
others, and the composite type that the name has then.
Types are those of `Declr.Spec`; a parameter's name does not belong to its type.
-/
namespace Smlr.Redecl.Spec

open Smlr.Declr Smlr.Declr.Spec

/-- types that the default argument promotions (6.5.2.2 paragraph 6) change: some base types -/
def narrow (small : Nat → Bool) : Ty → Bool
  | .base (.plain b) => small b
  | _ => false

mutual
/-- compatible types: 6.2.7 paragraph 1, 6.7.5.1 paragraph 2, 6.7.5.2 paragraph 6, 6.7.5.3 paragraph 15; `small` are the
base types that are promoted -/
def Compat (small : Nat → Bool) : Ty → Ty → Prop
  | .base b, .base b' => b = b'
  | .ptr t, .ptr t' => Compat small t t'
  | .arr n t, .arr m t' => (n = 0 ∨ m = 0 ∨ n = m) ∧ Compat small t t'
  | .fn ps t, .fn qs t' => PCompat small ps qs ∧ Compat small t t'
  | _, _ => False
/-- parameter lists: a list against no list must not end in `...` and its types must be those after promotion -/
def PCompat (small : Nat → Bool) : Ps → Ps → Prop
  | .unknown, qs => Promoted small qs
  | ps, .unknown => Promoted small ps
  | .nil, .nil => True
  | .dots, .dots => True
  | .cons _ t ps, .cons _ t' qs => Compat small t t' ∧ PCompat small ps qs
  | _, _ => False
def Promoted (small : Nat → Bool) : Ps → Prop
  | .unknown => True
  | .nil => True
  | .dots => False
  | .cons _ t ps => narrow small t = false ∧ Promoted small ps
end

mutual
/-- the composite type of a new and an old declaration: 6.2.7 paragraph 3; the names of parameters are those of the
new declaration -/
def comp : Ty → Ty → Ty
  | .ptr t, .ptr t' => .ptr (comp t t')
  | .arr n t, .arr m t' => .arr (if n = 0 then m else n) (comp t t')
  | .fn ps t, .fn qs t' => .fn (pcomp ps qs) (comp t t')
  | t, _ => t
def pcomp : Ps → Ps → Ps
  | .unknown, qs => qs
  | .cons x t ps, .cons _ t' qs => .cons x (comp t t') (pcomp ps qs)
  | ps, _ => ps
end

mutual
/-- Pairs of a new and an old type which the code treats as C does: `()` in the old declaration stands against a list
that C allows there; `()` in the new one stands against `()`, or, if `k`, against `(void)`. -/
def Tame (small : Nat → Bool) (k : Bool) : Ty → Ty → Prop
  | .ptr t, .ptr t' => Tame small k t t'
  | .arr _ t, .arr _ t' => Tame small k t t'
  | .fn ps t, .fn qs t' => PTame small k ps qs ∧ Tame small k t t'
  | _, _ => True
def PTame (small : Nat → Bool) (k : Bool) : Ps → Ps → Prop
  | .unknown, .unknown => True
  | .unknown, .nil => k = true
  | .unknown, _ => False
  | ps, .unknown => Promoted small ps
  | .cons _ t ps, .cons _ t' qs => Tame small k t t' ∧ PTame small k ps qs
  | _, _ => True
end

/-! ### declarations in scopes -/

/-- objects and functions with linkage; variables of functions, without and with `static`; typedefs; enumeration
constants -/
inductive Kind where
  | ext (t : Ty)
  | auto (t : Ty)
  | stat (t : Ty)
  | tdef (t : Ty)
  | enum

structure Decl where
  name : Nat
  kind : Kind

/-- has linkage, 6.2.2 -/
def Decl.linked (d : Decl) : Bool := match d.kind with
  | .ext _ => true
  | _ => false

/-- is one of a block: without linkage though neither a typedef nor an enumeration constant -/
def Decl.local (d : Decl) : Bool := match d.kind with
  | .auto _ => true
  | .stat _ => true
  | _ => false

/-- what a scope contains, in the order of the text: declarations; types without names (`struct S;`); entries that are
of no concern here (tags, ...); members and bodies of structures (which may contain enumerations) -/
inductive Items where
  | nil
  | decl (d : Decl) (r : Items)
  | anon (t : Ty) (r : Items)
  | other (r : Items)
  | field (y : Nat) (t : Ty) (r : Items)
  | body (m : Items) (r : Items)

/-- the declarations that belong to a scope: bodies of structures are no scopes -/
def Items.decls : Items → List Decl
  | .nil => []
  | .decl d r => d :: r.decls
  | .anon _ r => r.decls
  | .other r => r.decls
  | .field _ _ r => r.decls
  | .body m r => m.decls ++ r.decls

/-- the members of the structure itself -/
def Items.fields : Items → List Nat
  | .nil => []
  | .decl _ r => r.fields
  | .anon _ r => r.fields
  | .other r => r.fields
  | .field y _ r => y :: r.fields
  | .body _ r => r.fields

/-- the type of the last declaration of `x` with linkage; the last declaration of the innermost scope comes last -/
def prior (x : Nat) (ds : List Decl) : Option Ty :=
  ds.reverse.findSome? fun d => match d.kind with
    | .ext t => if d.name = x then some t else none
    | _ => none

/-- May `d` follow, in the scope with the declarations `cur` inside of scopes with the declarations `outer`?
No two declarations of a name in one scope unless both have linkage (6.7 paragraph 3); all declarations of one object or
function are compatible (6.7 paragraph 4, 6.2.7 paragraph 2). -/
def Valid (small : Nat → Bool) (outer cur : List Decl) (d : Decl) : Prop :=
  (∀ e ∈ cur, e.name = d.name → e.linked = true ∧ d.linked = true) ∧
  (∀ t t', d.kind = .ext t → prior d.name (outer ++ cur) = some t' → Compat small t t')

/-- declarations of one scope that may stand together -/
def Together (cur : List Decl) : Prop :=
  cur.Pairwise fun a b => a.name = b.name → a.linked = true ∧ b.linked = true

/-- the declaration with the composite type -/
def Decl.with (d : Decl) (p : Option Ty) : Decl := match d.kind, p with
  | .ext t, some t' => ⟨d.name, .ext (comp t t')⟩
  | _, _ => d

/-! ### how they are written down in the symbol table -/

def tyE (t : Ty) : List E := t.enc.map .ty

def Decl.enc (d : Decl) : List E := match d.kind with
  | .ext t => .ty (.ident (some d.name)) :: tyE t
  | .auto t => .ty (.ident (some d.name)) :: .lofs :: tyE t
  | .stat t => .ty (.ident (some d.name)) :: .stat :: tyE t
  | .tdef t => .tdef d.name :: tyE t
  | .enum => [.ty (.ident (some d.name)), .numInt]

def Items.enc : Items → List E
  | .nil => []
  | .decl d r => d.enc ++ r.enc
  | .anon t r => .ty (.ident none) :: tyE t ++ r.enc
  | .other r => .other :: r.enc
  | .field y t r => .mem y :: .lofs :: tyE t ++ r.enc
  | .body m r => .lbrc :: m.enc ++ .rbrc :: r.enc

/-- scopes, the innermost first; each begins with `#` but the outermost one -/
def encAll : List Items → List E
  | [] => []
  | [s] => s.enc
  | s :: r => encAll r ++ .hash :: s.enc

/-- the declarations of scopes, those of the innermost last -/
def declsAll : List Items → List Decl
  | [] => []
  | s :: r => declsAll r ++ s.decls

/-- the types are such as declarations make them -/
def Decl.deep (d : Decl) : Prop := match d.kind with
  | .ext t => t.deep
  | .auto t => t.deep
  | .stat t => t.deep
  | .tdef t => t.deep
  | .enum => True

def Items.deep : Items → Prop
  | .nil => True
  | .decl d r => d.deep ∧ r.deep
  | .anon t r => t.deep ∧ r.deep
  | .other r => r.deep
  | .field _ t r => t.deep ∧ r.deep
  | .body m r => m.deep ∧ r.deep

end Smlr.Redecl.Spec
