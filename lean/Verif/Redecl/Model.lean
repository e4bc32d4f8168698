import Verif.Declr.Model

set_option autoImplicit false
/-
Redeclarations: `compatCheck2` and `CheckRedecl` - v0100/smlrc.c:7657-7899 (configuration with typedef and enum).

Simplifications:
* the symbol table ("syntax stack") is the list of its entries, the first one at the bottom; entries that neither
  function tells from one another (`tokStruct`, `tokTag`, `tokSizeof`, ...) are one entry `other`;
* identifiers are numbers, `none` is a name that is not that of a declaration of the program (`<something>`);
  the number of a static variable of a function, which follows its name in the table, is the entry `stat`
  (its name consists of digits, so it is not that of a declaration);
* base types are those of `Declr`: from 16 on they stand for `tokStructPtr` with the place of the structure;
  `__interrupt` is left out;
* the warning about `f(void)` redeclared as `f()` is not recorded.
-/
namespace Smlr.Redecl

open Smlr.Declr

/-- entries of the symbol table: those of names and types; the number of a static variable; `tokLocalOfs`;
`tokNumInt`; `tokTypedef`; `tokMemberIdent`; `{`; `}`; `#`; all others -/
inductive E where
  | ty (e : Ent)
  | stat
  | lofs
  | numInt
  | tdef (x : Nat)
  | mem (y : Nat)
  | lbrc
  | rbrc
  | hash
  | other
deriving DecidableEq, Repr

/-- `SyntaxStack0[]` of an entry -/
def tok0 : E → Nat
  | .ty (.ident _) => 0
  | .stat => 0
  | .ty .star => 1
  | .ty .lbrk => 2
  | .ty .rbrk => 3
  | .ty .lpar => 4
  | .ty .rpar => 5
  | .ty (.num _) => 6
  | .ty .ellipsis => 7
  | .ty (.other _) => 8
  | .lofs => 9
  | .numInt => 10
  | .tdef _ => 11
  | .mem _ => 12
  | .lbrc => 13
  | .rbrc => 14
  | .hash => 15
  | .other => 16
  | .ty (.base .void) => 17
  | .ty (.base .enum) => 18
  | .ty (.base (.plain b)) => 19 + min b 16

/-- `SyntaxStack1[]` of an entry other than a name -/
def tok1 : E → Nat
  | .ty (.num n) => n
  | .ty (.base (.plain b)) => b - 16
  | _ => 0

/-- the base types in the `switch`, smlrc.c:7708-7718 -/
def isBase : E → Bool
  | .ty (.base .void) => true
  | .ty (.base (.plain _)) => true
  | _ => false

def isIdent : E → Bool
  | .ty (.ident _) => true
  | .stat => true
  | _ => false

/-- what comes of a function of the compiler: a value, `errorRedecl()`, an access outside of the table, or the end of
the fuel of the model -/
inductive Out (α : Type) where
  | ok (a : α) | error | fault | fuel
deriving DecidableEq, Repr

/-- `c += (t == '(') - (t == ')') + (t == '[') - (t == ']')`, smlrc.c:7704 -/
def depth (c : Int) : E → Int
  | .ty .lpar => c + 1
  | .ty .rpar => c - 1
  | .ty .lbrk => c + 1
  | .ty .rbrk => c - 1
  | _ => c

/-- the loop that skips parameters up to their `)`, smlrc.c:7673-7678: how many entries come before it -/
def skip : List E → Nat → Option Nat
  | [], _ => none
  | e :: r, c =>
    let c := if e = .ty .lpar then c + 1 else if e = .ty .rpar then c - 1 else c
    if c = 0 then some 0 else (skip r c).map (· + 1)

/-- the entry before the one at `i` -/
def prev (s : List E) (i : Nat) : Option E := if i = 0 then none else s[i - 1]?

/-- the comparison of `SyntaxStack1[]`, smlrc.c:7688-7701: `none` for `goto lend`, or the table with the dimension
completed -/
def second (s : List E) (l i : Nat) : Option (List E) :=
  match s[l]?, s[i]? with
  | some t, some o =>
    if !isIdent t && tok1 t != tok1 o then
      if prev s l = some (.ty .lbrk) then
        if tok1 t = 0 then some (s.set l (.ty (.num (tok1 o))))
        else if tok1 o ≠ 0 then none
        else some s
      else none
    else some s
  | _, _ => none

/-- `compatCheck2`, smlrc.c:7657-7734: the result and the table -/
def compat2 : Nat → List E → Nat → Nat → Int → Out (Bool × List E)
  | 0, _, _, _, _ => .fuel
  | f + 1, s, l, i, c =>
    match s[l]?, s[i]? with
    | some t, some o =>
      -- the second comparison and the rest of the loop, 7688-7723
      let rest (t : E) (l i : Nat) : Out (Bool × List E) :=
        match second s l i with
        | none => .ok (false, s)
        | some s' =>
          if depth c t = 0 && isBase t then .ok (true, s')
          else compat2 f s' (l + 1) (i + 1) (depth c t)
      if tok0 t = tok0 o then rest t l i
      else if o = .ty .rpar ∧ prev s i = some (.ty .lpar) then
        match skip (s.drop l) 1 with
        | some n => rest (.ty .rpar) (l + n) i
        | none => .fault
      else if t = .ty .rpar ∧ prev s i = some (.ty .lpar) ∧ isIdent o = true ∧
          s[i + 1]? = some (.ty (.base .void)) ∧ s[i + 2]? = some (.ty .rpar) then
        rest t l (i + 2)
      else .ok (false, s)
    | _, _ => .fault

/-- the kinds of declarations that `CheckRedecl` tells apart, by the entry after the name -/
inductive Cls where
  | enum | auto | stat | ext
deriving DecidableEq, Repr

def cls : Option E → Cls
  | some .numInt => .enum
  | some .lofs => .auto
  | some (.ty (.ident _)) => .stat
  | some .stat => .stat
  | _ => .ext

/-- the check against the declaration at `i`, smlrc.c:7862-7865, 7881-7884 -/
def against (s : List E) (l i : Nat) : Out (List E) :=
  match compat2 (s.length + 1) s l i 0 with
  | .ok (true, s') => .ok s'
  | .ok (false, _) => .error
  | .error => .error
  | .fault => .fault
  | .fuel => .fuel

/-- the loop of `CheckRedecl`, smlrc.c:7803-7898, over the entries below the new declaration, from the top down; `c`
is the number of open `)` whose parameters are skipped, `next` the entry above.
`obj`: the new declaration is neither a typedef nor an enumeration constant; `ext`: it is external; `cur`:
`level == ParseLevel`; `file`: `ParseLevel` is 0. -/
def walk (s : List E) (l x : Nat) (obj ext file : Bool) : List E → Nat → Bool → E → Out (List E)
  | [], 0, _, _ => .ok s
  | [], _ + 1, _, _ => .fault
  | e :: r, c + 1, cur, _ =>
    walk s l x obj ext file r (if e = .ty .lpar then c else if e = .ty .rpar then c + 2 else c + 1) cur e
  | e :: r, 0, cur, next =>
    match e with
    | .ty .rpar => walk s l x obj ext file r 1 cur e
    | .hash => if !obj || !ext then .ok s else walk s l x obj ext file r 0 false e
    | .tdef y =>
      if y = x then
        if cur then .error else walk s l x obj ext file r 0 cur e
      else walk s l x obj ext file r 0 cur e
    | .ty (.ident y) =>
      if y = some x then
        if cur then
          if !obj || cls (some next) = .enum then .error
          else if !file then
            if cls (some next) = .auto || cls (some next) = .stat then .error
            else if !ext then .error
            else against s l r.length
          else against s l r.length
        else if cls (some next) = .ext then against s l r.length
        else walk s l x obj ext file r 0 cur e
      else walk s l x obj ext file r 0 cur e
    | e => walk s l x obj ext file r 0 cur e

/-- the loop over the members of a structure, smlrc.c:7774-7786; `c` as in the code -/
def walkMem (s : List E) (y : Nat) : List E → Nat → E → Out (List E)
  | [], _, _ => .fault
  | e :: r, c, next =>
    let c := if e = .ty .lpar ∨ e = .lbrc then c - 1 else if e = .ty .rpar ∨ e = .rbrc then c + 1 else c
    if c = 1 ∧ e = .mem y ∧ next = .lofs then .error
    else if c = 0 then .ok s
    else walkMem s y r c e

/-- `CheckRedecl`, smlrc.c:7739-7899: `errorRedecl()` or the table -/
def checkRedecl (s : List E) (l : Nat) (file : Bool) : Out (List E) :=
  match s[l]? with
  | some (.ty (.ident (some x))) =>
    walk s l x (cls s[l + 1]? ≠ .enum) (cls s[l + 1]? = .ext) file (s.take l).reverse 0 true (.ty (.ident (some x)))
  | some (.tdef x) => walk s l x false false file (s.take l).reverse 0 true (.tdef x)
  | some (.mem y) => walkMem s y (s.take l).reverse 1 (.mem y)
  | _ => .fault

end Smlr.Redecl
