/-!
# Scopes: the symbol table of smlrc.c

`SyntaxStack0[]`/`SyntaxStack1[]` hold all declarations in force, `FindSymbol`, `FindTypedef` and `FindTaggedDecl` search it.
The model follows the parser (`ParseDecl`, `ParseBase`, `ParseDerived`, `ParseFxnParams`, `PushBase`, `AddFxnParamSymbols`, `ParseBlock`) over the syntax tree of a program, in the order in which the code meets its parts, and records the outcome of each search.

Simplifications:
* identifiers are numbers (that equal names have equal entries in `IdentTable` is C20); `__func__` is left out (it is never searched for);
* the trees are given, so the text that the parser would reject does not occur; of the checks only those that decide about tags, undeclared names and `void` parameters are in the model;
* of the second array only the names are kept.  Each name carries the number that the tree gives to its declaration (`id`), so that the outcome of a search tells which declaration was found; the code does not use it;
* the hidden parameter `@` of functions returning structures is left out.
-/
set_option autoImplicit false

namespace Smlr.Scope

/-- names in `IdentTable`: those of the program, `<something>` of nameless declarations, `(something123)` of type names in expressions (smlrc.c:2779-2795), the numbers of static variables of functions (8183), the empty name of `__func__` (9751) -/
inductive Nm where
  | id (x : Nat)
  | something
  | cast
  | num
  | empty
  deriving DecidableEq, Repr

inductive Kind where
  | struct | union | enum
  deriving DecidableEq, Repr

/-- entries of `SyntaxStack0[]`, with the names of `SyntaxStack1[]` -/
inductive Tk where
  | ident (n : Nm) (id : Nat)
  | tdef (n : Nm) (id : Nat)
  | mem (n : Nm)
  | tag (n : Nm) (id : Nat)
  | kw (k : Kind)
  | lpar | rpar | lbrk | rbrk | lbrc | rbrc | star | hash
  /-- `tokNumInt`, `tokNumUint` -/
  | num
  /-- `tokLocalOfs` -/
  | lofs
  /-- `tokSizeof` -/
  | size
  | void
  /-- `tokInt`, `tokChar`, `tokUnsigned`, ... -/
  | base
  /-- `tokStructPtr`, `tokEnumPtr` -/
  | sptr | eptr
  /-- `tokEllipsis` -/
  | ell
  deriving DecidableEq, Repr

/-! ### syntax trees -/

/-- the names in an expression in the order in which `exprval` meets them; `call` if `(` follows; `id` numbers the declaration that an undeclared function gets -/
structure Use where
  x : Nat
  call : Bool
  id : Nat
  deriving DecidableEq, Repr

mutual
/-- an expression: the type names in it (casts and `sizeof`), seen first, and the names -/
inductive Expr where
  | mk (tys : Tys) (us : List Use)
inductive Tys where
  | nil
  | cons (b : Base) (d : Dr) (r : Tys)
/-- what a declaration begins with -/
inductive Base where
  | void
  | prim
  | tdef (x : Nat)
  /-- `struct x`; `id` numbers the type in case that it is new -/
  | ref (k : Kind) (x id : Nat)
  /-- `struct x { ... }`, the tag may be missing -/
  | def (k : Kind) (x : Option Nat) (id : Nat) (ms : Mems)
  | enm (x : Option Nat) (id : Nat) (es : Enums)
/-- declarators -/
inductive Dr where
  | mk (stars : Nat) (i : In) (s : Suf)
inductive In where
  | name (x id : Nat)
  | anon
  | nest (d : Dr)
inductive Suf where
  | none
  | fn (ps : Pars)
  | arr (ds : Dims)
inductive Pars where
  | nil
  | ell
  | cons (b : Base) (d : Dr) (r : Pars)
/-- array dimensions -/
inductive Dims where
  | nil
  | empty (r : Dims)
  | cons (e : Expr) (r : Dims)
inductive Mems where
  | nil
  | cons (b : Base) (ds : Drs) (r : Mems)
/-- the declarators of one declaration of members -/
inductive Drs where
  | nil
  | cons (d : Dr) (r : Drs)
inductive Enums where
  | nil
  | auto (x id : Nat) (r : Enums)
  | cons (x id : Nat) (e : Expr) (r : Enums)
end

/-- storage classes; `none` is also that of functions -/
inductive Sto where
  | none | extern | static | typedef
  deriving DecidableEq, Repr

/-- initialisers: constant ones are looked at one by one (`InitScalar`), the others become an assignment (8335) -/
inductive Init where
  | none
  | data (es : List Expr)
  | assign (e : Expr)

structure Decl where
  sto : Sto
  base : Base
  ds : List (Dr × Init)

/-- what may stand in a function body; statements other than these are made of `expr` and `block` -/
inductive Items where
  | nil
  | decl (d : Decl) (r : Items)
  /-- `struct s;` and the like -/
  | tag (b : Base) (r : Items)
  | expr (e : Expr) (r : Items)
  | block (b : Items) (r : Items)
  /-- `for` with a declaration: the rest of the statement is `b` -/
  | for_ (d : Decl) (b : Items) (r : Items)

inductive Top where
  | decl (d : Decl)
  | tag (b : Base)
  | fn (b : Base) (d : Dr) (body : Items)

/-! ### searching -/

inductive Look where
  | found (p : Nat) (cur : Bool)
  | absent
  /-- reading below the table -/
  | ub
  deriving DecidableEq, Repr

/-- the loop of `FindSymbol` (smlrc.c:6219-6237), `FindTaggedDecl` (6278-6302) and `FindTypedef` (6313-6337), from the top of the stack on down.
`c` counts the `)` that have not been closed, `cur` is `*CurScope`. -/
def scan (hit : Tk → Bool) (cur : Bool) : Nat → List Tk → Look
  | 0, [] => .absent
  | _ + 1, [] => .ub
  | 0, t :: r =>
    if hit t then .found r.length cur
    else if t = .rpar then scan hit cur 1 r
    else if t = .hash then scan hit false 0 r
    else scan hit cur 0 r
  | c + 1, t :: r =>
    if t = .lpar then scan hit cur c r
    else if t = .rpar then scan hit cur (c + 2) r
    else scan hit cur (c + 1) r

def isSym (n : Nm) (t : Tk) : Bool :=
  match t with
  | .ident m _ => m == n
  | _ => false

def isTd (n : Nm) (t : Tk) : Bool :=
  match t with
  | .ident m _ => m == n
  | .tdef m _ => m == n
  | _ => false

def isTag (n : Nm) (t : Tk) : Bool :=
  match t with
  | .tag m _ => m == n
  | _ => false

/-- `FindSymbol`, smlrc.c:6209-6241; the stack is a list from bottom to top -/
def findSymbol (n : Nm) (st : List Tk) : Look := scan (isSym n) true 0 st.reverse

/-- `FindTypedef`, smlrc.c:6309-6340: `none` is -1 -/
def findTypedef (n : Nm) (st : List Tk) : Option Nat :=
  match scan (isTd n) true 0 st.reverse with
  | .found p _ =>
    match st[p]? with
    | some (.tdef _ _) => some p
    | _ => none
  | _ => none

/-- `FindTaggedDecl`, smlrc.c:6272-6305, from the top of the given part of the stack; the position is that of the tag, one more than the code returns -/
def findTagged (n : Nm) (st : List Tk) : Look := scan (isTag n) true 0 st.reverse

/-! ### the outcome of searches -/

/-- what `exprval` makes of a name according to the entry behind it, smlrc.c:3643-3677 and `SymType`: static variable of a function, constant, local variable or parameter, other -/
inductive Cls where
  | static | enum | auto | plain
  deriving DecidableEq, Repr

inductive Ev where
  | sym (x id : Nat) (c : Cls)
  | tdef (x id : Nat)
  | tag (x id : Nat) (k : Kind) (cur : Bool)
  | notag (x : Nat)
  /-- the nameless declaration of a type name is found again (smlrc.c:2779) -/
  | self (ok : Bool)
  deriving DecidableEq, Repr

structure S where
  st : List Tk
  tr : List Ev

def S.push (s : S) (l : List Tk) : S := { s with st := s.st ++ l }
def S.ev (s : S) (e : Ev) : S := { s with tr := s.tr ++ [e] }
/-- `SyntaxStackCnt = n` -/
def S.cut (s : S) (n : Nat) : S := { s with st := s.st.take n }

/-- what a type is to be continued with by `PushBase`: an entry, or a copy of the type of the typedef at a position -/
inductive B where
  | one (t : Tk)
  | copy (p : Nat)

def clsAt (st : List Tk) (p : Nat) : Cls :=
  match st[p + 1]? with
  | some (.ident _ _) => .static
  | some .num => .enum
  | some .lofs => .auto
  | _ => .plain

/-- identifiers in `exprval`, smlrc.c:3641-3677: `none` is "Undeclared identifier" -/
def name (u : Use) (s : S) : Option S :=
  match findSymbol (.id u.x) s.st with
  | .found p _ =>
    match s.st[p]? with
    | some (.ident _ id) => some (s.ev (.sym u.x id (clsAt s.st p)))
    | _ => none
  | .absent =>
    if u.call then some ((s.push [.ident (.id u.x) u.id, .lpar, .rpar, .base]).ev (.sym u.x u.id .plain))
    else none
  | .ub => none

def names : List Use → S → Option S
  | [], s => some s
  | u :: r, s => (name u s).bind fun s => names r s

/-- the copying loop of `PushBase`, smlrc.c:7236-7271, over what stands above the typedef; `c` counts open brackets -/
def copyTy : Nat → List Tk → Option (List Tk)
  | _, [] => none
  | c, t :: r =>
    let c := if t = .lpar ∨ t = .lbrk then c + 1 else if t = .rpar ∨ t = .rbrk then c - 1 else c
    if c = 0 ∧ (t = .void ∨ t = .base ∨ t = .sptr) then some [t]
    else (copyTy c r).bind fun l => some (t :: l)

/-- `PushBase`, smlrc.c:7228-7282, and "Convert enums into ints" (8023-8028, 8554-8559) -/
def pushBase (b : B) (s : S) : Option S :=
  match b with
  | .one .eptr => some (s.push [.base])
  | .one t => some (s.push [t])
  | .copy p => (copyTy 0 (s.st.drop (p + 1))).bind fun l => some (s.push l)

/-- the decay of parameters, smlrc.c:8562-8579; `p` is the position of the name -/
def decay (p : Nat) (st : List Tk) : List Tk :=
  if st[p + 1]? = some .lbrk then
    let st := st.eraseIdx (p + 1)
    let st := if st[p + 1]? = some .num then st.eraseIdx (p + 1) else st
    st.set (p + 1) .star
  else if st[p + 1]? = some .lpar then st.insertIdx (p + 1) .star
  else st

/-- the kind and the number of a tag found at `p` -/
def tagAt (st : List Tk) (p : Nat) : Option (Nat × Kind) :=
  match st[p]?, st[p - 1]? with
  | some (.tag _ id), some (.kw k) => some (id, k)
  | _, _ => none

/-- nameless structures have the tag `<something>`, smlrc.c:6816-6821 -/
def tagNm : Option Nat → Nm
  | some x => .id x
  | none => .something

def isLast : Pars → Bool
  | .nil => true
  | _ => false

mutual
/-- `ParseExpr` with `exprUnary` and `exprval`; `pl` is `ParamLevel > 0` -/
def expr (pl : Bool) : Expr → S → Option S
  | .mk ts us, s => (tys pl ts s).bind fun s => names us s

/-- type names in expressions, smlrc.c:2764-2796 and 8190-8196 -/
def tys (pl : Bool) : Tys → S → Option S
  | .nil, s => some s
  | .cons b d r, s =>
    (base pl true b s).bind fun (s, b) =>
      let p := s.st.length
      (dr pl d s).bind fun s =>
        (pushBase b s).bind fun s =>
          match findSymbol .something s.st with
          | .found q _ => tys pl r ({ s with st := s.st.set q (.ident .cast 0) }.ev (.self (q == p)))
          | _ => none

/-- `ParseBase`, smlrc.c:6728-7107; `ex` is `ExprLevel > 0`.  In parameter lists a tag found with another kind in an outer scope is rejected here but accepted by the code. -/
def base (pl ex : Bool) : Base → S → Option (S × B)
  | .void, s => some (s, .one .void)
  | .prim, s => some (s, .one .base)
  | .tdef x, s =>
    match findTypedef (.id x) s.st with
    | some p =>
      match s.st[p]? with
      | some (.tdef _ id) => some (s.ev (.tdef x id), .copy p)
      | _ => none
    | none => none
  | .ref k x id, s =>
    match findTagged (.id x) s.st with
    | .found p cur =>
      match tagAt s.st p with
      | none => none
      | some (i, k') =>
        let s := s.ev (.tag x i k' cur)
        if k' = k then some (s, .one (if k = .enum then .eptr else .sptr))
        else if cur || pl || k == .enum then none
        else some (s.push [.kw k, .tag (.id x) id], .one .sptr)
    | .absent =>
      if pl || k == .enum then none
      else some ((s.ev (.notag x)).push [.kw k, .tag (.id x) id], .one .sptr)
    | .ub => none
  | .def k x id ms, s =>
    if pl || ex then none
    else
      (header k x s).bind fun s =>
        (mems ms (s.push [.kw k, .tag (tagNm x) id, .size, .size, .lbrc])).bind fun s =>
          some (s.push [.rbrc], .one .sptr)
  | .enm x id es, s =>
    if pl || ex then none
    else
      (header .enum x s).bind fun s =>
        (enums es (s.push [.kw .enum, .tag (tagNm x) id])).bind fun s =>
          some (s, .one .eptr)

/-- the checks before a tag is given a definition, smlrc.c:6832-6879 -/
def header (k : Kind) (x : Option Nat) (s : S) : Option S :=
  match x with
  | none => some s
  | some x =>
    match findTagged (.id x) s.st with
    | .found p cur =>
      match tagAt s.st p with
      | none => none
      | some (i, k') =>
        if cur && (k' != k || k == .enum || s.st[p + 1]? == some .size) then none
        else some (s.ev (.tag x i k' cur))
    | .absent => some (s.ev (.notag x))
    | .ub => none

/-- `ParseDerived`, smlrc.c:7114-7225 -/
def dr (pl : Bool) : Dr → S → Option S
  | .mk n i sf, s =>
    (inn pl i s).bind fun s => (suf pl sf s).bind fun s => some (s.push (List.replicate n .star))

def inn (pl : Bool) : In → S → Option S
  | .name x id, s => some (s.push [.ident (.id x) id])
  | .anon, s => some (s.push [.ident .something 0])
  | .nest d, s => dr pl d s

def suf (pl : Bool) : Suf → S → Option S
  | .none, s => some s
  | .fn ps, s => (pars true ps (s.push [.lpar])).bind fun s => some (s.push [.rpar])
  | .arr ds, s => dims pl ds s

/-- the loop over `[`, smlrc.c:7201-7214, with `ParseArrayDimension` (6667-6711), which undoes the declarations made in the expression -/
def dims (pl : Bool) : Dims → S → Option S
  | .nil, s => some s
  | .empty r, s => dims pl r (s.push [.lbrk, .num, .rbrk])
  | .cons e r, s =>
    let p := s.st.length
    (expr pl e (s.push [.void, .lbrk])).bind fun s =>
      let s := (s.cut (p + 2)).push [.num, .rbrk]
      dims pl r { s with st := s.st.eraseIdx p }

/-- `ParseFxnParams`, smlrc.c:8504-8612; `f` tells that this is the first parameter -/
def pars (f : Bool) : Pars → S → Option S
  | .nil, s => some s
  | .ell, s => if f then none else some (s.push [.ident .something 0, .ell])
  | .cons b d r, s =>
    let p := s.st.length
    (base true false b s).bind fun (s, b) =>
      (dr true d s).bind fun s =>
        (pushBase b s).bind fun s =>
          let s : S := { s with st := decay p s.st }
          if s.st[s.st.length - 1]? = some .void then
            match s.st[s.st.length - 2]? with
            | some (.ident n _) => if n = .something ∧ f = true ∧ isLast r = true then some s else none
            | _ => pars false r s
          else pars false r s

/-- the members of a structure, smlrc.c:6982-6989 with `ParseDecl` (8128-8149) -/
def mems : Mems → S → Option S
  | .nil, s => some s
  | .cons b ds r, s =>
    (base false false b s).bind fun (s, b) => (memDrs b ds s).bind fun s => mems r s

def memDrs (b : B) : Drs → S → Option S
  | .nil, s => some s
  | .cons d r, s =>
    let p := s.st.length
    (dr false d s).bind fun s =>
      (pushBase b s).bind fun s =>
        match s.st[p]? with
        | some (.ident n _) => memDrs b r { s with st := (s.st.set p (.mem n)).insertIdx (p + 1) .lofs }
        | _ => none

/-- the enumerators, smlrc.c:6892-6948 -/
def enums : Enums → S → Option S
  | .nil, s => some s
  | .auto x id r, s => enums r (s.push [.ident (.id x) id, .num])
  | .cons x id e r, s =>
    let p := s.st.length
    (expr false e s).bind fun s => enums r ((s.cut p).push [.ident (.id x) id, .num])
end

/-- constant initialisers, `InitScalar`, smlrc.c:7338-7437 -/
def data : List Expr → S → Option S
  | [], s => some s
  | e :: r, s => (expr false e s).bind fun t => data r (t.cut s.st.length)

/-- the initialiser of the variable at `p`, smlrc.c:8250-8345; for an assignment the name is looked up again (5613) -/
def init (p : Nat) : Init → S → Option S
  | .none, s => some s
  | .data es, s => data es s
  | .assign e, s =>
    match s.st[p]? with
    | some (.ident (.id x) _) => (expr false e s).bind fun s => name ⟨x, false, 0⟩ s
    | _ => none

/-- local variables get an offset, static ones of functions a numbered name, smlrc.c:8151-8189; `blk` is `ParseLevel > 0` -/
def mark (blk : Bool) (sto : Sto) (p : Nat) (st : List Tk) : List Tk :=
  if st[p + 1]? = some .lpar ∨ sto = .typedef then st
  else if blk = true ∧ sto = .none then st.insertIdx (p + 1) .lofs
  else if blk = true ∧ sto = .static then st.insertIdx (p + 1) (.ident .num 0)
  else st

/-- the declarators of a declaration, smlrc.c:7935-8497 -/
def declr (blk : Bool) (sto : Sto) (b : B) : List (Dr × Init) → S → Option S
  | [], s => some s
  | (d, i) :: r, s =>
    let p := s.st.length
    (dr false d s).bind fun s =>
      (pushBase b s).bind fun s =>
        let s : S := { s with st := mark blk sto p s.st }
        if sto = .typedef then
          match s.st[p]? with
          | some (.ident n id) => declr blk sto b r { s with st := s.st.set p (.tdef n id) }
          | _ => none
        else (init p i s).bind fun s => declr blk sto b r s

/-- `ParseDecl`, smlrc.c:7900-8502 -/
def decl (blk : Bool) (d : Decl) (s : S) : Option S :=
  (base false false d.base s).bind fun (s, b) => declr blk d.sto b d.ds s

/-- a declaration without declarators, smlrc.c:7979-8020 -/
def tagDecl (b : Base) (s : S) : Option S :=
  (base false false b s).bind fun (s, b') =>
    let p := s.st.length
    let s := s.push [.ident .something 0]
    match b', b with
    | .one .sptr, .ref k x id =>
      let s := s.push [.sptr]
      match findTagged (.id x) (s.st.take p) with
      | .found _ false => some (s.push [.kw k, .tag (.id x) id])
      | .ub => none
      | _ => some s
    | .one .sptr, .def _ (some _) _ _ => some (s.push [.sptr])
    | .one .eptr, _ => some (s.push [.eptr])
    | _, _ => none

/-- the copying of one parameter, smlrc.c:8684-8722: the entries up to the next name or `)`; `c` counts open parentheses -/
def copyPar : Nat → List Tk → Option (List Tk × List Tk)
  | _, [] => none
  | 0, t :: r =>
    match t with
    | .ident _ _ => some ([], t :: r)
    | .rpar => some ([], t :: r)
    | .lpar => (copyPar 1 r).bind fun (l, q) => some (t :: l, q)
    | _ => (copyPar 0 r).bind fun (l, q) => some (t :: l, q)
  | c + 1, t :: r =>
    let c' := if t = .lpar then c + 2 else if t = .rpar then c else c + 1
    (copyPar c' r).bind fun (l, q) => some (t :: l, q)

/-- the loop of `AddFxnParamSymbols`, smlrc.c:8654-8730, over what stands behind `ident (`; `n` bounds the number of rounds.  Names must not be missing (8693). -/
def addParams : Nat → List Tk → List Tk → Option (List Tk)
  | 0, _, _ => none
  | n + 1, q, st =>
    match q with
    | .ident _ _ :: .void :: _ => some st
    | .ident _ _ :: .ell :: _ => some st
    | .ident m id :: q =>
      (copyPar 0 q).bind fun (l, q) =>
        match m with
        | .id _ => addParams n q (st ++ .ident m id :: .lofs :: l)
        | _ => none
    | .rpar :: _ => some st
    | _ => none

/-- `ParseBlock` and the declarations and nested blocks of `ParseStatement`, smlrc.c:9673-9719, 8780-8796, 9280-9291, 9432-9436 -/
def items : Items → S → Option S
  | .nil, s => some s
  | .decl d r, s => (decl true d s).bind fun s => items r s
  | .tag b r, s => (tagDecl b s).bind fun s => items r s
  | .expr e r, s => (expr false e s).bind fun s => items r s
  | .block b r, s => (items b (s.push [.hash])).bind fun t => items r (t.cut s.st.length)
  | .for_ d b r, s =>
    (decl true d (s.push [.hash])).bind fun t => (items b t).bind fun t => items r (t.cut s.st.length)

/-- the definition of a function, smlrc.c:8356-8477 -/
def fnDef (b : Base) (d : Dr) (body : Items) (s : S) : Option S :=
  (base false false b s).bind fun (s, b) =>
    let p := s.st.length
    (dr false d s).bind fun s =>
      (pushBase b s).bind fun s =>
        if s.st[p + 1]? = some .lpar then
          (addParams (s.st.length + 1) (s.st.drop (p + 2)) (s.st ++ [.hash])).bind fun st =>
            (items body { s with st := st }).bind fun t => some (t.cut s.st.length)
        else none

def top : Top → S → Option S
  | .decl d, s => decl false d s
  | .tag b, s => tagDecl b s
  | .fn b d body, s => fnDef b d body s

def prog : List Top → S → Option S
  | [], s => some s
  | t :: r, s => (top t s).bind fun s => prog r s

/-- `SyntaxStackInit`, smlrc.c:9729-9743 -/
def start : List Tk := [.void, .base, .base, .void, .base, .ident .empty 0, .lbrk, .num, .rbrk, .base]

/-- the outcomes of all searches while a program is compiled -/
def run (p : List Top) : Option (List Ev) := (prog p ⟨start, []⟩).bind fun s => some s.tr

end Smlr.Scope
