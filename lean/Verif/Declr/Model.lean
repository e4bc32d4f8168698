set_option autoImplicit false
/-
Declarators: `ParseDerived`, `ParseFxnParams`, `PushBase` and what `ParseDecl` does with one declarator
- v0100/smlrc.c (configuration with typedef and enum and with structures by value; `__interrupt` is left out).

Simplifications:
* the input is the list of the tokens from the current one on; a sequence of declaration specifiers is
  one token (how they are read is C36), and so is the constant expression of an array dimension, with
  its value (C23, C24); an identifier comes with the place in the symbol table of the typedef that it
  names, if it does (`FindTypedef`, C21);
* identifiers are numbers, `none` is the name `<something>` given to what has no name;
* the symbol table ("syntax stack") is the list of its entries, the last one on top; it does not overflow.
-/
namespace Smlr.Declr

/-- base types: `tokVoid`, `tokEnumPtr`, and all others; `plain 0` is `tokInt` -/
inductive B where
  | void | enum | plain (b : Nat)
deriving DecidableEq, Repr

/-- tokens -/
inductive Tok where
  | star | lpar | rpar | lbrk | rbrk | comma | semi | lbrace | assign | ellipsis | other
  | num (n : Nat) | kw (b : B) | ident (x : Nat) (td : Option Nat)
deriving DecidableEq, Repr

/-- entries of the symbol table -/
inductive Ent where
  | ident (x : Option Nat) | star | lbrk | rbrk | lpar | rpar | num (n : Nat) | base (b : B) | ellipsis
  | other (n : Nat)
deriving DecidableEq, Repr

/-- a result, `error()` or the end of the fuel of the model -/
inductive R (α : Type) where
  | ok (a : α) | error | fuel
deriving DecidableEq, Repr

def R.bind {α β : Type} : R α → (α → R β) → R β
  | .ok a, f => f a
  | .error, _ => .error
  | .fuel, _ => .fuel

/-- `TokenStartsDeclaration(tok, 1)`, smlrc.c:6136-6158 -/
def starts : Tok → Bool
  | .kw _ => true
  | .ident _ (some _) => true
  | _ => false

/-- the variable `base` after `ParseBase`: a base type or a typedef (its place), smlrc.c:7050-7070 -/
inductive Base where
  | kw (b : B) | td (p : Nat)
deriving DecidableEq, Repr

/-- `while (tok == '*')`, smlrc.c:7124-7128: the number of stars and the tokens after them -/
def stars : List Tok → Nat × List Tok
  | .star :: r => ((stars r).1 + 1, (stars r).2)
  | r => (0, r)

/-- the tokens that may follow a declarator, smlrc.c:7220 -/
def follow : List Tok → Bool
  | .comma :: _ => true
  | .semi :: _ => true
  | .lbrace :: _ => true
  | .assign :: _ => true
  | .rpar :: _ => true
  | _ => false

/-- `DeleteSyntax(pos, 1)`, smlrc.c:6197-6206 -/
def deleteAt (s : List Ent) (pos : Nat) : List Ent := s.take pos ++ s.drop (pos + 1)

/-- `InsertSyntax(pos, t)`, smlrc.c:6175-6194 -/
def insertAt (s : List Ent) (pos : Nat) (e : Ent) : List Ent := s.take pos ++ e :: s.drop pos

/-- `ParseArrayDimension`, smlrc.c:6667-6715, from the token after `[` on: the tokens from `]` on -/
def dimension (allowEmpty : Bool) (ts : List Tok) (s : List Ent) : R (List Tok × List Ent) :=
  match ts with
  | .num n :: .rbrk :: r => if n < 1 then .error else .ok (.rbrk :: r, s ++ [.num n])
  | .rbrk :: r => if allowEmpty then .ok (.rbrk :: r, s ++ [.num 0]) else .error
  | _ => .error

/-- the loop over `[`, smlrc.c:7199-7213 -/
def dims : Nat → Bool → List Tok → List Ent → R (List Tok × List Ent)
  | 0, _, _, _ => .fuel
  | k + 1, allowEmpty, ts, s =>
    match ts with
    | .lbrk :: r =>
      let oldsp := s.length
      (dimension allowEmpty r (s ++ [.base .void] ++ [.lbrk])).bind fun (r, s) =>
      match r with
      | .rbrk :: r => dims k false r (deleteAt (s ++ [.rbrk]) oldsp)
      | _ => .error
    | _ => .ok (ts, s)

/-- `(tok == '(') - (tok == ')') + (tok == '[') - (tok == ']')`, smlrc.c:7252 -/
def delta : Ent → Int
  | .lpar => 1
  | .rpar => -1
  | .lbrk => 1
  | .rbrk => -1
  | _ => 0

/-- the copying loop of `PushBase`, smlrc.c:7237-7268: `l` are the entries after `SyntaxStack[ptr]` -/
def copy : List Ent → Int → List Ent → R (List Ent)
  | [], _, _ => .error
  | e :: l, c, s =>
    let t := s.getLast?
    if ((t = some .rpar ∨ t = some .rbrk) ∧ e = .lpar) ∨ (t = some .rpar ∧ e = .lbrk) then .error
    else
      let s := s ++ [e]
      let c := c + delta e
      match e with
      | .base .void => if c = 0 then .ok s else copy l c s
      | .base (.plain _) => if c = 0 then .ok s else copy l c s
      | _ => copy l c s

/-- no arrays of void, smlrc.c:7276-7279 -/
def voidElems (s : List Ent) : Bool :=
  s.getLast? = some (Ent.base .void) && s.dropLast.getLast? = some Ent.rbrk

/-- `PushBase`, smlrc.c:7228-7280 -/
def pushBase (b : Base) (s : List Ent) : R (List Ent) :=
  R.bind (match b with
    | .td p => copy (s.drop (p + 1)) 0 s
    | .kw b => .ok (s ++ [.base b])) fun s => if voidElems s then .error else .ok s

/-- enums become ints, smlrc.c:8019-8024 and 8549-8554 -/
def enumToInt (s : List Ent) : List Ent :=
  if s.getLast? = some (.base .enum) then s.dropLast ++ [.base (.plain 0)] else s

/-- `ParseBase`, smlrc.c:6728-7104, on specifiers that are one token -/
def parseBase : List Tok → R (Base × List Tok)
  | .kw b :: r => .ok (.kw b, r)
  | .ident _ (some p) :: r => .ok (.td p, r)
  | _ => .error

/-- arrays and functions among the parameters become pointers, smlrc.c:8557-8572; `q` is the index of
the name -/
def decay (s : List Ent) (q : Nat) : List Ent :=
  match s[q + 1]? with
  | some .lbrk =>
    let s := deleteAt s (q + 1)
    let s := match s[q + 1]? with
      | some (.num _) => deleteAt s (q + 1)
      | _ => s
    s.set (q + 1) .star
  | some .lpar => insertAt s (q + 1) .star
  | _ => s

/-- a parameter must not be void, but for a lone `(void)`, smlrc.c:8576-8589 -/
def voidParam (s : List Ent) (cnt : Nat) (last : Bool) : Bool :=
  s.getLast? = some (.base .void) &&
  (match s.dropLast.getLast? with
    | some (.ident x) => !(x = none && cnt = 1 && last)
    | _ => false)

/-- what follows the type of a parameter, smlrc.c:8574-8607; `more` is the next round of the loop -/
def afterParam (more : List Tok → List Ent → R (List Tok × List Ent)) (cnt : Nat) (ts : List Tok) (s : List Ent) :
    R (List Tok × List Ent) :=
  match ts with
  | .rpar :: r => if voidParam s cnt true then .error else .ok (.rpar :: r, s)
  | .comma :: r => if voidParam s cnt false then .error else more r s
  | _ => .error

/-- an array of functions or a function returning a function or an array, smlrc.c:7175-7177, 7196-7197 -/
def badFn (s : List Ent) : Bool := s.getLast? = some .rpar || s.getLast? = some .rbrk
def badArr (s : List Ent) : Bool := s.getLast? = some .rpar

mutual
/-- `ParseDerived`, smlrc.c:7113-7225 -/
def derived : Nat → List Tok → List Ent → R (List Tok × List Ent)
  | 0, _, _ => .fuel
  | k + 1, ts, s =>
    let n := (stars ts).1
    let ts := (stars ts).2
    -- :7145-7171, `params`, the tokens and the stack
    let head : R (Bool × List Tok × List Ent) :=
      match ts with
      | .lpar :: r =>
        match r with
        | [] => .error
        | t :: _ =>
          if t ≠ .rpar ∧ starts t = false then
            (derived k r s).bind fun (r, s) =>
            match r with
            | .rpar :: r => .ok (false, r, s)
            | _ => .error
          else .ok (true, r, s)
      | .ident x _ :: r => .ok (false, r, s ++ [.ident (some x)])
      | _ => .ok (false, ts, s ++ [.ident none])
    head.bind fun (params, ts, s) =>
    let tail : R (List Tok × List Ent) :=
      if params then                                              -- :7173-7193
        if badFn s then .error else
        (fxnParams k ts (s ++ [.ident none] ++ [.lpar]) 0 false).bind fun (ts, s) =>
        .ok (ts.tail, s ++ [.rpar])
      else match ts with
      | .lpar :: r =>
        if badFn s then .error else
        (fxnParams k r (s ++ [.lpar]) 0 false).bind fun (ts, s) =>
        .ok (ts.tail, s ++ [.rpar])
      | .lbrk :: _ => if badArr s then .error else dims (ts.length + 1) true ts s   -- :7194-7214
      | _ => .ok (ts, s)
    tail.bind fun (ts, s) =>
    if follow ts then .ok (ts, s ++ List.replicate n .star) else .error    -- :7216-7224

/-- `ParseFxnParams`, smlrc.c:8504-8613; `ell`: `...` has been seen.  The tokens left begin with `)`. -/
def fxnParams : Nat → List Tok → List Ent → Nat → Bool → R (List Tok × List Ent)
  | 0, _, _, _, _ => .fuel
  | k + 1, ts, s, cnt, ell =>
    match ts with
    | [] => .error
    | .rpar :: r => .ok (.rpar :: r, s)                           -- :8515-8516
    | t :: r =>
      if starts t = false then                                    -- :8518-8535
        if t ≠ .ellipsis ∨ cnt = 0 ∨ ell then .error
        else
          -- the base is `...`; no decay
          afterParam (fun ts s => fxnParams k ts s (cnt + 1) true) (cnt + 1) r (s ++ [.ident none] ++ [.ellipsis])
      else                                                        -- :8536-8548
        if ell then .error else
        (parseBase (t :: r)).bind fun (b, r) =>
        (derived k r s).bind fun (r, s') =>
        (pushBase b s').bind fun s' =>
        afterParam (fun ts s => fxnParams k ts s (cnt + 1) false) (cnt + 1) r (decay (enumToInt s') s.length)
end

/-- one declarator of `ParseDecl`, smlrc.c:7934-7943, 8019-8024: the tokens left and the symbol table with
the new declaration -/
def declare (k : Nat) (b : Base) (ts : List Tok) (s : List Ent) : R (List Tok × List Ent) :=
  (derived k ts s).bind fun (ts, s) => (pushBase b s).bind fun s => .ok (ts, enumToInt s)

/-- `ParseBase` and the first declarator, smlrc.c:7914, 7934-7943 -/
def declaration (k : Nat) (ts : List Tok) (s : List Ent) : R (List Tok × List Ent) :=
  (parseBase ts).bind fun (b, ts) => declare k b ts s

end Smlr.Declr
