/-!
# Initialisers: emission of initialised data (smlrc.c:7286-7655)

Types are trees: scalars with their size, arrays, structures and unions with the offsets of their members and their size, as `ParseDecl` and `ParseBase` have put them on the syntax stack (C22).
The text of an initialiser is a list of tokens in which a constant expression is one token with its value (C16 is about that value); a string literal stands for itself, and as an expression it is the address of the literal.

Simplifications: conversions between integers and `float` (7384-7394) and the checks of operand types (7370-7378) are left out; `truncUint` limits on the length of strings (7474-7476) are left out.
-/
set_option autoImplicit false

namespace Smlr.Init

inductive Sym where
  | name (x : Nat)
  /-- a string literal, stored elsewhere -/
  | str (wide : Bool) (s : List Nat)
  deriving DecidableEq, Repr

/-- values of constant expressions: numbers and addresses -/
inductive V where
  | int (z : Int)
  | addr (s : Sym) (z : Int)
  deriving DecidableEq, Repr

inductive Tok where
  | lb | rb | comma | semi
  /-- `tokLitStr`, `tokLitStrWide` -/
  | lit (wide : Bool) (s : List Nat)
  /-- an expression that is not just a string literal; the first token is one if `l` says so -/
  | ex (l : Option Bool) (v : V)
  deriving DecidableEq, Repr

/-- a byte of the data: a number, or the `i`-th byte of an address -/
inductive Cell where
  | b (x : Nat)
  | a (s : Sym) (z : Int) (i : Nat)
  deriving DecidableEq, Repr

mutual
inductive Ty where
  /-- a scalar of `n` bytes; `k` tells whether arrays of it may be initialised with a string literal (`false`: `char` types, `true`: `wchar_t`), 7448-7450 -/
  | sc (n : Nat) (k : Option Bool)
  /-- 0 elements: the number is not given -/
  | arr (n : Nat) (t : Ty)
  | su (union : Bool) (size : Nat) (ms : Mems)
inductive Mems where
  | nil
  | cons (ofs : Nat) (t : Ty) (r : Mems)
end

/-- `GetDeclSize`, smlrc.c:6343-6437 (C22 is about its overflow checks) -/
def size : Ty → Nat
  | .sc n _ => n
  | .arr n t => n * size t
  | .su _ sz _ => sz

/-- `n` bytes of a number, the lowest first: `db`, `dw` or `dd` of `GenIntData`, cgx86.c:224-236 -/
def le : Nat → Int → List Cell
  | 0, _ => []
  | n + 1, z => .b (z % 256).toNat :: le n (z / 256)

/-- `GenZeroData`, cgx86.c:218-222 -/
def zeros (n : Nat) : List Cell := List.replicate n (.b 0)

/-- the data of a scalar, smlrc.c:7380-7432 -/
def cells (W n : Nat) (v : V) : Option (List Cell) :=
  match v with
  | .int z => some (le n z)
  | .addr s z => if n = W then some ((List.range n).map (.a s z)) else none

/-- adjacent string literals, smlrc.c:7466-7487 -/
def lits (w : Bool) : List Tok → Option (List Nat × List Tok)
  | .lit w' s :: r => if w' = w then (lits w r).bind fun a => some (s ++ a.1, a.2) else none
  | r => some ([], r)

/-- `ParseExpr` in `InitScalar` -/
def value (ts : List Tok) : Option (V × List Tok) :=
  match ts with
  | .ex _ v :: r => some (v, r)
  | .lit w s :: r => (lits w r).bind fun a => some (.addr (.str w (s ++ a.1)) 0, a.2)
  | _ => none

/-- the opening brace, if any -/
def opened (ts : List Tok) : Bool × List Tok :=
  match ts with
  | .lb :: r => (true, r)
  | _ => (false, ts)

/-- the closing brace -/
def close (br : Bool) (ts : List Tok) : Option (List Tok) :=
  if br then
    match ts with
    | .rb :: r => some r
    | _ => none
  else some ts

/-- `InitScalar`, smlrc.c:7338-7437 -/
def initScalar (W n : Nat) (ts : List Tok) : Option (List Cell × List Tok) :=
  (value (opened ts).2).bind fun a =>
    (close (opened ts).1 a.2).bind fun r =>
      (cells W n a.1).bind fun o => some (o, r)

/-- a comma after the last element, smlrc.c:7529-7530, 7631-7632 -/
def lastComma (br : Bool) (ts : List Tok) : List Tok :=
  match ts with
  | .comma :: r => if br then r else ts
  | _ => ts

/-- the loop over elements, smlrc.c:7511-7538; `n` is `elementsRequired`, `cnt` is `elementCnt`, the first argument bounds the number of rounds -/
def arrLoop (f : List Tok → Option (List Cell × List Tok)) (br : Bool) (n : Nat) : Nat → Nat → List Tok → Option (List Cell × Nat × List Tok)
  | 0, _, _ => none
  | fuel + 1, cnt, ts =>
    match ts with
    | .rb :: r => some ([], cnt, .rb :: r)
    | ts =>
      (f ts).bind fun a =>
        if n ≠ 0 ∧ cnt + 1 ≥ n then some (a.1, cnt + 1, lastComma br a.2)
        else
          match a.2 with
          | .comma :: r => (arrLoop f br n fuel (cnt + 1) r).bind fun c => some (a.1 ++ c.1, c.2)
          | .rb :: r => (arrLoop f br n fuel (cnt + 1) (.rb :: r)).bind fun c => some (a.1 ++ c.1, c.2)
          | _ => none

/-- does the initialiser of an array begin with a string literal for the whole array, smlrc.c:7459-7463 -/
def strStart (k : Option Bool) (ts : List Tok) : Bool :=
  match ts with
  | .lit w _ :: _ => k == some w
  | .ex (some w) _ :: _ => k == some w
  | _ => false

def kind : Ty → Option Bool
  | .sc _ k => k
  | _ => none

/-- `InitArray`, smlrc.c:7440-7556, with the code `f` for elements of `sz` bytes; the number of elements is also returned.
An expression that begins with a string literal is not accepted for an array of characters: what follows the literal is neither `,` nor `}` nor `;`, which ends in an error. -/
def initArr (f : List Tok → Option (List Cell × List Tok)) (n sz : Nat) (k : Option Bool) (ts : List Tok) : Option (List Cell × Nat × List Tok) :=
  let br := (opened ts).1
  let ts := (opened ts).2
  if strStart k ts then
    match ts with
    | .lit w s :: r =>
      (lits w r).bind fun a =>
        let s := s ++ a.1
        if n ≠ 0 ∧ s.length > n then none
        else
          (close br a.2).bind fun r =>
            some ((s : List Nat).flatMap (fun c : Nat => le sz (c : Int)) ++ zeros ((n - s.length) * sz) ++ (if n = 0 then zeros sz else []), if n = 0 then s.length + 1 else n, r)
    | _ => none
  else
    (arrLoop f br n (n + ts.length + 1) 0 ts).bind fun a =>
      if br = true ∧ a.2.1 = 0 then none
      else
        (close br a.2.2).bind fun r => some (a.1 ++ zeros ((n - a.2.1) * sz), if n = 0 then a.2.1 else n, r)

mutual
/-- `InitArray`, `InitStruct` or `InitScalar`, smlrc.c:7513-7524, 7602-7613 -/
def init (W : Nat) : Ty → List Tok → Option (List Cell × List Tok)
  | .sc n _, ts => initScalar W n ts
  | .arr n t, ts => (initArr (fun ts => init W t ts) n (size t) (kind t) ts).bind fun a => some (a.1, a.2.2)
  | .su u sz ms, ts =>
    let br := (opened ts).1
    (memLoop W u br ms 0 (opened ts).2).bind fun a =>
      if br = true ∧ a.2.1 = 0 then none
      else (close br a.2.2).bind fun r => some (a.1 ++ zeros (sz - a.2.1), r)

/-- the loop of `InitStruct` over members, smlrc.c:7587-7640; `ofs` is the end of the member before.  A structure without members does not get here. -/
def memLoop (W : Nat) (u br : Bool) : Mems → Nat → List Tok → Option (List Cell × Nat × List Tok)
  | .nil, _, _ => none
  | .cons o t ms, ofs, ts =>
    match ts with
    | .rb :: r => some ([], ofs, .rb :: r)
    | ts =>
      (init W t ts).bind fun a =>
        let out := zeros (o - ofs) ++ a.1
        match ms, u with
        | .nil, _ => some (out, o + size t, lastComma br a.2)
        | .cons .., true => some (out, o + size t, lastComma br a.2)
        | .cons .., false =>
          match a.2 with
          | .comma :: r => (memLoop W u br ms (o + size t) r).bind fun c => some (out ++ c.1, c.2)
          | .rb :: r => (memLoop W u br ms (o + size t) (.rb :: r)).bind fun c => some (out ++ c.1, c.2)
          | _ => none
end

/-- `InitVar`, smlrc.c:7291-7335: the data, the completed type and the tokens that follow -/
def initVar (W : Nat) (t : Ty) (ts : List Tok) : Option (List Cell × Ty × List Tok) :=
  let r : Option (List Cell × Ty × List Tok) :=
    match t with
    | .arr n e =>
      if ts.head? = some .lb ∨ strStart (kind e) ts = true then
        (initArr (fun ts => init W e ts) n (size e) (kind e) ts).bind fun a => some (a.1, .arr a.2.1 e, a.2.2)
      else none
    | .su u sz ms => if ts.head? = some .lb then (init W (.su u sz ms) ts).bind fun a => some (a.1, t, a.2) else none
    | .sc n k => (init W (.sc n k) ts).bind fun a => some (a.1, t, a.2)
  r.bind fun a =>
    if a.2.2.head? = some .comma ∨ a.2.2.head? = some .semi then some a else none

end Smlr.Init
