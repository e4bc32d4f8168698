set_option autoImplicit false
/-! Model of ucpp/eval.c: constants and expressions of `#if`, with the native arithmetic of ucpp/arith.c:222-750.
`w` is `NATIVE_UNSIGNED_BITS`: 64, or 32 when built with Smaller C (ucpp/config.h:225-237).  `long` is taken to have `w` bits and `int` 32 bits, both in two's complement.
Not modelled: the text of diagnostics, the warnings of `ARITHMETIC_CHECKS`, `transient_characters` (taken as null), names and `defined` (replaced before `eval_expr` is called, ucpp/cpp.c).
-/
namespace Smlr.Eval

/-- how a call ends: with a value; with `throw(eval_exception)`; in undefined behaviour of the C code itself; or (model only) with the fuel used up -/
inductive Res (α : Type)
  | ok (a : α)
  | err
  | ub
  | oof
  deriving DecidableEq, Repr

def Res.bind {α β : Type} : Res α → (α → Res β) → Res β
  | .ok a, f => f a
  | .err, _ => .err
  | .ub, _ => .ub
  | .oof, _ => .oof

/-- the operators of `OP_UN`, eval.c:361-371 -/
inductive Uop
  | lnot | not | uplus | uminus
  deriving DecidableEq, Repr

/-- the operators of `OP_BIN`, eval.c:395-421 -/
inductive Bop
  | star | slash | pct | plus | minus | lsh | rsh | lt | leq | gt | geq | same | neq
  | and | circ | or | land | lor | comma
  deriving DecidableEq, Repr

/-- tokens by `type` and `name`; `other` is any type not used in expressions -/
inductive Tok
  | num (s : List Char)
  | chr (s : List Char)
  | name
  | lpar
  | rpar
  | bin (o : Bop)
  | un (o : Uop)
  | quest
  | colon
  | other
  deriving DecidableEq, Repr

/-- `ppval`, eval.c:161-167; the two members of the union are the same bits -/
structure V (w : Nat) where
  sign : Bool
  v : BitVec w
  deriving DecidableEq, Repr

/-- `boolval`, eval.c:169-172 -/
def boolval {w : Nat} (x : V w) : Bool := x.v != 0#w

/-! ### constants -/

def isOct (c : Char) : Bool := '0' ≤ c && c ≤ '7'
def isDec (c : Char) : Bool := '0' ≤ c && c ≤ '9'
/-- `HEXAD`, eval.c:50-54 and arith.c:40-46 -/
def isHex (c : Char) : Bool :=
  isDec c || c == 'a' || c == 'b' || c == 'c' || c == 'd' || c == 'e' || c == 'f'
  || c == 'A' || c == 'B' || c == 'C' || c == 'D' || c == 'E' || c == 'F'
/-- `OVAL`, `DVAL`, eval.c:55-56 -/
def dval (c : Char) : Nat := c.toNat - '0'.toNat
/-- `HVAL`, eval.c:57-62 -/
def hval (c : Char) : Nat :=
  if isDec c then dval c
  else if c == 'a' || c == 'A' then 10
  else if c == 'b' || c == 'B' then 11
  else if c == 'c' || c == 'C' then 12
  else if c == 'd' || c == 'D' then 13
  else if c == 'e' || c == 'E' then 14
  else 15

/-- the loop of `octconst`, arith.c:671-683; the result is the value and what follows the digits -/
def octLoop (w : Nat) : List Char → Nat → Res (Nat × List Char)
  | [], z => .ok (z, [])
  | c :: s, z =>
    if isOct c then
      if z > (2 ^ w - 1) / 8 then .err
      else octLoop w s ((z * 8 % 2 ^ w + dval c) % 2 ^ w)
    else .ok (z, c :: s)

/-- the loop of `decconst`, arith.c:703-711 -/
def decLoop (w : Nat) : List Char → Nat → Res (Nat × List Char)
  | [], z => .ok (z, [])
  | c :: s, z =>
    if isDec c then
      if z > (2 ^ w - 1) / 10 then .err
      else
        let z := z * 10 % 2 ^ w
        if z > (2 ^ w - 1) - dval c then .err
        else decLoop w s ((z + dval c) % 2 ^ w)
    else .ok (z, c :: s)

/-- the loop of `hexconst`, arith.c:731-743 -/
def hexLoop (w : Nat) : List Char → Nat → Res (Nat × List Char)
  | [], z => .ok (z, [])
  | c :: s, z =>
    if isHex c then
      if z > (2 ^ w - 1) / 16 then .err
      else hexLoop w s ((z * 16 % 2 ^ w + hval c) % 2 ^ w)
    else .ok (z, c :: s)

/-- `pp_suffix`, eval.c:188-219: `true` for signed -/
def ppSuffix : List Char → Res Bool
  | [] => .ok true
  | d :: s =>
    if d == 'u' || d == 'U' then
      match s with
      | [] => .ok false
      | d :: e =>
        if d == 'l' || d == 'L' then
          match e with
          | [] => .ok false
          | [e0] => if e0 != d then .err else .ok false
          | _ :: _ :: _ => .err
        else .err
    else if d == 'l' || d == 'L' then
      match s with
      | [] => .ok true
      | d1 :: s1 =>
        if d1 == d then
          match s1 with
          | [] => .ok true
          | [d2] => if d2 == 'u' || d2 == 'U' then .ok false else .err
          | _ :: _ :: _ => .err
        else
          match s1 with
          | [] => if d1 == 'u' || d1 == 'U' then .ok false else .err
          | _ :: _ => .err
    else .err

/-- the loops over at most `n` hexadecimal digits of `\u` and `\U`, eval.c:243 and 252: digits read, value, rest -/
def ucnLoop (w : Nat) : Nat → List Char → Nat → Nat × Nat
  | 0, _, r => (0, r)
  | n + 1, c :: s, r =>
    if isHex c then
      let (i, r) := ucnLoop w n s ((r * 16 + hval c) % 2 ^ w)
      (i + 1, r)
    else (0, r)
  | _ + 1, [], r => (0, r)

/-- the loop of `\x`, eval.c:261 -/
def xLoop (w : Nat) : List Char → Nat → Nat
  | c :: s, r => if isHex c then xLoop w s ((r * 16 + hval c) % 2 ^ w) else r
  | [], r => r

/-- `pp_char`, eval.c:221-291, from behind the opening quote; what follows the first character is not looked at but for a warning -/
def ppChar (w : Nat) : List Char → Res Nat
  | '\\' :: c :: s =>
    if c == 'n' then .ok 10
    else if c == 't' then .ok 9
    else if c == 'v' then .ok 11
    else if c == 'b' then .ok 8
    else if c == 'r' then .ok 13
    else if c == 'f' then .ok 12
    else if c == 'a' then .ok 7
    else if c == '\\' then .ok 92
    else if c == '?' then .ok 63
    else if c == '\'' then .ok 39
    else if c == '"' then .ok 34
    else if c == 'u' then
      let (i, r) := ucnLoop w 4 s 0
      if i != 4 then .err else .ok r
    else if c == 'U' then
      let (i, r) := ucnLoop w 8 s 0
      if i != 8 then .err else .ok r
    else if c == 'x' then .ok (xLoop w s 0)
    else if isOct c then
      match s with
      | c1 :: s1 =>
        if isOct c1 then
          match s1 with
          | c2 :: _ => if isOct c2 then .ok ((dval c * 8 + dval c1) * 8 + dval c2) else .ok (dval c * 8 + dval c1)
          | [] => .ok (dval c * 8 + dval c1)
        else .ok (dval c)
      | [] => .ok (dval c)
    else .err
  | '\\' :: [] => .err
  | '\'' :: _ => .err
  | c :: _ => .ok c.toNat
  | [] => .ok 0

/-- the end of `pp_strtoconst`, eval.c:326-345, with `sp` of `octconst`, `decconst`, `hexconst` -/
def finish (w : Nat) (dec : Bool) (z : Nat) (d : List Char) : Res (V w) :=
  let sp : Bool := !decide (z > 2 ^ (w - 1) - 1)
  (ppSuffix d).bind fun sign =>
    if sign then
      if !sp then
        if dec then .err else .ok ⟨false, BitVec.ofNat w z⟩
      else .ok ⟨true, BitVec.ofNat w z⟩
    else .ok ⟨false, BitVec.ofNat w z⟩

/-- `pp_strtoconst`, eval.c:293-346, with `WCHAR_SIGNEDNESS` 1 -/
def strtoconst (w : Nat) : List Char → Res (V w)
  | '\'' :: s => (ppChar w s).bind fun r => .ok ⟨true, BitVec.ofNat w r⟩
  | 'L' :: '\'' :: s => (ppChar w s).bind fun r => .ok ⟨true, BitVec.ofNat w r⟩
  | 'L' :: _ => .err
  | '0' :: 'x' :: s => (hexLoop w s 0).bind fun (z, d) => finish w false z d
  | '0' :: 'X' :: s => (hexLoop w s 0).bind fun (z, d) => finish w false z d
  | '0' :: s => (octLoop w s 0).bind fun (z, d) => finish w false z d
  | s => (decLoop w s 0).bind fun (z, d) => finish w true z d

/-! ### arithmetic -/

/-- the result of a C operation on the signed type: undefined when it does not fit -/
def sres (w : Nat) (z : Int) : Res (BitVec w) :=
  if -2 ^ (w - 1) ≤ z ∧ z < 2 ^ (w - 1) then .ok (BitVec.ofInt w z) else .ub

/-- `big_s_slash`, arith.c:648-656 -/
def sSlash {w : Nat} (x y : BitVec w) : Res (BitVec w) :=
  if y == 0#w then .err
  else if x.toInt == -2 ^ (w - 1) && y.toInt == -1 then .err
  else sres w (x.toInt.tdiv y.toInt)

/-- `big_s_pct`, arith.c:661-665: `x % y` is undefined when `x / y` does not fit -/
def sPct {w : Nat} (x y : BitVec w) : Res (BitVec w) :=
  if y == 0#w then .err
  else if x.toInt == -2 ^ (w - 1) && y.toInt == -1 then .ub
  else sres w (x.toInt.tmod y.toInt)

/-- `big_u_slash`, arith.c:281-285 -/
def uSlash {w : Nat} (x y : BitVec w) : Res (BitVec w) := if y == 0#w then .err else .ok (x / y)

/-- `big_u_pct`, arith.c:287-291 -/
def uPct {w : Nat} (x y : BitVec w) : Res (BitVec w) := if y == 0#w then .err else .ok (x % y)

/-- `big_s_lsh`, arith.c:550-567 -/
def sLsh {w : Nat} (x : BitVec w) (y : Int) : Res (BitVec w) :=
  if y < 0 ∨ y ≥ w then .ub
  else if x.toInt < 0 then .ub
  else sres w (x.toInt * 2 ^ y.toNat)

/-- `big_s_rsh`, arith.c:575-590: the sign is extended -/
def sRsh {w : Nat} (x : BitVec w) (y : Int) : Res (BitVec w) :=
  if y < 0 ∨ y ≥ w then .ub else .ok (x.sshiftRight y.toNat)

/-- `big_u_lsh`, arith.c:259-268 -/
def uLsh {w : Nat} (x : BitVec w) (y : Int) : Res (BitVec w) :=
  if y < 0 ∨ y ≥ w then .ub else .ok (x <<< y.toNat)

/-- `big_u_rsh`, arith.c:270-279 -/
def uRsh {w : Nat} (x : BitVec w) (y : Int) : Res (BitVec w) :=
  if y < 0 ∨ y ≥ w then .ub else .ok (x >>> y.toNat)

/-- `big_s_toint`, arith.c:307-316 -/
def sToint {w : Nat} (x : BitVec w) : Int :=
  if x.toInt < -2147483648 then -2147483648
  else if x.toInt > 2147483647 then 2147483647
  else x.toInt

/-- `big_u_toint`, arith.c:228-234 -/
def uToint {w : Nat} (x : BitVec w) : Int :=
  if x.toNat > 2147483647 then 2147483647 else x.toNat

/-- `big_s_fromint` of a truth value -/
def ofBool (w : Nat) (b : Bool) : BitVec w := if b then 1#w else 0#w

/-- `eval_opun`, eval.c:373-393 -/
def opun {w : Nat} (op : Uop) (v : V w) : Res (V w) :=
  match op with
  | .lnot => .ok ⟨true, ofBool w (v.v == 0#w)⟩
  | .not => .ok ⟨v.sign, ~~~v.v⟩
  | .uplus => .ok v
  | .uminus => if v.sign then (sres w (-v.v.toInt)).bind fun r => .ok ⟨true, r⟩ else .ok ⟨false, -v.v⟩

/-- `SBINOP`, eval.c:487-488 -/
def sbinop {w : Nat} (sign : Bool) (s u : BitVec w → BitVec w → Res (BitVec w)) (v1 v2 : V w) : Res (V w) :=
  if sign then (s v1.v v2.v).bind fun r => .ok ⟨true, r⟩ else (u v1.v v2.v).bind fun r => .ok ⟨false, r⟩

/-- `NSSBINOP`, eval.c:490-492, with the sign of `v1` after the conversions -/
def nssbinop {w : Nat} (sign : Bool) (s u : BitVec w → BitVec w → Bool) (v1 v2 : V w) : Res (V w) :=
  .ok ⟨true, ofBool w (if sign then s v1.v v2.v else u v1.v v2.v)⟩

/-- `ABINOP`, eval.c:499-500 -/
def abinop {w : Nat} (s u : BitVec w → Int → Res (BitVec w)) (v1 v2 : V w) : Res (V w) :=
  let iv2 := if v2.sign then sToint v2.v else uToint v2.v
  if v1.sign then (s v1.v iv2).bind fun r => .ok ⟨true, r⟩ else (u v1.v iv2).bind fun r => .ok ⟨false, r⟩

/-- `eval_opbin`, eval.c:423-523.  `c` is the sign of the result of `*` to `|`, and of `v1` for the comparisons, after the conversions of 432-443 and 449-457. -/
def opbin {w : Nat} (op : Bop) (v1 v2 : V w) : Res (V w) :=
  let c := v1.sign && v2.sign
  match op with
  | .star => sbinop c (fun x y => sres w (x.toInt * y.toInt)) (fun x y => .ok (x * y)) v1 v2
  | .slash => sbinop c sSlash uSlash v1 v2
  | .pct => sbinop c sPct uPct v1 v2
  | .plus => sbinop c (fun x y => sres w (x.toInt + y.toInt)) (fun x y => .ok (x + y)) v1 v2
  | .minus => sbinop c (fun x y => sres w (x.toInt - y.toInt)) (fun x y => .ok (x - y)) v1 v2
  | .lsh => abinop sLsh uLsh v1 v2
  | .rsh => abinop sRsh uRsh v1 v2
  | .lt => nssbinop c (fun x y => x.slt y) (fun x y => x.ult y) v1 v2
  | .leq => nssbinop c (fun x y => x.sle y) (fun x y => x.ule y) v1 v2
  | .gt => nssbinop c (fun x y => y.slt x) (fun x y => y.ult x) v1 v2
  | .geq => nssbinop c (fun x y => y.sle x) (fun x y => y.ule x) v1 v2
  | .same => nssbinop c (fun x y => x == y) (fun x y => x == y) v1 v2
  | .neq => nssbinop c (fun x y => x != y) (fun x y => x != y) v1 v2
  | .and => sbinop c (fun x y => .ok (x &&& y)) (fun x y => .ok (x &&& y)) v1 v2
  | .circ => sbinop c (fun x y => .ok (x ^^^ y)) (fun x y => .ok (x ^^^ y)) v1 v2
  | .or => sbinop c (fun x y => .ok (x ||| y)) (fun x y => .ok (x ||| y)) v1 v2
  | .land => .ok ⟨true, ofBool w (v1.v != 0#w && v2.v != 0#w)⟩
  | .lor => .ok ⟨true, ofBool w (v1.v != 0#w || v2.v != 0#w)⟩
  | .comma => .ok v2

/-- `op_prec`, eval.c:530-576, of the binary operators; that of the unary ones is 13, of `QUEST` 2 -/
def prec : Bop → Nat
  | .star | .slash | .pct => 12
  | .plus | .minus => 11
  | .lsh | .rsh => 10
  | .lt | .leq | .gt | .geq => 9
  | .same | .neq => 8
  | .and => 7
  | .circ => 6
  | .or => 5
  | .land => 4
  | .lor => 3
  | .comma => 1

mutual
/-- `eval_shrd`, eval.c:590-617: the operand; `d` is `do_eval`.  The tokens not yet read (from `tf->art` on) are passed and returned. -/
def shrd (w : Nat) : Nat → List Tok → Nat → Bool → Res (V w × List Tok)
  | 0, _, _, _ => .oof
  | n + 1, ts, m, d =>
    match ts with
    | [] => .err
    | .lpar :: r =>
      (shrd w n r 0 d).bind fun (top, r) =>
        match r with
        | .rpar :: r => loop w n r m d top
        | _ => .err
    | .num s :: r => (strtoconst w s).bind fun top => loop w n r m d top
    | .chr s :: r => (strtoconst w s).bind fun top => loop w n r m d top
    | .un o :: r =>
      (shrd w n r 13 d).bind fun (v, r) => (opun o v).bind fun top => loop w n r m d top
    | _ => .err

/-- `eval_loop`, eval.c:619-672 -/
def loop (w : Nat) : Nat → List Tok → Nat → Bool → V w → Res (V w × List Tok)
  | 0, _, _, _, _ => .oof
  | n + 1, ts, m, d, top =>
    match ts with
    | .bin o :: r =>
      if prec o > m then
        if (o == .lor && boolval top) || (o == .land && !boolval top) then
          (shrd w n r (prec o) false).bind fun (_, r) =>
            loop w n r m d (if d then ⟨true, ofBool w (o == .lor)⟩ else top)
        else
          (shrd w n r (prec o) d).bind fun (tr, r) =>
            if d then (opbin o top tr).bind fun top => loop w n r m d top
            else loop w n r m d top
      else .ok (top, ts)
    | .quest :: r =>
      if 2 ≥ m then
        let qv := boolval top
        (shrd w n r 2 (if qv then d else false)).bind fun (r1, r) =>
          match r with
          | .colon :: r =>
            (shrd w n r 2 (if qv then false else d)).bind fun (r2, r) =>
              loop w n r m d (if d then (if qv then r1 else r2) else top)
          | _ => .err
      else .ok (top, ts)
    | _ => .ok (top, ts)
end

/-- `UNARY`, eval.c:688-689 -/
def unary : Tok → Bool
  | .num _ | .name | .chr _ | .rpar => false
  | _ => true

/-- the body of the loop of `eval_expr` that marks unary `+` and `-`, eval.c:707-713; `p` says that the token before is absent or `UNARY` -/
def markTok (p : Bool) (t : Tok) : Tok :=
  match t with
  | .bin .plus => if p then .un .uplus else t
  | .bin .minus => if p then .un .uminus else t
  | _ => t

/-- the loop, eval.c:706-714 -/
def mark : Bool → List Tok → List Tok
  | _, [] => []
  | p, t :: ts => markTok p t :: mark (unary (markTok p t)) ts

/-- `eval_expr`, eval.c:698-729: the truth of the expression, or an error -/
def evalExpr (w : Nat) (ts : List Tok) : Res Bool :=
  (shrd w (2 * ts.length + 1) (mark true ts) 0 true).bind fun (r, rest) =>
    match rest with
    | [] => .ok (boolval r)
    | _ => .err

end Smlr.Eval
