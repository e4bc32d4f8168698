import Verif.Strtof.Model
set_option autoImplicit false
/-! Model of the floating conversions of scanf (`%e`, `%f`, `%g`, 32-bit library), doscan.c:141-150 and 199-468.

The stream is the list of the bytes still to be read: `fgetc` takes its head or returns EOF, `ungetc` of the character just
read puts it back, and does nothing for EOF (C13).  Every branch of the scanner either counts the character (`chcnt++;
width--`) or puts it back, so that a branch is one of the actions below.  The counters `chcnt` and `mexp` are unbounded.
The conversion of digits and exponents (doscan.c:442-457) has the text of strtof.c:127-143 and is shared with its model. -/
namespace Smlr.Fscan
open Smlr.Number (Str isDigit ovf u32 maxDigits)

/-- doscan.c:216-227 -/
inductive St | sign | infNan | word | leading | int | frctLeading | frct | expSign | expDigit
  deriving DecidableEq

/-- the variables of the scanner, doscan.c:206-227; `word`: the word at hand, in capitals, and `widx` -/
structure Q where
  st : St := .sign
  neg : Bool := false
  word : Option (Str × Nat) := none
  gotint : Nat := 0
  gotfrct : Nat := 0
  gotexp : Nat := 0
  eneg : Bool := false
  eexp : Nat := 0
  ds : List Nat := []
  m : Int := 0
  deriving DecidableEq

/-- what one round does: take the character and carry on or leave the loop, put it back and carry on or leave the loop, or
put it back and return (`eof`: EOF if nothing has been assigned yet) -/
inductive Act
  | eat (q : Q)
  | eatStop (q : Q)
  | keep (q : Q)
  | keepStop (q : Q)
  | ret (eof : Bool)

/-- `toupper(c2) == x` for a capital `x` -/
def isUp (c : UInt8) (x : UInt8) : Bool := Ctype.toupper (c.toNat : Int) = (x.toNat : Int)

/-- "INFINITY" and "NAN" -/
def infinity : Str := [0x49, 0x4E, 0x46, 0x49, 0x4E, 0x49, 0x54, 0x59]
def nan : Str := [0x4E, 0x41, 0x4E]

/-- a digit of the mantissa, doscan.c:322-326 and 373-376 -/
def addDigit (ds : List Nat) (c : UInt8) : List Nat := if ds.length < maxDigits then ds ++ [c.toNat - 0x30] else ds

/-- a digit of the exponent, doscan.c:413-422 -/
def addExp (n d : Nat) : Nat := if ovf n 10 d || u32 (n * 10 + d) > (2 ^ 32 - 1) / 2 then (2 ^ 32 - 1) / 2 else u32 (n * 10 + d)

/-- the `switch`, doscan.c:242-433; `c2` is none for EOF, `stop` tells that it is so because the field width is used up -/
def trans (q : Q) (c2 : Option UInt8) (stop : Bool) : Act :=
  match q.st, c2 with
  | .sign, some c =>
    if c = 0x2D ∨ c = 0x2B then .eat { q with st := .infNan, neg := c = 0x2D } else .keep { q with st := .infNan }
  | .sign, none => .ret (!stop)
  | .infNan, some c =>
    if isUp c 0x49 then .eat { q with st := .word, word := some (infinity, 1) }
    else if isUp c 0x4E then .eat { q with st := .word, word := some (nan, 1) }
    else .keep { q with st := .leading }
  | .infNan, none => .ret (!stop)
  | .word, c2 =>
    match q.word with
    | none => .ret false
    | some (w, i) =>
      if c2.any (fun c => isUp c (w.getD i 0)) then
        if i + 1 = w.length then .eatStop { q with word := some (w, i + 1) } else .eat { q with word := some (w, i + 1) }
      else if i = 3 then .keepStop q
      else .ret false
  | .leading, some c => if c = 0x30 then .eat { q with gotint := 1 } else .keep { q with st := .int }
  | .leading, none => if q.gotint ≠ 0 then .keepStop { q with st := .int } else .ret (!stop)
  | .int, some c =>
    if isDigit c then .eat { q with gotint := 2, ds := addDigit q.ds c, m := if q.ds.length < maxDigits then q.m else q.m + 1 }
    else if c = 0x2E then .eat { q with st := if q.gotint = 2 then .frct else .frctLeading }
    else if isUp c 0x45 ∧ q.gotint ≠ 0 then .eat { q with gotexp := 1, st := .expSign }
    else if q.gotint ≠ 0 then .keepStop q else .ret false
  | .int, none => if q.gotint ≠ 0 then .keepStop q else .ret (!stop)
  | .frctLeading, some c => if c = 0x30 then .eat { q with gotfrct := 1, m := q.m - 1 } else .keep { q with st := .frct }
  | .frctLeading, none => if q.gotint ≠ 0 ∨ q.gotfrct ≠ 0 then .keepStop { q with st := .frct } else .ret (!stop)
  | .frct, some c =>
    if isDigit c then .eat { q with gotfrct := 2, ds := addDigit q.ds c, m := q.m - 1 }
    else if isUp c 0x45 ∧ (q.gotint ≠ 0 ∨ q.gotfrct ≠ 0) then .eat { q with gotexp := 1, st := .expSign }
    else if q.gotint ≠ 0 ∨ q.gotfrct ≠ 0 then .keepStop q else .ret false
  | .frct, none => if q.gotint ≠ 0 ∨ q.gotfrct ≠ 0 then .keepStop q else .ret (!stop)
  | .expSign, some c => if c = 0x2D ∨ c = 0x2B then .eat { q with st := .expDigit, eneg := c = 0x2D } else .keep { q with st := .expDigit }
  | .expSign, none => .ret (!stop)
  | .expDigit, some c =>
    if isDigit c then .eat { q with gotexp := 2, eexp := addExp q.eexp (c.toNat - 0x30) }
    else if q.gotexp = 2 then .keepStop q else .ret false
  | .expDigit, none => if q.gotexp = 2 then .keepStop q else .ret (!stop)

/-- how the loop ends -/
inductive End
  | stop (q : Q) (inp : Str) (ch : Nat)
  | ret (eof : Bool) (inp : Str) (ch : Nat)
  | fuel
  deriving DecidableEq

/-- `while (!stop)`, doscan.c:232-434: `ch` counts the characters taken -/
def loop : Nat → Q → Str → Nat → Nat → End
  | 0, _, _, _, _ => .fuel
  | k + 1, q, inp, width, ch =>
    let c2 := if 0 < width then inp.head? else none
    match trans q c2 (width = 0) with
    | .eat q => if width = 0 then .stop q inp.tail (ch + 1) else loop k q inp.tail (width - 1) (ch + 1)
    | .eatStop q => .stop q inp.tail (ch + 1)
    | .keep q => if width = 0 then .stop q inp ch else loop k q inp width ch
    | .keepStop q => .stop q inp ch
    | .ret eof => .ret eof inp ch

/-- doscan.c:436-464: the value; without assignment numbers are not converted -/
def value (assign : Bool) (q : Q) : Option Nat :=
  match q.word with
  | some (w, _) => some (Strtof.negate q.neg (if w.headD 0 = 0x4E then 0x7FC00000 else 0x7F800000))
  | none =>
    if assign then (Strtof.convert q.ds q.m (if q.eneg then -(q.eexp : Int) else q.eexp)).map (Strtof.negate q.neg) else some 0

/-- what became of the conversion: `stored v`: the value that is assigned, if any, the input left, and the characters taken -/
inductive Out
  | stored (v : Option Nat) (inp : Str) (ch : Nat)
  | ret (eof : Bool) (inp : Str) (ch : Nat)
  | overrun
  | fuel
  deriving DecidableEq

/-- one floating conversion, doscan.c:141-150, 199-468; `width` is none without a field width (doscan.c:229-230) -/
def conv (assign : Bool) (width : Option Nat) (inp : Str) : Out :=
  let r := Strtol.skipSpace inp
  let n := inp.length - r.length
  if r = [] then .ret true [] n
  else
    match loop (r.length + 10) {} r (width.getD (2 ^ 31 - 1)) n with
    | .fuel => .fuel
    | .ret eof r ch => .ret eof r ch
    | .stop q r ch =>
      match value assign q with
      | none => .overrun
      | some v => .stored (if assign then some v else none) r ch

end Smlr.Fscan
