import Verif.Number.Model
import Verif.Strtol.Model
set_option autoImplicit false
/-! Model of `strtof`, `strtod` and `atof` of the 32-bit library (strtof.c, strtod.c, atof.c), in which `double` is `float`.

A string is the list of its bytes, its end stands for the NUL, and a pointer into it is what remains of the list.  A
`float` is its bit pattern.  `__cvtfd` (cvtfd.c:50-169) has line by line the text of `d2f` of the compiler (fp.c:206-322),
but for the check of the size of its buffer, which is commented out: it is `Number.d2f`, whose `internal` error is here a
write past the buffer, the outcome `none`.  The loops over zeroes, digits and trailing zeroes have the text of those in
`GetNumber` and are shared with its model.  `mexp`, an `int` that counts digits, is unbounded: it cannot overflow unless a
string has 2^31 digits. -/
namespace Smlr.Strtof
open Smlr.Number (Str skipZeros scanInt scanFrac scanExp dropTrailing d2f)
open Smlr.Strtol (skipSpace sign cur)

/-- what a call returns: the bit pattern of the value, the text at `*endptr`, whether `errno` was set to `ERANGE` -/
structure Res where
  bits : Nat
  rest : Str
  erange : Bool
  deriving DecidableEq

/-- `match`, strtof.c:14-25; the pattern comes without its NUL -/
def matches_ : Str → Str → Bool
  | _, [] => true
  | [], _ :: _ => false
  | c :: s, p :: ps => if Ctype.toupper (c.toNat : Int) ≠ (p.toNat : Int) then false else matches_ s ps

/-- strtof.c:76-94: the fraction: digits, exponent correction, whether it has digits (`gotfrct`), rest.  `gotint < 2` is
said by there being no digits stored. -/
def fraction (s : Str) (ds : List Nat) (m : Int) : List Nat × Int × Bool × Str :=
  match s with
  | c :: s' =>
    if c = 0x2E then
      let (z, s1) := if ds = [] then skipZeros s' else (0, s')
      let (ds', m', s2) := scanFrac s1 ds (m - z)
      (ds', m', z ≠ 0 ∨ s2.length < s1.length, s2)
    else (ds, m, false, s)
  | [] => (ds, m, false, [])

/-- strtof.c:100-127: the exponent and the rest; `none`: it is too great -/
def exponent (s : Str) : Option (Int × Str) :=
  match s with
  | c :: s' =>
    if c = 0x45 ∨ c = 0x65 then
      let (neg, s1) := if cur s' = 0x2D then (true, s'.tail) else if cur s' = 0x2B then (false, s'.tail) else (false, s')
      match scanExp true s1 0 0 with
      | .error _ => none
      | .ok (n, cnt, s2) => if cnt = 0 then some (if neg then -(n : Int) else n, s) else some (if neg then -(n : Int) else n, s2)
    else some (0, s)
  | [] => some (0, [])

/-- strtof.c:137-142: the sum of both exponents, kept within the range of `int` -/
def total (m e : Int) : Int :=
  if m ≥ 0 ∧ e > 2 ^ 31 - 1 - m then 2 ^ 31 - 1
  else if m < 0 ∧ e < -2 ^ 31 - m then -2 ^ 31
  else m + e

/-- strtof.c:128-143: from digits and exponents to a number -/
def convert (ds : List Nat) (m e : Int) : Option Nat :=
  let (ds, m) := dropTrailing ds m
  let (ds, m) := if ds = [] then ([0], 0) else (ds, m)
  (d2f ds (total m e)).toOption

/-- what became of a number: none there (`goto lend`), or its magnitude and the rest -/
inductive Num
  | none
  | overrun
  | some (r : Nat) (rest : Str)

/-- strtof.c:54-143 -/
def number (s : Str) : Num :=
  let (z, s) := skipZeros s
  let (ds, m, s) := scanInt s [] 0
  let gotint : Bool := z ≠ 0 ∨ ds ≠ []
  let (ds, m, gotfrct, s) := fraction s ds m
  if !(gotint || gotfrct) then .none
  else
    match exponent s with
    | .none => .none
    | .some (e, s) =>
      match convert ds m e with
      | .none => .overrun
      | .some r => .some r s

/-- strtof.c:149-150: the sign -/
def negate (neg : Bool) (r : Nat) : Nat := if neg then r + 2 ^ 31 else r

/-- `strtof`, strtof.c:27-158; `none`: a write past a buffer -/
def strtof (s : Str) : Option Res :=
  let (neg, t) := sign (skipSpace s)
  if matches_ t [0x4E, 0x41, 0x4E] then some ⟨negate neg 0x7FC00000, t.drop 3, false⟩
  else if matches_ t [0x49, 0x4E, 0x46] then
    let t := t.drop 3
    some ⟨negate neg 0x7F800000, if matches_ t [0x49, 0x4E, 0x49, 0x54, 0x59] then t.drop 5 else t, false⟩
  else
    match number t with
    | .none => some ⟨0, s, false⟩
    | .overrun => none
    | .some r rest => some ⟨negate neg r, rest, r = 0x7F800000⟩

/-- `strtod`, strtod.c:9-12 -/
def strtod (s : Str) : Option Res := strtof s

/-- `atof`, atof.c:9-12 -/
def atof (s : Str) : Option Nat := (strtod s).map (·.bits)

end Smlr.Strtof
