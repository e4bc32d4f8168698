set_option autoImplicit false
/-
Specification of `strtol`/`strtoul`/`atoi` after C99 7.20.1.  Written with
`takeWhile`/`dropWhile` on the characters and exact (unbounded) integers.
-/
namespace Smlr.Strtol.Spec

def isWs (c : UInt8) : Bool := c == 32 || (9 ≤ c && c ≤ 13)

/-- value of a character as a digit in a base up to 36 -/
def digit? (c : UInt8) : Option Nat :=
  if 48 ≤ c ∧ c ≤ 57 then some (c.toNat - 48)
  else if 65 ≤ c ∧ c ≤ 90 then some (c.toNat - 65 + 10)
  else if 97 ≤ c ∧ c ≤ 122 then some (c.toNat - 97 + 10)
  else none

/-- is the character a digit of base `b` -/
def isDigitIn (b : Nat) (c : UInt8) : Bool :=
  match digit? c with
  | some d => d < b
  | none => false

/-- positional value of a digit string, most significant digit first -/
def value (b : Nat) (ds : List UInt8) : Nat :=
  ds.foldl (fun acc c => acc * b + (digit? c).getD 0) 0

/-- split off an optional sign -/
def splitSign : List UInt8 → Bool × List UInt8
  | 0x2D :: t => (true, t)
  | 0x2B :: t => (false, t)
  | l => (false, l)

/-- `0x`/`0X` counts as a prefix only when a hexadecimal digit follows -/
def hexPrefix : List UInt8 → Option (List UInt8)
  | 0x30 :: x :: h :: t =>
    if (x = 0x78 ∨ x = 0x58) ∧ isDigitIn 16 h then some (h :: t) else none
  | _ => none

/-- effective base and the text from which digits are taken -/
def splitBase (base : Nat) (l : List UInt8) : Nat × List UInt8 :=
  match (if base = 0 ∨ base = 16 then hexPrefix l else none) with
  | some t => (16, t)
  | none => (if base = 0 then (if l.head? = some 0x30 then 8 else 10) else base, l)

/-- sign, digits (with their base) and offset just past the digits -/
structure Subject where
  neg : Bool
  base : Nat
  digits : List UInt8
  stop : Nat

def subject (s : List UInt8) (base : Nat) : Subject :=
  let l := s.dropWhile isWs
  let (neg, l) := splitSign l
  let (b, l) := splitBase base l
  let ds := l.takeWhile (isDigitIn b)
  ⟨neg, b, ds, (s.length - l.length) + ds.length⟩

/-- offset reported through `endptr`: past the digits, or 0 when there are none -/
def endOf (x : Subject) : Nat := if x.digits = [] then 0 else x.stop

/-- the exact signed integer denoted -/
def exact (x : Subject) : Int :=
  if x.neg then - (value x.base x.digits : Int) else value x.base x.digits

/-- clamp to the range of a 32-bit `long` -/
def clamp (v : Int) : Int := if v > 2^31 - 1 then 2^31 - 1 else if v < -2^31 then -2^31 else v

end Smlr.Strtol.Spec
