import Verif.Number.Model
set_option autoImplicit false
/-! What number literals must denote. -/
namespace Smlr.Number

/-! ### single precision -/

/-- +infinity -/
def inf : Nat := 0x7F800000

/-- value of the finite nonnegative single precision number with bit pattern `r`, in units of 2^-149 -/
def fval (r : Nat) : Nat := if r < 2 ^ 23 then r else (2 ^ 23 + r % 2 ^ 23) * 2 ^ (r / 2 ^ 23 - 1)

/-- `r` is `num / den` (in units of 2^-149) rounded to nearest, ties to even, as IEEE 754 demands: infinity from the
midpoint above the greatest finite number on, else no finite number is nearer, and on a tie the last bit is 0 -/
structure Rounded (num den r : Nat) : Prop where
  over : r = inf ↔ (2 ^ 25 - 1) * 2 ^ 252 * den ≤ num
  le : r ≤ inf
  near : r ≠ inf → ∀ s, s < inf → ((num : Int) - fval r * den).natAbs ≤ ((num : Int) - fval s * den).natAbs
  tie : r ≠ inf → ∀ s, s < inf → s ≠ r → ((num : Int) - fval r * den).natAbs = ((num : Int) - fval s * den).natAbs → r % 2 = 0

/-- `r` is `m * 10 ^ x` rounded -/
def RoundedDec (m : Nat) (x : Int) (r : Nat) : Prop := Rounded (m * 10 ^ x.toNat * 2 ^ 149) (10 ^ (-x).toNat) r

/-! ### literals -/

def digitVal (c : UInt8) : Nat := c.toNat - 0x30

def IsDigit (c : UInt8) : Prop := 0x30 ≤ c.toNat ∧ c.toNat ≤ 0x39

def AllDigits (s : Str) : Prop := ∀ c ∈ s, IsDigit c

/-- `c` is the hexadecimal digit of value `d` -/
def HexDigit (c : UInt8) (d : Nat) : Prop :=
  (d ≤ 9 ∧ c.toNat = 0x30 + d) ∨ (10 ≤ d ∧ d ≤ 15 ∧ (c.toNat = 0x41 + (d - 10) ∨ c.toNat = 0x61 + (d - 10)))

inductive HexDigits : Str → List Nat → Prop
  | nil : HexDigits [] []
  | cons (c d s ds) : HexDigit c d → HexDigits s ds → HexDigits (c :: s) (d :: ds)

/-- number written by digits -/
def posVal (base : Nat) (ds : List Nat) : Nat := ds.foldl (fun a d => a * base + d) 0

/-- integer suffixes -/
inductive Suffix : Str → (u l : Bool) → Prop
  | none : Suffix [] false false
  | u (c) : c = 0x75 ∨ c = 0x55 → Suffix [c] true false
  | l (c) : c = 0x6C ∨ c = 0x4C → Suffix [c] false true
  | ul (c d) : c = 0x75 ∨ c = 0x55 → d = 0x6C ∨ d = 0x4C → Suffix [c, d] true true
  | lu (c d) : c = 0x6C ∨ c = 0x4C → d = 0x75 ∨ d = 0x55 → Suffix [c, d] true true

inductive Kind | dec | oct | hex
  deriving DecidableEq

def Kind.base : Kind → Nat
  | .dec => 10 | .oct => 8 | .hex => 16

/-- an integer literal without its suffix: decimal, octal, hexadecimal; `ds` are the values of its digits -/
inductive IntText : Str → Kind → List Nat → Prop
  | dec (c s) : IsDigit c → c ≠ 0x30 → AllDigits s → IntText (c :: s) .dec ((c :: s).map digitVal)
  | oct (s) : AllDigits s → (∀ c ∈ s, digitVal c < 8) → IntText (0x30 :: s) .oct (s.map digitVal)
  | hex (x s ds) : x = 0x78 ∨ x = 0x58 → s ≠ [] → HexDigits s ds → IntText (0x30 :: x :: s) .hex ds

/-- characters that would continue an integer literal, whatever its kind and suffix -/
def Continues (c : UInt8) : Prop :=
  (∃ d, HexDigit c d) ∨ c = 0x2E ∨ c = 0x65 ∨ c = 0x45 ∨ c = 0x75 ∨ c = 0x55 ∨ c = 0x6C ∨ c = 0x4C ∨ c = 0x78 ∨ c = 0x58

/-- the type C gives a literal of value `v` in a target with `b`-bit `int` (and no wider type); `none`: not representable,
or a `long` in a target that has none -/
def litType (b : Nat) (k : Kind) (u l : Bool) (v : Nat) : Option Tok :=
  if l = true ∧ b = 16 then none
  else if u = true then (if v < 2 ^ b then some .uint else none)
  else if v < 2 ^ (b - 1) then some .int
  else if k ≠ .dec ∧ v < 2 ^ b then some .uint
  else none

/-- exponent part of a floating literal: text and value -/
inductive ExpText : Str → Int → Prop
  | none : ExpText [] 0
  | plain (e s) : e = 0x65 ∨ e = 0x45 → s ≠ [] → AllDigits s → ExpText (e :: s) (posVal 10 (s.map digitVal))
  | plus (e s) : e = 0x65 ∨ e = 0x45 → s ≠ [] → AllDigits s → ExpText (e :: 0x2B :: s) (posVal 10 (s.map digitVal))
  | minus (e s) : e = 0x65 ∨ e = 0x45 → s ≠ [] → AllDigits s → ExpText (e :: 0x2D :: s) (-(posVal 10 (s.map digitVal) : Int))

/-- suffix of a floating literal -/
def FloatSuffix (s : Str) : Prop := s = [] ∨ ∃ c, s = [c] ∧ (c = 0x66 ∨ c = 0x46 ∨ c = 0x6C ∨ c = 0x4C)

/-- the dot and the fraction; without a dot there is no fraction -/
def fracText (dot : Bool) (fp : Str) : Str := if dot then 0x2E :: fp else []

/-- the digits from the first nonzero one on -/
def significant (s : Str) : List Nat := (s.map digitVal).dropWhile (· = 0)

/-- a floating literal: integral digits `ip`, fraction `fp`, exponent part -/
structure FloatText (ip : Str) (dot : Bool) (fp ex : Str) (e : Int) : Prop where
  hip : AllDigits ip
  hfp : AllDigits fp
  hsome : ip ≠ [] ∨ fp ≠ []
  nodot : dot = false → fp = []
  hex : ExpText ex e
  float : dot = true ∨ ex ≠ []

/-- what follows a floating literal does not continue it -/
def AfterFloat (ex suf rest : Str) : Prop :=
  suf = [] → ∀ c, rest.head? = some c →
    ¬ IsDigit c ∧ ¬ (c = 0x66 ∨ c = 0x46 ∨ c = 0x6C ∨ c = 0x4C) ∧ (ex = [] → c ≠ 0x65 ∧ c ≠ 0x45)

end Smlr.Number
