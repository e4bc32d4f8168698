import Verif.Number.Spec
set_option autoImplicit false
/-! What `strtod` must do with a text (C99 7.20.1.3): blanks, a sign, and then the longest decimal number, `inf`,
`infinity` or `nan`. -/
namespace Smlr.Strtof
open Smlr.Number

def Blank (c : UInt8) : Prop := c = 32 ∨ (9 ≤ c ∧ c ≤ 13)

/-- a sign, or none -/
inductive Sign : Str → Bool → Prop
  | none : Sign [] false
  | plus : Sign [0x2B] false
  | minus : Sign [0x2D] true

/-- blanks and a sign -/
inductive Lead : Str → Bool → Prop
  | mk (ws sg : Str) (neg : Bool) : (∀ c ∈ ws, Blank c) → Sign sg neg → Lead (ws ++ sg) neg

/-- a decimal number: integral digits `ip`, fraction `fp` (with or without dot), exponent part -/
structure Decimal (ip : Str) (dot : Bool) (fp ex : Str) (e : Int) : Prop where
  hip : AllDigits ip
  hfp : AllDigits fp
  hsome : ip ≠ [] ∨ fp ≠ []
  nodot : dot = false → fp = []
  hex : ExpText ex e

/-- what follows does not make the number longer -/
structure Ends (dot : Bool) (ex rest : Str) : Prop where
  digit : ∀ c, rest.head? = some c → ¬ IsDigit c
  dot : dot = false → ex = [] → rest.head? ≠ some 0x2E
  exp : ex = [] → ¬ ∃ ex' e r, ex' ≠ [] ∧ ExpText ex' e ∧ rest = ex' ++ r

def upper (c : UInt8) : UInt8 := if 97 ≤ c ∧ c ≤ 122 then c - 32 else c

/-- `w` is the word `p` (in capitals), in whatever case -/
def Word (w p : Str) : Prop := w.map upper = p

/-- the sign bit -/
def signed (neg : Bool) (r : Nat) : Nat := cond neg (2 ^ 31) 0 + r

def isNan (r : Nat) : Prop := inf < r % 2 ^ 31 ∧ r < 2 ^ 32

/-- the text begins with no number and no word -/
structure Nothing (t : Str) : Prop where
  digit : ∀ c, t.head? = some c → ¬ IsDigit c
  dot : ∀ c r, t = 0x2E :: c :: r → ¬ IsDigit c
  inf : ¬ Word (t.take 3) [0x49, 0x4E, 0x46]
  nan : ¬ Word (t.take 3) [0x4E, 0x41, 0x4E]

end Smlr.Strtof
