import Mathlib.Data.Rat.Defs
import Mathlib.Algebra.Order.Field.Rat
import Mathlib.Algebra.Order.AbsoluteValue.Basic
import Mathlib.Algebra.Order.Group.Abs
import Mathlib.Data.List.DropRight

set_option autoImplicit false
/-
What the C standard (C99 7.19.6.1) says the conversions e, E, f, F, g and G print, with the rounding
that it recommends (to nearest, ties to even).  Nothing here refers to the model.
-/
namespace Smlr.Fprint.Spec

/-- the absolute value of the IEEE 754 binary32 number with the bits `u` (finite ones) -/
def value (u : Nat) : ℚ :=
  let e : ℕ := u / 2 ^ 23 % 2 ^ 8
  let m : ℕ := u % 2 ^ 23
  if e = 0 then (m : ℚ) * 2 ^ (-149 : ℤ) else ((2 ^ 23 + m : ℕ) : ℚ) * 2 ^ ((e : ℤ) - 150)

/-- `n` is the natural number nearest to `x`; of two nearest ones the even one, or, if `up`, the
greater -/
def Nearest (up : Prop) (x : ℚ) (n : Nat) : Prop :=
  |x - n| ≤ 1 / 2 ∧ (|x - n| = 1 / 2 → (up → x < n) ∧ (¬ up → n % 2 = 0))

/-- decimal notation without leading zeroes -/
def dec (n : Nat) : List Nat := if n < 10 then [48 + n] else dec (n / 10) ++ [48 + n % 10]

/-- the last `k` decimal digits -/
def pad : Nat → Nat → List Nat
  | 0, _ => []
  | k + 1, n => pad k (n / 10) ++ [48 + n % 10]

/-- the decimal point and `p` digits of the fraction; the point is printed if there are digits or with
the flag `#` -/
def frac (alt : Bool) (p n : Nat) : List Nat := (if p ≠ 0 ∨ alt then [46] else []) ++ pad p n

/-- the same without trailing zeroes, and without a point if no digits are left (conversion `g`);
with the flag `#` they are kept -/
def fracG (alt : Bool) (p n : Nat) : List Nat :=
  if alt then frac alt p n
  else
    let ds := (pad p n).rdropWhile (· = 48)
    if ds = [] then [] else 46 :: ds

/-- the exponent: sign and at least two digits -/
def expo (upper : Bool) (x : ℤ) : List Nat :=
  [if upper then 69 else 101, if x < 0 then 45 else 43] ++ if x.natAbs < 100 then pad 2 x.natAbs else dec x.natAbs

/-- `x` rounded to `p + 1` significant digits is `n · 10 ^ (k - p)`.  (`full = false` describes a
deviation of the code: a number with more than `p + 2` digits before the point that lies half-way
is rounded up.) -/
inductive Sci (full : Bool) (p : Nat) (x : ℚ) : Nat → ℤ → Prop
  | zero : x = 0 → Sci full p x 0 0
  | same {n : Nat} {k : ℤ} : 10 ^ k ≤ x → x < 10 ^ (k + 1) →
      Nearest (full = false ∧ 10 ^ (p + 2) ≤ x) (x * 10 ^ (p - k)) n → n < 10 ^ (p + 1) → Sci full p x n k
  | carry {k : ℤ} : 10 ^ k ≤ x → x < 10 ^ (k + 1) →
      Nearest (full = false ∧ 10 ^ (p + 2) ≤ x) (x * 10 ^ (p - k)) (10 ^ (p + 1)) → Sci full p x (10 ^ p) (k + 1)

inductive Style | e | f | g

/-- the text of the finite number `x ≥ 0` without sign; `p` is the precision, if given -/
inductive Text (full : Bool) (alt upper : Bool) (x : ℚ) (p : Option Nat) : Style → List Nat → Prop
  | f {n : Nat} : Nearest False (x * 10 ^ (p.getD 6)) n →
      Text full alt upper x p .f (dec (n / 10 ^ (p.getD 6)) ++ frac alt (p.getD 6) n)
  | e {n : Nat} {k : ℤ} : Sci full (p.getD 6) x n k →
      Text full alt upper x p .e (dec (n / 10 ^ (p.getD 6)) ++ frac alt (p.getD 6) n ++ expo upper k)
  | gf {n m q : Nat} {k : ℤ} : Sci full (max 1 (p.getD 6) - 1) x n k → -4 ≤ k → k + 1 + q = max 1 (p.getD 6) →
      Nearest False (x * 10 ^ q) m →
      Text full alt upper x p .g (dec (m / 10 ^ q) ++ fracG alt q m)
  | ge {n : Nat} {k : ℤ} : Sci full (max 1 (p.getD 6) - 1) x n k → k < -4 ∨ max 1 (p.getD 6) ≤ k →
      Text full alt upper x p .g
        (dec (n / 10 ^ (max 1 (p.getD 6) - 1)) ++ fracG alt (max 1 (p.getD 6) - 1) n ++ expo upper k)

/-- flags and field width; `left` excludes `zero` -/
structure Field where
  left : Bool
  plus : Bool
  space : Bool
  alt : Bool
  zero : Bool
  width : Nat

/-- the sign that is printed -/
def sign (f : Field) (neg : Bool) : List Nat :=
  if neg then [45] else if f.plus then [43] else if f.space then [32] else []

/-- sign and text in the field -/
def place (f : Field) (zero : Bool) (s t : List Nat) : List Nat :=
  let n := f.width - (s.length + t.length)
  if f.left then s ++ t ++ List.replicate n 32
  else if zero then s ++ List.replicate n 48 ++ t
  else List.replicate n 32 ++ s ++ t

/-- the letters `inf` and `nan` -/
def word (upper : Bool) (nan : Bool) : List Nat :=
  match nan, upper with
  | true, true => [78, 65, 78]
  | true, false => [110, 97, 110]
  | false, true => [73, 78, 70]
  | false, false => [105, 110, 102]

/-- what is printed for the number with the bits `u` -/
inductive Prints (full : Bool) (f : Field) (upper : Bool) (st : Style) (p : Option Nat) (u : Nat) : List Nat → Prop
  | nan : u % 2 ^ 31 > 0x7F800000 →
      Prints full f upper st p u (place f false (sign f (2 ^ 31 ≤ u)) (word upper true))
  | inf : u % 2 ^ 31 = 0x7F800000 →
      Prints full f upper st p u (place f false (sign f (2 ^ 31 ≤ u)) (word upper false))
  | fin {t : List Nat} : u % 2 ^ 31 < 0x7F800000 → Text full f.alt upper (value (u % 2 ^ 31)) p st t →
      Prints full f upper st p u (place f f.zero (sign f (2 ^ 31 ≤ u)) t)

end Smlr.Fprint.Spec
