import Verif.Time.Model
set_option autoImplicit false
/-
The Gregorian calendar, independently of the code: day counts are sums over years and months.
-/
namespace Smlr.Time.Spec
open Smlr.Time

def leap (y : Nat) : Prop := y % 4 = 0 ∧ (y % 100 ≠ 0 ∨ y % 400 = 0)
instance (y : Nat) : Decidable (leap y) := inferInstanceAs (Decidable (_ ∧ _))

def yearLen (y : Nat) : Nat := if leap y then 366 else 365
/-- month 0 is January -/
def monthLen (y m : Nat) : Nat :=
  match m with
  | 0 | 2 | 4 | 6 | 7 | 9 | 11 => 31
  | 1 => if leap y then 29 else 28
  | _ => 30

/-- days in the years 1970 .. 1970+n-1 -/
def daysBeforeYear (n : Nat) : Nat := ((List.range n).map fun i => yearLen (1970 + i)).sum
/-- days in the first `m` months -/
def daysBeforeMonth (y m : Nat) : Nat := ((List.range m).map (monthLen y)).sum

/-- a civil date and time of day from 1970 on: years after 1970, month 0..11, day 1.., hour, minute, second -/
structure Civil where
  y : Nat
  m : Nat
  d : Nat
  h : Nat
  min : Nat
  s : Nat

def Civil.valid (c : Civil) : Prop :=
  c.m < 12 ∧ 1 ≤ c.d ∧ c.d ≤ monthLen (1970 + c.y) c.m ∧ c.h < 24 ∧ c.min < 60 ∧ c.s < 60

/-- days since 1 January -/
def Civil.yday (c : Civil) : Nat := daysBeforeMonth (1970 + c.y) c.m + (c.d - 1)
/-- days since 1 January 1970 -/
def Civil.days (c : Civil) : Nat := daysBeforeYear c.y + c.yday
def Civil.seconds (c : Civil) : Nat := c.days * 86400 + c.h * 3600 + c.min * 60 + c.s
/-- 1 January 1970 was a Thursday -/
def Civil.wday (c : Civil) : Nat := (c.days + 4) % 7

/-- the structure holding that date -/
def Civil.tm (c : Civil) : Tm := ⟨c.s, c.min, c.h, c.d, c.m, 70 + c.y, c.wday, c.yday, 0⟩

end Smlr.Time.Spec
