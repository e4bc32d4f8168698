import Verif.Strtof.Spec
set_option autoImplicit false
/-! What scanf must do with a floating number (C99 7.19.6.2): take the longest piece of the input, within the field width,
that is a number or the beginning of one; it must be a number. -/
namespace Smlr.Fscan
open Smlr.Number
open Smlr.Strtof

/-- the character after a piece of `n` characters, if the field width allows one more -/
def next (width : Option Nat) (n : Nat) (rest : Str) : Option UInt8 :=
  match width with
  | none => rest.head?
  | some w => if n < w then rest.head? else none

/-- the field width allows `n` characters -/
def Fits (width : Option Nat) (n : Nat) : Prop := ∀ w, width = some w → n ≤ w

/-- `c` continues a number (with or without dot, exponent part) or the beginning of an exponent part -/
def Goes (dot : Bool) (ex : Str) (c : UInt8) : Prop := IsDigit c ∨ (ex = [] ∧ ((dot = false ∧ c = 0x2E) ∨ c = 0x65 ∨ c = 0x45))

def isSign (c : UInt8) : Prop := c = 0x2B ∨ c = 0x2D

/-- the beginnings of numbers that are not numbers themselves, and the characters that may come next -/
inductive Half : Str → (UInt8 → Prop) → Prop
  | none (sg : Str) (neg : Bool) : Sign sg neg →
      Half sg (fun c => IsDigit c ∨ c = 0x2E ∨ upper c = 0x49 ∨ upper c = 0x4E ∨ (sg = [] ∧ isSign c))
  | dot (sg : Str) (neg : Bool) : Sign sg neg → Half (sg ++ [0x2E]) IsDigit
  | exp (sg ip fp esg : Str) (dot neg eneg : Bool) (x : UInt8) : Sign sg neg → Decimal ip dot fp [] 0 → x = 0x65 ∨ x = 0x45 → Sign esg eneg →
      Half (sg ++ (ip ++ fracText dot fp) ++ x :: esg) (fun c => IsDigit c ∨ (esg = [] ∧ isSign c))
  | inf (sg w : Str) (neg : Bool) (n : Nat) : Sign sg neg → 1 ≤ n → n < 8 → n ≠ 3 → Word w ([0x49, 0x4E, 0x46, 0x49, 0x4E, 0x49, 0x54, 0x59].take n) →
      Half (sg ++ w) (fun c => [0x49, 0x4E, 0x46, 0x49, 0x4E, 0x49, 0x54, 0x59][n]? = some (upper c))
  | nan (sg w : Str) (neg : Bool) (n : Nat) : Sign sg neg → 1 ≤ n → n < 3 → Word w ([0x4E, 0x41, 0x4E].take n) →
      Half (sg ++ w) (fun c => [0x4E, 0x41, 0x4E][n]? = some (upper c))

end Smlr.Fscan
