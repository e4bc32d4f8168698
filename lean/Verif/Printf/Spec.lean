import Verif.Printf.Model
import Mathlib.Data.Nat.Digits.Defs
set_option autoImplicit false
/-
What the C standard (C99 7.19.6.1) says printf writes, for the integer, character and string
conversions.  Only the types `Str` and `Arg` are shared with the model.
-/
namespace Smlr.Printf.Spec
open Smlr.Printf

def chr (c : Char) : UInt8 := UInt8.ofNat c.toNat

inductive Flag | minus | plus | space | hash | zero
  deriving DecidableEq

inductive Width
  | none
  /-- digits as written -/
  | num (ds : List (Fin 10))
  | star

inductive Prec
  | none
  /-- a period and possibly no digits -/
  | num (ds : List (Fin 10))
  | star

inductive Len | none | hh | h | l | L | j | z | t
  deriving DecidableEq

inductive Conv | d | i | u | o | x | X | c | s
  deriving DecidableEq

inductive Item
  | lit (c : UInt8)
  | percent
  | conv (fs : List Flag) (w : Width) (p : Prec) (l : Len) (k : Conv)

def Flag.text : Flag → UInt8
  | .minus => chr '-' | .plus => chr '+' | .space => chr ' ' | .hash => chr '#' | .zero => chr '0'
def digitText (d : Fin 10) : UInt8 := UInt8.ofNat (48 + d.val)
def Width.text : Width → Str
  | .none => [] | .num ds => ds.map digitText | .star => [chr '*']
def Prec.text : Prec → Str
  | .none => [] | .num ds => chr '.' :: ds.map digitText | .star => [chr '.', chr '*']
def Len.text : Len → Str
  | .none => [] | .hh => [chr 'h', chr 'h'] | .h => [chr 'h'] | .l => [chr 'l'] | .L => [chr 'L']
  | .j => [chr 'j'] | .z => [chr 'z'] | .t => [chr 't']
def Conv.text : Conv → UInt8
  | .d => chr 'd' | .i => chr 'i' | .u => chr 'u' | .o => chr 'o' | .x => chr 'x' | .X => chr 'X' | .c => chr 'c' | .s => chr 's'

/-- the format text of an item -/
def Item.text : Item → Str
  | .lit c => [c]
  | .percent => [chr '%', chr '%']
  | .conv fs w p l k => chr '%' :: (fs.map Flag.text ++ w.text ++ p.text ++ l.text ++ [k.text])

/-- value of a digit sequence -/
def value (ds : List (Fin 10)) : Nat := ds.foldl (fun n d => n * 10 + d.val) 0

/-- formats that mean something: an ordinary character is not `%` (nor NUL); a width does not begin with `0`
(that is a flag) and is not empty; numbers fit an `int` (precisions with room for sign and prefix) -/
def Item.ok : Item → Prop
  | .lit c => c ≠ chr '%' ∧ c ≠ 0
  | .percent => True
  | .conv _ w p _ _ =>
    (match w with | .num (d :: ds) => d ≠ 0 ∧ value (d :: ds) < 2 ^ 31 | .num [] => False | _ => True) ∧
    (match p with | .num ds => value ds < 2 ^ 31 - 2 | _ => True)

/-- digits of `n` in the base, at least `prec` of them; nothing for 0 with precision 0 -/
def digits (digit : Nat → UInt8) (base prec n : Nat) : Str :=
  let ds := (Nat.digits base n).reverse.map digit
  List.replicate (prec - ds.length) (chr '0') ++ ds

def lower (i : Nat) : UInt8 := chr ("0123456789abcdef".toList.getD i ' ')
def upper (i : Nat) : UInt8 := chr ("0123456789ABCDEF".toList.getD i ' ')

/-- `#` with `o`: the first digit becomes a zero -/
def forceZero (s : Str) : Str := if s.head? = some (chr '0') then s else chr '0' :: s

/-- the argument converted as the length modifier says: value range of a signed conversion -/
def signedArg (l : Len) (v : BitVec 32) : Int :=
  match l with
  | .hh => Int.bmod v.toInt (2 ^ 8)
  | .h => Int.bmod v.toInt (2 ^ 16)
  | _ => v.toInt
/-- and of an unsigned one -/
def unsignedArg (l : Len) (v : BitVec 32) : Nat :=
  match l with
  | .hh => v.toNat % 2 ^ 8
  | .h => v.toNat % 2 ^ 16
  | _ => v.toNat

/-- sign or base prefix, and the digits -/
def intParts (fs : List Flag) (prec : Option Nat) (l : Len) (k : Conv) (v : BitVec 32) : Str × Str :=
  let p := prec.getD 1
  match k with
  | .d | .i =>
    let x := signedArg l v
    (if x < 0 then [chr '-'] else if .plus ∈ fs then [chr '+'] else if .space ∈ fs then [chr ' '] else [],
      digits lower 10 p x.natAbs)
  | .o =>
    let s := digits lower 8 p (unsignedArg l v)
    ([], if .hash ∈ fs then forceZero s else s)
  | .x =>
    (if .hash ∈ fs ∧ unsignedArg l v ≠ 0 then [chr '0', chr 'x'] else [], digits lower 16 p (unsignedArg l v))
  | .X =>
    (if .hash ∈ fs ∧ unsignedArg l v ≠ 0 then [chr '0', chr 'X'] else [], digits upper 16 p (unsignedArg l v))
  | _ => ([], digits lower 10 p (unsignedArg l v))

/-- blanks up to the field width -/
def justify (left : Bool) (width : Nat) (s : Str) : Str :=
  let blanks := List.replicate (width - s.length) (chr ' ')
  if left then s ++ blanks else blanks ++ s

/-- the text of an integer conversion: zero padding (after sign or prefix) only without `-` and without a precision -/
def intText (fs : List Flag) (left : Bool) (width : Nat) (prec : Option Nat) (l : Len) (k : Conv) (v : BitVec 32) : Str :=
  let (pre, ds) := intParts fs prec l k v
  if .zero ∈ fs ∧ ¬ left ∧ prec = none then
    pre ++ List.replicate (width - (pre.length + ds.length)) (chr '0') ++ ds
  else justify left width (pre ++ ds)

/-- justification and field width (and the arguments left): a negative `*` argument means `-` and the positive width -/
def widthOf (fs : List Flag) : Width → List Arg → Option (Bool × Nat × List Arg)
  | .none, vl => some (decide (.minus ∈ fs), 0, vl)
  | .num ds, vl => some (decide (.minus ∈ fs), value ds, vl)
  | .star, .int v :: vl =>
    if v.toInt = -2 ^ 31 then none else some (decide (.minus ∈ fs) || decide (v.toInt < 0), v.toInt.natAbs, vl)
  | .star, _ => none

/-- precision: a negative `*` argument is taken as if the precision were omitted -/
def precOf : Prec → List Arg → Option (Option Nat × List Arg)
  | .none, vl => some (none, vl)
  | .num ds, vl => some (some (value ds), vl)
  | .star, .int v :: vl =>
    if v.toInt < 0 then some (none, vl) else if v.toInt < 2 ^ 31 - 2 then some (some v.toInt.toNat, vl) else none
  | .star, _ => none

/-- the text of a conversion and the arguments left -/
def convOut (fs : List Flag) (left : Bool) (width : Nat) (prec : Option Nat) (l : Len) : Conv → List Arg → Option (Str × List Arg)
  | .c, .int v :: vl => some (justify left width [UInt8.ofNat (v.toNat % 256)], vl)
  | .c, _ => none
  | .s, .str (some s) :: vl =>
    if s.length < 2 ^ 31 then some (justify left width (match prec with | none => s | some n => s.take n), vl) else none
  | .s, _ => none
  | k, .int v :: vl => some (intText fs left width prec l k v, vl)
  | _, _ => none

/-- the text produced by an item, and the remaining arguments; `none` if the arguments do not match
(or the standard leaves it undefined) -/
def Item.out : Item → List Arg → Option (Str × List Arg)
  | .lit c, vl => some ([c], vl)
  | .percent, vl => some ([chr '%'], vl)
  | .conv fs w p l k, vl =>
    (widthOf fs w vl).bind fun x => (precOf p x.2.2).bind fun y => convOut fs x.1 x.2.1 y.1 l k y.2

/-- the whole format -/
def text : List Item → List Arg → Option Str
  | [], _ => some []
  | i :: is, vl => (i.out vl).bind fun x => (text is x.2).map fun t => x.1 ++ t

/-- the arguments of the format avoid the defect shown by `c11_defect`: with `#` and `x` or `X`, a value that is
not zero but becomes zero when the length modifier is applied -/
def fine : List Item → List Arg → Prop
  | [], _ => True
  | i :: is, vl =>
    (match i with
      | .conv fs w p l k => ∀ x y v vl', widthOf fs w vl = some x → precOf p x.2.2 = some y → y.2 = .int v :: vl' →
          ¬ (.hash ∈ fs ∧ (k = .x ∨ k = .X) ∧ v ≠ 0 ∧ unsignedArg l v = 0)
      | _ => True) ∧
    ∀ s vl', i.out vl = some (s, vl') → fine is vl'

/-- what the stream receives and what printf returns: everything and the count; for snprintf (string sink)
as much as fits, and the count of everything; after a write error, -1 -/
def result (k : Sink) (t : Str) : Str × Int :=
  match k.cap with
  | none => (t, (BitVec.ofNat 32 t.length).toInt)
  | some n => (t.take n, if k.isStr ∨ t.length ≤ n then (BitVec.ofNat 32 t.length).toInt else -1)

end Smlr.Printf.Spec
