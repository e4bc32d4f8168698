import Init
set_option autoImplicit false
/-! The rules of Microsoft's C library (from version 9.0 on) by which a command line is divided into arguments. -/
namespace Smlr.Args.Spec

abbrev Str := List UInt8

def White (c : UInt8) : Prop := c = 0x20 ∨ c = 0x09

/-- `n` backslashes -/
def bs (n : Nat) : Str := List.replicate n 0x5C

/-- `Arg q s v r`: an argument of which `s` is left, within quotes (`q`) or not, goes on as `v`; after it comes `r` -/
inductive Arg : Bool → Str → Str → Str → Prop
  /-- the line ends -/
  | done (q : Bool) : Arg q [] [] []
  /-- a blank outside quotes -/
  | white (c : UInt8) (s : Str) : White c → Arg false (c :: s) [] (c :: s)
  /-- another character stands for itself -/
  | char (q : Bool) (c : UInt8) (s v r : Str) : c ≠ 0x5C → c ≠ 0x22 → (q = false → ¬ White c) → Arg q s v r → Arg q (c :: s) (c :: v) r
  /-- backslashes that are not before a quote stand for themselves -/
  | slashes (q : Bool) (n : Nat) (s v r : Str) : s.head? ≠ some 0x5C → s.head? ≠ some 0x22 → Arg q s v r →
    Arg q (bs (n + 1) ++ s) (bs (n + 1) ++ v) r
  /-- an odd number of backslashes and a quote: half of them, and the quote stands for itself -/
  | quote (q : Bool) (n : Nat) (s v r : Str) : Arg q s v r → Arg q (bs (2 * n + 1) ++ 0x22 :: s) (bs n ++ 0x22 :: v) r
  /-- an even number: half of them, and the quote begins a quoted part -/
  | opening (n : Nat) (s v r : Str) : Arg true s v r → Arg false (bs (2 * n) ++ 0x22 :: s) (bs n ++ v) r
  /-- or ends one -/
  | closing (n : Nat) (s v r : Str) : s.head? ≠ some 0x22 → Arg false s v r → Arg true (bs (2 * n) ++ 0x22 :: s) (bs n ++ v) r
  /-- but two of them in a quoted part are one that stands for itself -/
  | double (n : Nat) (s v r : Str) : Arg true s v r → Arg true (bs (2 * n) ++ 0x22 :: 0x22 :: s) (bs n ++ 0x22 :: v) r

/-- the arguments of a line -/
inductive Args : Str → List Str → Prop
  | nil : Args [] []
  | white (c : UInt8) (s : Str) (vs : List Str) : White c → Args s vs → Args (c :: s) vs
  | last (c : UInt8) (s v : Str) : ¬ White c → Arg false (c :: s) v [] → Args (c :: s) [v]
  | arg (c : UInt8) (s v : Str) (d : UInt8) (r : Str) (vs : List Str) : ¬ White c → Arg false (c :: s) v (d :: r) → Args r vs →
    Args (c :: s) (v :: vs)

/-- how to write an argument so that it is taken as it is, after its opening quote: backslashes before a quote are doubled, the
quotes in it get one more.  `n` backslashes have been read and not yet written. -/
def body : Nat → Str → Str
  | n, [] => bs (2 * n) ++ [0x22]
  | n, c :: v =>
    if c = 0x5C then body (n + 1) v
    else if c = 0x22 then bs (2 * n + 1) ++ 0x22 :: body 0 v
    else bs n ++ c :: body 0 v

/-- a line with these arguments -/
def commandLine : List Str → Str
  | [] => []
  | v :: vs => 0x20 :: 0x22 :: body 0 v ++ commandLine vs

end Smlr.Args.Spec
