import Verif.Ctype.Model
set_option autoImplicit false
/-
Model of `strtol`, `strtoul`, `atoi` (32-bit library: `long` and `int` have 32
bits).  A C string is the list of its bytes; reading at or past the end of the
list gives the NUL terminator (an embedded 0 byte acts as terminator as well).
`nptr` is represented by the remaining list.  `unsigned long` values are `Nat`
reduced modulo 2^32 after each operation.
-/
namespace Smlr.Strtol
open Smlr.Ctype

/-- `(unsigned char)*nptr`: the current character, 0 at the end. -/
def cur (l : List UInt8) : Nat := (l.headD 0).toNat

/-- White space loop, v0100/srclib/strtol.c:17-18, strtoul.c:17-18, atoi.c:13-14. -/
def skipSpace : List UInt8 → List UInt8
  | [] => []
  | c :: t => if isspace (c.toNat : Int) ≠ 0 then skipSpace t else c :: t

/-- Sign, v0100/srclib/strtol.c:20-23, strtoul.c:20-23, atoi.c:16-19. -/
def sign (l : List UInt8) : Bool × List UInt8 :=
  if cur l = 0x2D then (true, l.tail)
  else if cur l = 0x2B then (false, l.tail)
  else (false, l)

/-- Base prefix, v0100/srclib/strtol.c:25-36, strtoul.c:25-36.
Returns the new base, the `hexpfx` flag and the rest. -/
def basePrefix (base : Nat) (l : List UInt8) : Nat × Bool × List UInt8 :=
  if (base = 0 ∨ base = 16) ∧ cur l = 0x30 ∧ (cur l.tail = 0x78 ∨ cur l.tail = 0x58) then
    (16, true, l.tail.tail)
  else if base = 0 then
    ((if cur l = 0x30 then 8 else 10), false, l)
  else (base, false, l)

/-- Value of a digit character as computed by v0100/srclib/strtol.c:42-47
(`none` is the `break`).  `c & ~0x20` on a value below 256 is `c &&& 0xDF`. -/
def digitChar (c : Nat) : Option Int :=
  if isdigit (c : Int) ≠ 0 then some ((c : Int) - 0x30)
  else if isalpha (c : Int) ≠ 0 then some (((c &&& 0xDF : Nat) : Int) - (0x41 - 10))
  else none

/-- State of the digit loop: `n`, `toobig`, `cnt`, `nptr`. -/
structure LoopRes where
  n : Nat
  toobig : Bool
  cnt : Nat
  rest : List UInt8

/-- Digit loop, v0100/srclib/strtol.c:40-61 (identical in strtoul.c:40-61). -/
def digitLoop (base : Nat) : List UInt8 → Nat → Bool → Nat → LoopRes
  | [], n, toobig, cnt => ⟨n, toobig, cnt, []⟩
  | ch :: t, n, toobig, cnt =>
    if ch.toNat = 0 then ⟨n, toobig, cnt, ch :: t⟩
    else match digitChar ch.toNat with
      | none => ⟨n, toobig, cnt, ch :: t⟩
      | some c =>
        if c ≥ (base : Int) then ⟨n, toobig, cnt, ch :: t⟩
        else
          let preMulMax := (2^32 - 1) / base
          let toobig := if n > preMulMax then true else toobig
          let n : Nat := n * base % 2^32
          let toobig := if (n : Int) > 2^32 - 1 - c then true else toobig
          let n := ((n : Int) + c).toNat % 2^32
          digitLoop base t n toobig ((cnt + 1) % 2^32)

/-- Result of a call: the returned value, whether `errno` was set to `ERANGE`,
and `*endptr` as an offset from the start of the string. -/
structure Result (α : Type) where
  value : α
  erange : Bool
  endpos : Nat
  deriving DecidableEq

/-- `*endptr` computation, v0100/srclib/strtol.c:75-80, strtoul.c:72-77. -/
def endPos (s rest : List UInt8) (cnt : Nat) (hexpfx : Bool) : Nat :=
  if cnt = 0 ∧ hexpfx then (s.length - rest.length) - 1
  else if cnt ≠ 0 then s.length - rest.length else 0

/-- `(long)n` for a 32-bit `n`. -/
def toLong (n : Nat) : Int := if n < 2^31 then n else (n : Int) - 2^32

/-- Final range check and negation, v0100/srclib/strtol.c:63-73. -/
def finishLong (neg : Bool) (n : Nat) (toobig : Bool) : Int × Bool :=
  let toobig := if n > (2^32 - 1) / 2 + neg.toNat then true else toobig
  let n := if neg then (2^32 - n) % 2^32 else n
  let n := if toobig then (2^32 - 1) / 2 + neg.toNat else n
  (toLong n, toobig)

/-- Final range check and negation, v0100/srclib/strtoul.c:63-70. -/
def finishULong (neg : Bool) (n : Nat) (toobig : Bool) : Nat × Bool :=
  let n := if neg then (2^32 - n) % 2^32 else n
  let n := if toobig then 2^32 - 1 else n
  (n, toobig)

/-- v0100/srclib/strtol.c:9-83 -/
def strtol (s : List UInt8) (base : Nat) : Result Int :=
  let l := skipSpace s
  let (neg, l) := sign l
  let (base, hexpfx, l) := basePrefix base l
  let r := digitLoop base l 0 false 0
  let f := finishLong neg r.n r.toobig
  ⟨f.1, f.2, endPos s r.rest r.cnt hexpfx⟩

/-- v0100/srclib/strtoul.c:9-80 -/
def strtoul (s : List UInt8) (base : Nat) : Result Nat :=
  let l := skipSpace s
  let (neg, l) := sign l
  let (base, hexpfx, l) := basePrefix base l
  let r := digitLoop base l 0 false 0
  let f := finishULong neg r.n r.toobig
  ⟨f.1, f.2, endPos s r.rest r.cnt hexpfx⟩

/-- Digit loop of `atoi`, v0100/srclib/atoi.c:21-31; `none` is `return 0`. -/
def atoiLoop : List UInt8 → Nat → Option Nat
  | [], n => some n
  | ch :: t, n =>
    if isdigit (ch.toNat : Int) ≠ 0 then
      if n > (2^32 - 1) / 10 then none
      else
        let n : Nat := n * 10 % 2^32
        let c : Int := (ch.toNat : Int) - 0x30
        if (n : Int) > 2^32 - 1 - c then none
        else atoiLoop t (((n : Int) + c).toNat % 2^32)
    else some n

/-- v0100/srclib/atoi.c:8-40 -/
def atoi (s : List UInt8) : Int :=
  let l := skipSpace s
  let (neg, l) := sign l
  match atoiLoop l 0 with
  | none => 0
  | some n =>
    if n > (2^32 - 1) / 2 + neg.toNat then 0
    else toLong (if neg then (2^32 - n) % 2^32 else n)

end Smlr.Strtol
