set_option autoImplicit false
/-! Model of `GetNumber` (smlrc.c:1557-1797) and of the conversion `d2f` (fp.c:166-322).

The host `unsigned` has 32 bits.  The input is the list of characters not yet consumed; its end stands for the NUL.
`mexp`, an `int` in the code that counts digits, is an unbounded integer here: it cannot overflow unless a literal has
2^31 digits. -/
namespace Smlr.Number

abbrev Str := List UInt8

/-- `unsigned` arithmetic of the host -/
def u32 (n : Nat) : Nat := n % 2 ^ 32

/-- reasons for `error()` -/
inductive Err
  | tooBig | badHex | badOctal | badFloat | tooBigType | tooBigSigned | internal
  deriving DecidableEq

inductive Tok | int | uint | float
  deriving DecidableEq

/-- `isdigit` -/
def isDigit (c : UInt8) : Bool := 0x30 ≤ c.toNat && c.toNat ≤ 0x39

/-- value of a hexadecimal digit: the loop condition and first lines of smlrc.c:1583-1587 -/
def hexVal (c : UInt8) : Option Nat :=
  if isDigit c then some (c.toNat - 0x30)
  else if 0x61 ≤ c.toNat ∧ c.toNat ≤ 0x66 then some (c.toNat - (0x61 - 10))
  else if 0x41 ≤ c.toNat ∧ c.toNat ≤ 0x46 then some (c.toNat - (0x41 - 10))
  else none

/-- the overflow test `n * base / base != n || n * base + ch < n * base`, smlrc.c:1588, 1684 -/
def ovf (n base ch : Nat) : Bool := u32 (n * base) / base ≠ n || u32 (u32 (n * base) + ch) < u32 (n * base)

/-- smlrc.c:1583-1593, `live` being `PrepDontSkipTokens`: value, number of digits, rest -/
def scanHex (live : Bool) : Str → Nat → Nat → Except Err (Nat × Nat × Str)
  | [], n, cnt => .ok (n, cnt, [])
  | c :: s, n, cnt =>
    match hexVal c with
    | none => .ok (n, cnt, c :: s)
    | some d => if live && ovf n 16 d then .error .tooBig else scanHex live s (u32 (n * 16 + d)) (cnt + 1)

/-- smlrc.c:1606-1607, 1623-1624: number of zeroes skipped and rest -/
def skipZeros : Str → Nat × Str
  | [] => (0, [])
  | c :: s => if c = 0x30 then ((skipZeros s).1 + 1, (skipZeros s).2) else (0, c :: s)

/-- `MAX_CONST_DIGITS`, fp.c:26 -/
def maxDigits : Nat := 112

/-- smlrc.c:1609-1616: digits stored, exponent correction, rest -/
def scanInt : Str → List Nat → Int → List Nat × Int × Str
  | [], ds, m => (ds, m, [])
  | c :: s, ds, m =>
    if isDigit c then
      if ds.length < maxDigits then scanInt s (ds ++ [c.toNat - 0x30]) m else scanInt s ds (m + 1)
    else (ds, m, c :: s)

/-- smlrc.c:1625-1631 -/
def scanFrac : Str → List Nat → Int → List Nat × Int × Str
  | [], ds, m => (ds, m, [])
  | c :: s, ds, m =>
    if isDigit c then scanFrac s (if ds.length < maxDigits then ds ++ [c.toNat - 0x30] else ds) (m - 1)
    else (ds, m, c :: s)

/-- smlrc.c:1641-1655: exponent, number of its digits, rest -/
def scanExp (live : Bool) : Str → Nat → Nat → Except Err (Nat × Nat × Str)
  | [], n, cnt => .ok (n, cnt, [])
  | c :: s, n, cnt =>
    if isDigit c then
      let ch := c.toNat - 0x30
      if ovf n 10 ch || u32 (n * 10 + ch) > (2 ^ 32 - 1) / 2 then
        if live then .error .tooBig else scanExp live s ch (cnt + 1)
      else scanExp live s (u32 (n * 10 + ch)) (cnt + 1)
    else .ok (n, cnt, c :: s)

/-- smlrc.c:1668-1674: trailing zeroes dropped -/
def dropTrailing (ds : List Nat) (m : Int) : List Nat × Int :=
  let z := (ds.reverse.takeWhile (· = 0)).length
  (ds.take (ds.length - z), m + z)

/-- smlrc.c:1679-1689: value of a decimal or octal integer -/
def intVal (live : Bool) (base : Nat) : List Nat → Nat → Except Err Nat
  | [], n => .ok n
  | d :: ds, n =>
    if d ≥ base then .error .badOctal
    else if live && ovf n base d then .error .tooBig
    else intVal live base ds (u32 (n * base + d))

/-- smlrc.c:1717-1733: `u` suffix, `l` suffix, rest -/
def scanSuffix (s : Str) : Bool × Bool × Str :=
  let (u, s) := match s with
    | c :: s' => if c = 0x75 ∨ c = 0x55 then (true, s') else (false, s)
    | [] => (false, [])
  match s with
  | c :: s' =>
    if c = 0x6C ∨ c = 0x4C then
      match s' with
      | c' :: s'' => if !u && (c' = 0x75 ∨ c' = 0x55) then (true, true, s'') else (u, true, s')
      | [] => (u, true, [])
    else (u, false, s)
  | [] => (u, false, [])

/-! ### decimal to float -/

/-- `ChainMultiplyAdd`, fp.c:166-180: bytes, least significant first -/
def mulAdd : List Nat → Nat → Nat → List Nat
  | [], _, _ => []
  | b :: l, m, carry => (carry + b * m) % 256 :: mulAdd l m ((carry + b * m) / 256)

/-- `ChainDivide`, fp.c:182-201, from the most significant byte (last of the list) down: quotient and remainder -/
def chainDiv : List Nat → Nat → List Nat × Nat
  | [], _ => ([], 0)
  | b :: l, d =>
    let (q, r) := chainDiv l d
    ((r * 256 + b) / d :: q, (r * 256 + b) % d)

/-- most significant set bit of a byte -/
def topBit : Nat → Nat → Nat
  | 0, _ => 0
  | k+1, b => if b / 2 ^ (k + 1) % 2 = 1 then k + 1 else topBit k b

/-- fp.c:270-275, 287-291: index of the most significant set bit, `none` if all bytes are 0 -/
def msb : List Nat → Option Nat
  | [] => none
  | b :: l =>
    match msb l with
    | some t => some (t + 8)
    | none => if b = 0 then none else some (topBit 7 b)

def iter {α : Type} (f : α → α) : Nat → α → α
  | 0, a => a
  | n+1, a => iter f n (f a)

/-- the state of the conversion: bytes, binary exponent, the two `inexact` flags, last remainder -/
structure Cv where
  ch : List Nat
  binExp : Int
  inexact : Bool
  last : Bool
  rem : Nat

/-- one division with its flags, fp.c:264-266, 293-297 -/
def Cv.div (d : Nat) (e : Int) (c : Cv) : Cv :=
  let (q, r) := chainDiv c.ch d
  { ch := q, binExp := c.binExp + e, inexact := c.inexact || r ≠ 0, last := c.inexact, rem := r }

/-- fp.c:284-303: one round of the normalising loop; the top bit found -/
def norm (c : Cv) : Option Nat × Cv :=
  let c := { c with rem := 0 }
  match msb c.ch with
  | none => (none, c)
  | some t =>
    let c := iter (Cv.div 2 1) (t - 23) c
    let c := iter (Cv.div 2 1) (-149 - c.binExp).toNat c
    (some (min t 23), c)

/-- fp.c:281-304; `fuel` bounds the rounds -/
def roundLoop : Nat → Cv → Option (Option Nat × Cv)
  | 0, _ => none
  | fuel+1, c =>
    let (t, c) := norm c
    if c.rem ≠ 0 ∧ (c.last ∨ c.ch.headD 0 % 2 = 1) then roundLoop fuel { c with ch := mulAdd c.ch 1 1 }
    else some (t, c)

/-- fp.c:307-313: the bytes up to the one with the top bit -/
def collect (t : Option Nat) (ch : List Nat) : Nat :=
  match t with
  | none => 0
  | some t => (ch.take (t / 8 + 1)).foldr (fun b acc => acc * 256 + b) 0

/-- `FP_BUF_SIZE`, fp.c:31 -/
def bufSize : Nat := ((((112 + 46) * 10 + 2) / 3 + 23 + 2) + 7) / 8

/-- fp.c:315-321: exponent and mantissa put together -/
def pack (res : Nat) (binExp : Int) : Nat :=
  let e := if res / 2 ^ 23 % 2 = 0 then 0 else binExp + 150
  let m := if res / 2 ^ 23 % 2 = 1 then res - 2 ^ 23 else res
  if e ≥ 255 then 255 * 2 ^ 23 else e.toNat * 2 ^ 23 + m

/-- fp.c:278-321: rounding and result -/
def finish (c : Cv) : Except Err Nat :=
  match roundLoop 3 c with
  | none => .error .internal
  | some (t, c) => .ok (pack (collect t c.ch) c.binExp)

/-- fp.c:268-277: small numbers shifted left -/
def shiftUp (c : Cv) : Cv :=
  match msb c.ch with
  | none => c
  | some t => { c with ch := iter (fun ch => mulAdd ch 2 0) (23 - t) c.ch, binExp := c.binExp - ((23 - t : Nat) : Int) }

/-- fp.c:257-267: scaling and division by the power of ten -/
def divide (c : Cv) (sh k : Nat) : Cv :=
  iter (Cv.div 10 0) k { c with binExp := -(sh : Int), ch := iter (fun ch => mulAdd ch 2 0) sh c.ch }

/-- fp.c:249-253: the numerator in binary -/
def numerator (digits : List Nat) (e n : Nat) : List Nat :=
  iter (fun ch => mulAdd ch 10 0) e (digits.foldl (fun ch d => mulAdd ch 10 d) (List.replicate n 0))

/-- `d2f`, fp.c:205-322 -/
def d2f (digits : List Nat) (eexp : Int) : Except Err Nat :=
  let cnt := digits.length
  if cnt = 1 ∧ digits.headD 0 = 0 then .ok 0
  else if eexp < -46 - ((cnt : Int) - 1) then .ok 0
  else if eexp > 38 - ((cnt : Int) - 1) then .ok 0x7F800000
  else
    let numDec := cnt + eexp.toNat
    let denDec := 1 + (-eexp).toNat
    let t1 := (numDec * 10 + 2) / 3
    let numBin := if eexp ≥ 0 then max t1 24 else max t1 ((denDec * 10 + 2) / 3 + 25)
    let numBytes := (numBin + 7) / 8
    if numBytes > bufSize then .error .internal
    else
      let c : Cv := { ch := numerator digits eexp.toNat numBytes, binExp := 0, inexact := false, last := false, rem := 0 }
      finish (shiftUp (if eexp < 0 then divide c (numBin - t1) (-eexp).toNat else c))

/-! ### the token -/

/-- smlrc.c:1745-1796: the checks after the digits.  `kind`: `h`, `o` or `d` -/
def finishInt (word : Nat) (dec : Bool) (u l : Bool) (n : Nat) : Except Err (Tok × Nat) :=
  if (word = 2 ∧ n / 2 ^ 16 ≠ 0) ∨ (word = 2 ∧ l = true) ∨ (word = 4 ∧ n / 2 ^ 32 ≠ 0) then .error .tooBigType
  else if u = false ∧ ((word = 2 ∧ n / 2 ^ 15 = 0) ∨ (word = 4 ∧ n / 2 ^ 31 = 0)) then .ok (.int, n)
  else if u = false ∧ dec = true then .error .tooBigSigned
  else .ok (.uint, n)

/-- suffixes and checks of an integer -/
def endInt (live : Bool) (word : Nat) (dec : Bool) (n : Nat) (s : Str) : Except Err (Tok × Nat × Str) :=
  let (u, l, s) := scanSuffix s
  if live then
    match finishInt word dec u l n with
    | .error e => .error e
    | .ok (t, v) => .ok (t, v, s)
  else .ok (.int, 0, s)

/-- smlrc.c:1633-1663: exponent part: value, number of digits, rest -/
def scanExpPart (live : Bool) (s : Str) : Except Err (Int × Nat × Str) :=
  match s with
  | c :: s' =>
    if c = 0x65 ∨ c = 0x45 then
      let (neg, s') := match s' with
        | c' :: s'' => if c' = 0x2D then (true, s'') else if c' = 0x2B then (false, s'') else (false, s')
        | [] => (false, [])
      match scanExp live s' 0 0 with
      | .error e => .error e
      | .ok (n, cnt, s') => if cnt = 0 then .error .badFloat else .ok (if neg then -(n : Int) else n, cnt, s')
    else .ok (0, 0, s)
  | [] => .ok (0, 0, [])

/-- smlrc.c:1616-1632: the fraction: digits, exponent correction, whether there is a dot, rest -/
def scanFracPart (s : Str) (ds : List Nat) (m : Int) : List Nat × Int × Bool × Str :=
  match s with
  | c :: s' =>
    if c = 0x2E then
      let (z, s') := if ds = [] then skipZeros s' else (0, s')
      let (ds, m, s') := scanFrac s' ds (m - z)
      (ds, m, true, s')
    else (ds, m, false, s)
  | [] => (ds, m, false, [])

/-- smlrc.c:1661-1662: the suffix of a floating constant -/
def dropFL (s : Str) : Str :=
  match s with
  | c :: s' => if c = 0x66 ∨ c = 0x46 ∨ c = 0x6C ∨ c = 0x4C then s' else c :: s'
  | [] => []

/-- smlrc.c:1664-1691 and 1743-1748: a floating constant -/
def endFloat (live : Bool) (ds : List Nat) (m e : Int) (s : Str) : Except Err (Tok × Nat × Str) :=
  let s := dropFL s
  let (ds, m) := dropTrailing ds m
  let (ds, m) := if ds = [] then ([0], 0) else (ds, m)
  if (m ≥ 0 ∧ e > 2 ^ 31 - 1 - m) ∨ (m < 0 ∧ e ≤ -2 ^ 31 - (m + 1)) then
    if live then .error .tooBig else .ok (.int, 0, s)
  else if live then
    match d2f ds (e + m) with
    | .error x => .error x
    | .ok v => .ok (.float, v, s)
  else .ok (.int, 0, s)

/-- smlrc.c:1598-1693: a decimal or octal integer, or a floating constant -/
def decimal (live : Bool) (word : Nat) (lz : Bool) (s : Str) : Except Err (Tok × Nat × Str) :=
  let (ds, m, s) := scanInt (skipZeros s).2 [] 0
  let (ds, m, dot, s) := scanFracPart s ds m
  match scanExpPart live s with
  | .error e => .error e
  | .ok (e, ecnt, s) =>
    if dot ∨ ecnt ≠ 0 then endFloat live ds m e s
    else
      match intVal live (if lz then 8 else 10) ds 0 with
      | .error x => .error x
      | .ok n => endInt live word (!lz) n s

/-- smlrc.c:1576-1581: what follows `0x` -/
def hexPrefix (s : Str) : Option Str :=
  match s with
  | z :: x :: s' => if z = 0x30 ∧ (x = 0x78 ∨ x = 0x58) then some s' else none
  | _ => none

/-- `GetNumber`, smlrc.c:1557-1797, for a text that starts with a digit, or a dot and a digit -/
def getNumber (live : Bool) (word : Nat) (s : Str) : Except Err (Tok × Nat × Str) :=
  match hexPrefix s with
  | some s' =>
    match scanHex live s' 0 0 with
    | .error e => .error e
    | .ok (n, cnt, s') => if cnt = 0 then .error .badHex else endInt live word false n s'
  | none => decimal live word (s.head? = some 0x30) s

end Smlr.Number
