import Verif.Ctype.Model

set_option autoImplicit false
/-
Printing of floating-point numbers: `__cvtdif` and `__cvtdff` of v0100/srclib/cvtdf.c, `roundupf`
and `printff` of v0100/srclib/doprint.c (32-bit targets; `double` is the 32-bit `float`).

A finite non-negative `float` is modelled by its value as a multiple of 2^-149, a natural number.
`modff`, `frexpf` and `ldexpf` (modf.c, frexp.c, ldexp.c) are x87 assembly; they are modelled by what
they compute on such values.  Characters are their codes.

The outcome `none` stands for: signed overflow, an access outside an array, a conversion to
`unsigned long` out of range, an inexact or overflowing `ldexpf`, and a loop that does not end
within the given number of rounds.
-/
namespace Smlr.Fprint

/-- the value of the non-negative finite `float` with the bits `u`, times 2^149 (IEEE 754 binary32) -/
def fval (u : Nat) : Nat :=
  if u / 2 ^ 23 = 0 then u % 2 ^ 23 else (2 ^ 23 + u % 2 ^ 23) * 2 ^ (u / 2 ^ 23 - 1)

/-- `frexpf(x, &e)`: the exponent stored in `e`, frexp.c:85-114 -/
def frexpE (x : Nat) : Int := if x = 0 then 0 else (Nat.log2 x : Int) + 1 - 149

/-- `modff(x, &t)`: the value stored in `t`, modf.c:91-135 -/
def modfI (x : Nat) : Nat := x / 2 ^ 149 * 2 ^ 149
/-- `modff(x, &t)`: the value returned -/
def modfF (x : Nat) : Nat := x % 2 ^ 149

/-- `ldexpf(x, n)`, ldexp.c:104-115; `none` if the result is infinite or would have to be rounded -/
def ldexp (x : Nat) (n : Int) : Option Nat :=
  if 0 ≤ n then
    if x * 2 ^ n.toNat < 2 ^ (128 + 149) then some (x * 2 ^ n.toNat) else none
  else if x % 2 ^ (-n).toNat = 0 then some (x / 2 ^ (-n).toNat) else none

/-- `ul = x` with `unsigned long ul` (32 bits); out of range is undefined behaviour -/
def toUlong (x : Nat) : Option Nat := if x / 2 ^ 149 < 2 ^ 32 then some (x / 2 ^ 149) else none

/-- assignment to an element of an array -/
def put (a : List Nat) (i v : Nat) : Option (List Nat) := if i < a.length then some (a.set i v) else none

/-- the high and the low half of `ul`, as stored in an `unsigned short`, cvtdf.c:73-74,88-89,188-189 -/
def hi (ul : Nat) : Nat := ul / 2 ^ 16 % 2 ^ 16
def lo (ul : Nat) : Nat := ul % 2 ^ 16

/-- 32 bits containing the most significant bits of the mantissa and the 32 bits after them, cvtdf.c:85-87,91-94
and 197-199,203-206 -/
def split64 (x : Nat) (n : Int) : Option (Nat × Nat) :=
  (ldexp x n).bind fun x =>
  (toUlong x).bind fun u =>
  (ldexp (modfF x) 32).bind fun x =>
  (toUlong x).bind fun v => some (u, v)

/-- storing them in four chunks, cvtdf.c:88-89,95-96 and 200-201,207-208 -/
def put4 (a : List Nat) (i j k l : Nat) (uv : Nat × Nat) : Option (List Nat) :=
  (put a i (hi uv.1)).bind fun a =>
  (put a j (lo uv.1)).bind fun a =>
  (put a k (hi uv.2)).bind fun a =>
  put a l (lo uv.2)

/-- `__cvtdif`: the 16-bit chunks of the integral part and the number of bits `e`, cvtdf.c:49,66-97 -/
def chunksI (x : Nat) : Option (List Nat × Nat) :=
  if frexpE x ≤ 32 then
    (toUlong x).bind fun ul =>
    (put (List.replicate 8 0) 0 (lo ul)).bind fun a =>
    (put a 1 (hi ul)).bind fun a =>
    some (a, if frexpE x ≤ 0 then 1 else (frexpE x).toNat)
  else
    let e2 := ((frexpE x).toNat + 31) / 32 * 32
    let j := e2 / 16 - 1
    (split64 x (32 - (e2 : Int))).bind fun uv =>
    (put4 (List.replicate 8 0) j (j - 1) (j - 2) (j - 3) uv).bind fun a =>
    some (a, (frexpE x).toNat)

/-- the inner loop of `__cvtdif`, cvtdf.c:107-113, on the chunks below `i`: division by 10 and the
remainder -/
def divLoop : Nat → List Nat → Nat → Option (List Nat × Nat)
  | 0, a, r => some (a, r)
  | i + 1, a, r =>
    match a[i]? with
    | none => none
    | some c =>
      let r := (r * 2 ^ 16 + c) % 2 ^ 32
      divLoop i (a.set i (r / 10 % 2 ^ 16)) (r % 10)

/-- the variables of the outer loop: chunks, starting chunk `e`, the buffer, the index `p`, `cnt` and
`*rem` -/
structure DSt where
  a : List Nat
  e : Nat
  buf : List Nat
  p : Nat
  cnt : Nat
  rem : Nat

/-- the outer loop of `__cvtdif`, cvtdf.c:104-124; `acc`: `rem` is not a null pointer -/
def digLoop (size : Nat) (acc : Bool) : Nat → DSt → Option DSt
  | 0, _ => none
  | fuel + 1, s =>
    match divLoop (s.e + 1) s.a 0 with
    | none => none
    | some (a, r) =>
      if s.p = 0 then none else
      match put s.buf (s.p - 1) (r + 48) with
      | none => none
      | some buf =>
        let p := if s.p - 1 = 0 then size else s.p - 1
        let cnt := s.cnt + 1
        let rem := if cnt > size ∧ acc then s.rem ||| r else s.rem
        match a[s.e]? with
        | none => none
        | some top =>
          if top = 0 then
            if s.e = 0 then some ⟨a, s.e, buf, p, cnt, rem⟩
            else digLoop size acc fuel ⟨a, s.e - 1, buf, p, cnt, rem⟩
          else digLoop size acc fuel ⟨a, s.e, buf, p, cnt, rem⟩

/-- `while (t--) *buf++ = *p++;`, cvtdf.c:130-131 -/
def moveLoop : Nat → Nat → Nat → List Nat → Option (List Nat)
  | 0, _, _, b => some b
  | t + 1, p, q, b =>
    match b[p]? with
    | none => none
    | some c => (put b q c).bind (moveLoop t (p + 1) (q + 1))

/-- `rev(buf + i, n)`, cvtdf.c:11-20 -/
def rev (i n : Nat) (b : List Nat) : List Nat := b.take i ++ ((b.drop i).take n).reverse ++ b.drop (i + n)

/-- `__cvtdif(x, buf, size, &rem)`, cvtdf.c:47-142: the buffer, the returned count and `rem` (1 stands
for a non-zero result of `memcmp`) -/
def cvtdif (x : Nat) (buf : List Nat) (size : Nat) : Option (List Nat × Nat × Nat) :=
  let rem := if x = modfI x then 0 else 1
  (chunksI x).bind fun ae =>
  (digLoop size (rem = 0) 64 ⟨ae.1, (ae.2 - 1) / 16, buf, size, 0, rem⟩).bind fun s =>
  if s.cnt < size then
    (moveLoop s.cnt s.p 0 s.buf).bind fun b => some (b, s.cnt, s.rem)
  else if s.cnt > size ∧ s.p ≠ size then
    some (rev 0 size (rev s.p (size - s.p) (rev 0 s.p s.buf)), s.cnt, s.rem)
  else some (s.buf, s.cnt, s.rem)

/-- `__cvtdff`: the 16-bit chunks of the fractional part `x` and the number of chunks in use (`e + 1`),
cvtdf.c:174,181-211 -/
def chunksF (x : Nat) : Option (List Nat × Nat) :=
  if -frexpE x ≤ 32 - 24 then
    (ldexp x 32).bind fun x =>
    (toUlong x).bind fun ul =>
    (put (List.replicate 12 0) 0 (hi ul)).bind fun a =>
    (put a 1 (lo ul)).bind fun a =>
    some (a, 2)
  else
    let e2 := (-frexpE x).toNat / 32 * 32
    let j := e2 / 16
    (split64 x (32 + (e2 : Int))).bind fun uv =>
    (put4 (List.replicate 12 0) j (j + 1) (j + 2) (j + 3) uv).bind fun a =>
    some (a, j + 3 + 1)

/-- `while (e >= 0 && a[e] == 0) e--;`, cvtdf.c:216-217,238-239, with `n = e + 1` -/
def trim : Nat → List Nat → Option Nat
  | 0, _ => some 0
  | n + 1, a =>
    match a[n]? with
    | none => none
    | some c => if c = 0 then trim n a else some (n + 1)

/-- the inner loop of `__cvtdff`, cvtdf.c:227-233, on the chunks below `i`: multiplication by 10 and
the carry -/
def mulLoop : Nat → List Nat → Nat → Option (List Nat × Nat)
  | 0, a, r => some (a, r)
  | i + 1, a, r =>
    match a[i]? with
    | none => none
    | some c =>
      let r := (r + c * 10) % 2 ^ 32
      mulLoop i (a.set i (r % 2 ^ 16)) (r / 2 ^ 16)

/-- the outer loops of `__cvtdff`, cvtdf.c:219-240: `z` counts the zeroes left out, `skip`: `zeroes` is
not a null pointer; `q` is the index of `buf`, `n = e + 1`.  (With `e < 0` the second loop writes
zeroes as well.) -/
def fracLoop : Nat → Nat → List Nat → Nat → Bool → Nat → List Nat → Nat → Option (List Nat × Nat × Nat)
  | 0, _, _, _, _, _, _, _ => none
  | _ + 1, 0, _, n, _, z, buf, _ => some (buf, z, n)
  | fuel + 1, size + 1, a, n, skip, z, buf, q =>
    match mulLoop n a 0 with
    | none => none
    | some (a, r) =>
      match trim n a with
      | none => none
      | some n =>
        if skip ∧ r = 0 then fracLoop fuel (size + 1) a n skip (z + 1) buf q
        else
          match put buf q (r + 48) with
          | none => none
          | some buf => fracLoop fuel size a n false z buf (q + 1)

/-- `while (size--) *buf++ = '0';`, cvtdf.c:219-223 -/
def zeroLoop : Nat → List Nat → Nat → Option (List Nat)
  | 0, buf, _ => some buf
  | size + 1, buf, q => (put buf q 48).bind fun buf => zeroLoop size buf (q + 1)

/-- `__cvtdff(x, buf + q, size, skip ? &z : NULL)`, cvtdf.c:172-245: the buffer, `z` and the result -/
def cvtdff (x : Nat) (buf : List Nat) (q size : Nat) (skip : Bool) : Option (List Nat × Nat × Bool) :=
  (chunksF (modfF x)).bind fun an =>
  (trim an.2 an.1).bind fun n =>
  if n = 0 then (zeroLoop size buf q).bind fun b => some (b, 0, false)
  else (fracLoop (size + 64) size an.1 n skip 0 buf q).bind fun r => some (r.1, r.2.1, decide (r.2.2 ≠ 0))

/-- `roundupf(buf, idx)`, doprint.c:26-41 -/
def roundup : Nat → List Nat → List Nat
  | 0, b => if b.getD 0 0 = 57 then b.set 0 48 else b.set 0 (b.getD 0 0 + 1)
  | i + 1, b => if b.getD (i + 1) 0 = 57 then roundup i (b.set (i + 1) 48) else b.set (i + 1) (b.getD (i + 1) 0 + 1)

/-- rounding to `k` digits, doprint.c:140-148, 184-192 -/
def roundEven (k : Nat) (rem : Bool) (b : List Nat) : List Nat :=
  let lastdig := b.getD (1 + k) 0
  if lastdig ≥ 53 ∧ (lastdig ≠ 53 ∨ rem ∨ (b.getD k 0 - 48) % 2 = 1) then roundup k b else b

/-- `MAX_FLT_DIGS`, doprint.c:46 with v0100/include/float.h:13,16 -/
def maxDigs : Nat := 151

/-- what is to be printed: `buf`, `icnt`, `iz`, `dot`, `fcnt`, `fz`, the exponent (with its `e` or `E`) -/
structure Parts where
  buf : List Nat
  icnt : Nat
  iz : Nat
  dot : Bool
  fcnt : Nat
  fz : Nat
  exp : List Nat

/-- an `int` expression with a non-negative value -/
def int (n : Nat) : Option Nat := if n < 2 ^ 31 then some n else none

/-- the branch for `f`, doprint.c:110-149; `buf` with `buf[0] = '0'` -/
def fixed (x : Nat) (buf : List Nat) (alt : Bool) (precision : Nat) : Option Parts :=
  (cvtdif x (buf.drop 1) maxDigs).bind fun r =>
  let buf := buf.take 1 ++ r.1
  let dot := decide (precision ≠ 0) || alt
  let icnt := r.2.1
  let fin (buf : List Nat) (rem : Bool) (icnt iz fcnt fz : Nat) : Parts :=
    let buf := roundEven (icnt + fcnt) rem buf
    ⟨buf, if buf.getD 0 0 ≠ 48 then icnt + 1 else icnt, iz, dot, fcnt, fz, []⟩
  if icnt ≥ maxDigs then
    some (fin buf (r.2.2 ≠ 0) (maxDigs - 1) (icnt - maxDigs + 1) 0 precision)
  else
    (int (precision + 1)).bind fun need =>
    let avail := maxDigs - icnt
    let fcnt := (if need < avail then need else avail) - 1
    (cvtdff x buf (1 + icnt) (fcnt + 1) false).bind fun r =>
    some (fin r.1 r.2.2 icnt 0 fcnt (precision - fcnt))

/-- the branch for `e` up to the exponent, doprint.c:150-192: the buffer, `pow10`, `fcnt` and `fz` -/
def scient (x : Nat) (buf : List Nat) (precision : Nat) : Option (List Nat × Int × Nat × Nat) :=
  (int (precision + 2)).bind fun need =>
  let request := if need < maxDigs then need else maxDigs
  (cvtdif x (buf.drop 1) request).bind fun r =>
  let buf := buf.take 1 ++ r.1
  let icnt := r.2.1
  let fcnt := request - 2
  let fin (buf : List Nat) (rem : Bool) (pow10 : Int) : List Nat × Int × Nat × Nat :=
    let buf := roundEven (1 + fcnt) rem buf
    (buf, if buf.getD 0 0 ≠ 48 then pow10 + 1 else pow10, fcnt, precision - fcnt)
  if buf.getD 1 0 = 48 then
    (cvtdff x buf 1 request true).bind fun r =>
    some (fin r.1 r.2.2 (-(r.2.1 : Int) - (if r.1.getD 1 0 ≠ 48 then 1 else 0)))
  else if icnt ≥ request then some (fin buf (r.2.2 ≠ 0) ((icnt : Int) - 1))
  else
    (cvtdff x buf (1 + icnt) (request - icnt) false).bind fun r =>
    some (fin r.1 r.2.2 ((icnt : Int) - 1))

/-- `ebuf`, doprint.c:205-212 -/
def expText (upper : Bool) (pow10 : Int) : List Nat :=
  [if upper then 69 else 101, if pow10 < 0 then 45 else 43, pow10.natAbs / 10 + 48, pow10.natAbs % 10 + 48]

/-- `while (fcnt && buf[i--] == '0') fcnt--;`, doprint.c:218-219, with `i = i0 + fcnt` -/
def stripLoop (b : List Nat) (i0 : Nat) : Nat → Nat
  | 0 => 0
  | fcnt + 1 => if b.getD (i0 + fcnt + 1) 0 = 48 then stripLoop b i0 fcnt else fcnt + 1

/-- doprint.c:214-223 (`wasg`) -/
def strip (alt : Bool) (p : Parts) : Parts :=
  if alt then p
  else
    let fcnt := stripLoop p.buf ((if p.buf.getD 0 0 = 48 then 1 else 0) + p.icnt - 1) p.fcnt
    { p with fcnt := fcnt, dot := if fcnt = 0 then false else p.dot, fz := 0 }

/-- doprint.c:96-223: the digits of a finite number; `conv` is the lower-case conversion -/
def finite (x : Nat) (buf : List Nat) (alt upper : Bool) (precision : Int) (conv : Int) : Option Parts :=
  if conv = 103 then
    let gprecision : Nat := if precision < 0 then 6 else if precision = 0 then 1 else precision.toNat
    (scient x buf (gprecision - 1)).bind fun r =>
    if r.2.1 ≥ -4 ∧ (gprecision : Int) > r.2.1 then
      (fixed x (r.1.set 0 48) alt ((gprecision : Int) - (r.2.1 + 1)).toNat).bind fun p => some (strip alt p)
    else
      some (strip alt ⟨r.1, 1, 0, decide (gprecision - 1 ≠ 0) || alt, r.2.2.1, r.2.2.2, expText upper r.2.1⟩)
  else
    let precision : Nat := if precision < 0 then 6 else precision.toNat
    if conv = 102 then fixed x buf alt precision
    else
      (scient x buf precision).bind fun r =>
      some ⟨r.1, 1, 0, decide (precision ≠ 0) || alt, r.2.2.1, r.2.2.2, expText upper r.2.1⟩

/-- doprint.c:226-258: the characters given to `__fputc` -/
def output (ljust : Bool) (sign : Nat) (lzeroes : Bool) (width : Int) (p : Parts) : Option (List Nat) :=
  (int ((if sign ≠ 0 then 1 else 0) + p.icnt + p.iz + (if p.dot then 1 else 0) + p.fcnt + p.fz + p.exp.length)).bind fun len =>
  let pad := (width - len).toNat
  let ds := p.buf.drop (if p.buf.getD 0 0 = 48 then 1 else 0)
  if p.icnt + p.fcnt ≤ ds.length then
    some ((if !ljust && !lzeroes then List.replicate pad 32 else []) ++
      (if sign ≠ 0 then [sign] else []) ++
      (if lzeroes then List.replicate pad 48 else []) ++
      ds.take p.icnt ++ List.replicate p.iz 48 ++ (if p.dot then [46] else []) ++
      (ds.drop p.icnt).take p.fcnt ++ List.replicate p.fz 48 ++ p.exp ++
      (if ljust then List.replicate (if lzeroes then 0 else pad) 32 else []))
  else none

/-- `printff`, doprint.c:52-259: `junk` is the uninitialised `buf`, `u` the bits of `x`; the result is the
list of characters printed -/
def printff (junk : List Nat) (u : Nat) (ljust : Bool) (sign : Nat) (alt lzeroes : Bool) (width precision : Int)
    (conversion : Nat) : Option (List Nat) :=
  let upper := decide (Ctype.isupper conversion ≠ 0)
  let conversion := Ctype.tolower conversion
  let sign := if u ≥ 2 ^ 31 then 45 else sign
  let u := u % 2 ^ 31
  let buf := junk.set 0 48
  if u > 0x7F800000 then
    output ljust sign false width ⟨48 :: (if upper then [78, 65, 78] else [110, 97, 110]), 3, 0, false, 0, 0, []⟩
  else if u = 0x7F800000 then
    output ljust sign false width ⟨48 :: (if upper then [73, 78, 70] else [105, 110, 102]), 3, 0, false, 0, 0, []⟩
  else
    (finite (fval u) buf alt upper precision conversion).bind (output ljust sign lzeroes width)

end Smlr.Fprint
