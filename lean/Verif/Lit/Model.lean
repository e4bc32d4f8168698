set_option autoImplicit false
/-! Model of character and string literals: `GetCharValue` (smlrc.c:1336-1440), `GetString` (1442-1503), character constants
(1875-1932), string literals in expressions (2681-2740), `GenDumpChar` (cgx86.c:3196-3238).

The text is a list of bytes; at its end the character queue delivers NULs (smlrc.c:1078-1092).  Tokens are not being skipped
(`PrepDontSkipTokens` is true; skipped literals are only measured).  The host's `unsigned` has 32 bits. -/
namespace Smlr.Lit

abbrev Str := List UInt8

inductive Err
  /-- `errorChrStr`: unsupported or invalid character/string constant -/
  | chrStr
  /-- only ASCII characters are supported as wide characters -/
  | wideAscii
  /-- `errorStrLen`: string literal too long -/
  | strLen
  /-- the model's loop bound -/
  | fuel
  deriving DecidableEq

/-- `*p` -/
def peek (s : Str) : UInt8 := s.headD 0

/-- `strchr("\n\r", c)` is not NULL; it is not NULL for the NUL either -/
def eol (c : UInt8) : Bool := c = 0x0A || c = 0x0D || c = 0

/-- `static char digs[]`, smlrc.c:1356 -/
def digs : Str := "0123456789ABCDEFabcdef".toList.map (fun c => UInt8.ofNat c.toNat)

/-- `static char vals[]`, smlrc.c:1357-1362 -/
def vals : List Nat := [0, 1, 2, 3, 4, 5, 6, 7, 8, 9, 10, 11, 12, 13, 14, 15, 10, 11, 12, 13, 14, 15]

/-- `vals[strchr(digs, c) - digs]` -/
def hexVal (c : UInt8) : Option Nat := (digs.idxOf? c).bind (vals[·]?)

/-- the digits of `\x`, smlrc.c:1376-1391: character and rest; `lim` is the greatest number of digits -/
def hexLoop (lim : Nat) : Str → Nat → Nat → Except Err (Nat × Nat × Str)
  | [], ch, cnt => .ok (ch, cnt, [])
  | c :: s, ch, cnt =>
    if c = 0 then .ok (ch, cnt, c :: s)
    else match hexVal c with
      | none => .ok (ch, cnt, c :: s)
      | some v =>
        if cnt + 1 > lim then .error .chrStr
        else hexLoop lim s ((ch <<< 4) % 2 ^ 32 ||| v) (cnt + 1)

/-- the loop over leading zeroes, smlrc.c:1368-1375 -/
def skipZeroes : Str → Nat × Str
  | [] => (0, [])
  | c :: s => if c = 0x30 then (1, (skipZeroes s).2) else (0, c :: s)

def isOct (c : UInt8) : Bool := 0x30 ≤ c && c ≤ 0x37

/-- octal escapes, smlrc.c:1399-1407 -/
def octLoop : Str → Nat → Nat → Nat × Str
  | [], ch, _ => (ch, [])
  | c :: s, ch, cnt =>
    if isOct c && (cnt = 0 || cnt < 3) then octLoop s ((ch <<< 3) % 2 ^ 32 ||| (c.toNat - 0x30)) (cnt + 1)
    else (ch, c :: s)

/-- smlrc.c:1425-1438, `lself` -/
def self (wide : Bool) (s : Str) : Except Err (Nat × Str) :=
  if eol (peek s) then .error .chrStr
  else if wide && decide ((peek s).toNat > 0x7F) then .error .wideAscii
  else .ok ((peek s).toNat, s.tail)

/-- after `\x`, smlrc.c:1366-1394 -/
def hexEsc (lim : Nat) (s : Str) : Except Err (Nat × Str) :=
  if eol (peek s) then .error .chrStr
  else match hexLoop lim (skipZeroes s).2 0 0 with
    | .error e => .error e
    | .ok (ch, cnt, r) => if (skipZeroes s).1 + cnt = 0 then .error .chrStr else .ok (ch, r)

/-- smlrc.c:1396-1410 -/
def octEsc (s : Str) : Except Err (Nat × Str) :=
  if (octLoop s 0 0).1 >>> 8 ≠ 0 then .error .chrStr else .ok (octLoop s 0 0)

/-- after a backslash, smlrc.c:1348-1425 -/
def escape (wcs : Nat) (wide : Bool) (s : Str) : Except Err (Nat × Str) :=
  if eol (peek s) then .error .chrStr
  else if peek s = 0x78 then hexEsc (if wide then wcs * 2 else 2) s.tail
  else if isOct (peek s) then octEsc s
  else if peek s = 0x61 then .ok (7, s.tail)
  else if peek s = 0x62 then .ok (8, s.tail)
  else if peek s = 0x66 then .ok (12, s.tail)
  else if peek s = 0x6E then .ok (10, s.tail)
  else if peek s = 0x72 then .ok (13, s.tail)
  else if peek s = 0x74 then .ok (9, s.tail)
  else if peek s = 0x76 then .ok (11, s.tail)
  else self wide s

/-- `GetCharValue`; `wcs` is `SizeOfWideChar` -/
def getChar (wcs : Nat) (wide : Bool) (s : Str) : Except Err (Nat × Str) :=
  if peek s = 0x5C then escape wcs wide s.tail else self wide s

/-- the loop of `GetString` after the opening quote, smlrc.c:1459-1493: character values and the text after the closing one.  `full k` says
that `errorStrLen` is raised when a further character is read after `k` characters -/
def body (wcs : Nat) (wide : Bool) (term : UInt8) (full : Nat → Bool) : Nat → Nat → Str → Except Err (List Nat × Str)
  | 0, _, _ => .error .fuel
  | fuel + 1, k, s =>
    if peek s = term || eol (peek s) then
      if peek s ≠ term then .error .chrStr else .ok ([], s.tail)
    else match getChar wcs wide s with
      | .error e => .error e
      | .ok (ch, s) =>
        if full k then .error .strLen
        else match body wcs wide term full fuel (k + 1) s with
          | .error e => .error e
          | .ok (chs, s) => .ok (ch :: chs, s)

/-- `chsz` -/
def chsz (wcs : Nat) (wide : Bool) : Nat := if wide then wcs else 1

/-- a character as `chsz` bytes, smlrc.c:1476-1481 -/
def bytesOf : Nat → Nat → Str
  | 0, _ => []
  | n + 1, ch => UInt8.ofNat (ch &&& 0xFF) :: bytesOf n (ch >>> 8)

/-- `GetString('"', wide, 'd')` on the text after the opening quote: bytes dumped and the text after the literal.
`TokenStringSize` is `k * chsz` after `k` characters, smlrc.c:1485 -/
def getString (wcs : Nat) (wide : Bool) (s : Str) : Except Err (Str × Str) :=
  match body wcs wide 0x22 (fun k => decide (k * chsz wcs wide > 2 ^ 32 - 1 - chsz wcs wide)) (s.length + 1) 0 s with
  | .error e => .error e
  | .ok (chs, s) => .ok ((chs.map (bytesOf (chsz wcs wide))).flatten, s)

/-- `GetString(term, 0, '#')`, the file name of `#include` and `#line`, smlrc.c:1464-1470; 255 is `MAX_STRING_LEN` -/
def getName (term : UInt8) (s : Str) : Except Err (Str × Str) :=
  match body 2 false term (fun k => decide (k = 255)) (s.length + 1) 0 s with
  | .error e => .error e
  | .ok (chs, s) => .ok (chs.map UInt8.ofNat, s)

/-- the loop over adjacent string literals in an expression, smlrc.c:2717-2725, from the text after the first opening quote: bytes, size of the
array, text left.  `W` is `SizeOfWord`; `next` stands for the white space and `GetToken` between literals: the text after the opening quote of the next literal of the same kind, if there is one -/
def literals (W wcs : Nat) (wide : Bool) (next : Str → Option Str) : Nat → Str → Nat → Except Err (Str × Nat × Str)
  | 0, _, _ => .error .fuel
  | fuel + 1, s, sz =>
    match getString wcs wide s with
    | .error e => .error e
    | .ok (b, r) =>
      if (sz + b.length) % 2 ^ 32 < sz ∨ (sz + b.length) % 2 ^ 32 ≥ 2 ^ (8 * W) - 1 then .error .strLen
      else match next r with
        | none => .ok (b, (sz + b.length) % 2 ^ 32, r)
        | some s' => match literals W wcs wide next fuel s' ((sz + b.length) % 2 ^ 32) with
          | .error e => .error e
          | .ok (b', sz', r') => .ok (b ++ b', sz', r')

/-- a string literal in an expression, smlrc.c:2697-2743: bytes of the array, number of elements, text left -/
def literal (W wcs : Nat) (wide : Bool) (next : Str → Option Str) (s : Str) : Except Err (Str × Nat × Str) :=
  match literals W wcs wide next (s.length + 1) s (chsz wcs wide) with
  | .error e => .error e
  | .ok (b, sz, r) => .ok (b ++ List.replicate (chsz wcs wide) 0, sz / chsz wcs wide, r)

/-! ### character constants, smlrc.c:1875-1932 -/

/-- conversion of `unsigned` to `int` -/
def toInt (v : Nat) : Int := if v < 2 ^ 31 then v else (v : Int) - 2 ^ 32

/-- `strchr("'\n\r", c)` is not NULL -/
def qeol (c : UInt8) : Bool := c = 0x27 || eol c

/-- the loop at 1890-1897: value, number of characters, rest -/
def constLoop (wcs : Nat) (wide : Bool) (max : Nat) : Nat → Str → Nat → Nat → Except Err (Nat × Nat × Str)
  | 0, _, _, _ => .error .fuel
  | fuel + 1, s, v, cnt =>
    match getChar wcs wide s with
    | .error e => .error e
    | .ok (ch, s) =>
      let v := (v <<< 8) % 2 ^ 32 ||| ch
      let cnt := cnt + 1
      if cnt > max then .error .chrStr
      else if qeol (peek s) then .ok (v, cnt, s)
      else constLoop wcs wide max fuel s v cnt

/-- a character constant after its opening quote: value and rest -/
def charConst (W wcs : Nat) (wide charSigned wideSigned : Bool) (s : Str) : Except Err (Int × Str) :=
  if qeol (peek s) then .error .chrStr
  else match constLoop wcs wide (if wide then 1 else W) (s.length + 1) s 0 0 with
    | .error e => .error e
    | .ok (v, cnt, s) =>
      if peek s ≠ 0x27 then .error .chrStr
      else
        let s := s.tail
        let x := toInt v
        if wide then .ok (x - (if wideSigned ∧ wcs = 2 ∧ x ≥ 0x8000 then 0x10000 else 0), s)
        else if cnt = 1 then .ok (x - (if charSigned ∧ x ≥ 0x80 then 0x100 else 0), s)
        else .ok (x - (if W = 2 ∧ x ≥ 0x8000 then 0x10000 else 0), s)

/-! ### the assembler text, cgx86.c:3196-3238 -/

/-- `printf2("%u", ch)` -/
def decimal (n : Nat) : Str := (Nat.toDigits 10 n).map (fun c => UInt8.ofNat c.toNat)

/-- `GenDumpChar(ch)`, `len` is `TokenStringLen` (only whether it is 0 matters; for wide characters the model counts bytes): text and new `quot` -/
def dumpChar (quot : Bool) (len : Nat) (ch : UInt8) : Str × Bool :=
  let start : Str := if len = 0 then [0x09, 0x64, 0x62, 0x09] else []
  if 0x20 ≤ ch ∧ ch ≤ 0x7E ∧ ch ≠ 0x22 then
    (start ++ (if !quot then (if len ≠ 0 then [0x2C] else []) ++ [0x22] else []) ++ [ch], true)
  else
    (start ++ (if quot then [0x22] else []) ++ (if len ≠ 0 then [0x2C] else []) ++ decimal ch.toNat, false)

/-- the bytes of one literal, ending with `GenDumpChar(-1)` -/
def dump (quot : Bool) (len : Nat) : Str → Str
  | [] => (if quot then [0x22] else []) ++ (if len ≠ 0 then [0x0A] else [])
  | b :: bs => (dumpChar quot len b).1 ++ dump (dumpChar quot len b).2 (len + 1) bs

end Smlr.Lit
