import Verif.Ctype.Model
set_option autoImplicit false
/-
`__doprint` of v0100/srclib/doprint.c (32-bit targets), without the floating-point conversions
(`printff`) and without `%n`; those give the outcome `none`, like undefined behaviour.

The format is the list of its bytes before the terminating NUL.  The argument list is a list of
typed values; fetching a missing argument or one of another type is undefined behaviour (`none`).
Signed overflow of `width`, `precision` or `len` is undefined behaviour (`none`).
-/
namespace Smlr.Printf
open Smlr.Ctype

abbrev Str := List UInt8

/-- a variadic argument: an `int`/`unsigned`, or a `char*` given as the characters before its NUL
(`str none` is a null pointer) -/
inductive Arg
  | int (v : BitVec 32)
  | str (s : Option Str)

/-- the stream: `cap` = number of characters `fputc` accepts before it fails (`none`: it never does),
`isStr` = the `_IOSTRING` flag (v0100/srclib/istdio.h:45) -/
structure Sink where
  cap : Option Nat
  isStr : Bool

/-- characters accepted so far, `cnt[0]` and `cnt[1]` (doprint.c:264) -/
structure St where
  out : Str
  cnt : BitVec 32
  err : Bool

/-- does `fputc` succeed? (v0100/srclib/fputc.c:14-40 with a buffer, vsnprint.c:7-14 for strings) -/
def Sink.accepts (k : Sink) (st : St) : Bool :=
  match k.cap with
  | none => true
  | some n => st.out.length < n

/-- `__fputc`, doprint.c:9-18 -/
def putc (k : Sink) (st : St) (c : UInt8) : St :=
  if st.err then st
  else if k.accepts st then { st with out := st.out ++ [c], cnt := st.cnt + 1 }
  else if k.isStr then { st with cnt := st.cnt + 1 }
  else { st with err := true }

/-- a loop calling `__fputc(c, ...)` `n` times, e.g. doprint.c:546-547, 555-556, 558-559, 565-566 -/
def rep (k : Sink) (c : UInt8) : Nat → St → St
  | 0, st => st
  | n+1, st => rep k c n (putc k st c)

/-- a loop calling `__fputc(*p++, ...)` over characters, doprint.c:446-447, 561-562 -/
def putAll (k : Sink) : Str → St → St
  | [], st => st
  | c :: cs, st => putAll k cs (putc k st c)

/-- `ljust`, `sign`, `alt`, `lzeroes` (doprint.c:266); `sign` is 0 or a character -/
structure Flags where
  ljust : Bool := false
  sign : UInt8 := 0
  alt : Bool := false
  lzeroes : Bool := false

/-- flag parsing, doprint.c:281-304: the head of the list is the current character `c`.
`none` = the format ended (`return -1`). -/
def parseFlags : Str → Flags → Option (Flags × UInt8 × Str)
  | [], _ => none                                                                                 -- doprint.c:302-303
  | c :: rest, f =>
    if c = 0x2D then parseFlags rest { f with ljust := true, lzeroes := false }                    -- '-'
    else if c = 0x2B then parseFlags rest { f with sign := 0x2B }                                  -- '+'
    else if c = 0x20 then parseFlags rest (if f.sign = 0 then { f with sign := 0x20 } else f)      -- ' '
    else if c = 0x23 then parseFlags rest { f with alt := true }                                   -- '#'
    else if c = 0x30 then parseFlags rest (if f.ljust then f else { f with lzeroes := true })      -- '0'
    else some (f, c, rest)

/-- outcome of a parsing step that can run off the format or overflow an `int` -/
inductive P (α : Type)
  | ok (a : α)
  /-- `return -1` -/
  | eos
  /-- undefined behaviour -/
  | ub

/-- `isdigit` on a character -/
def dig (c : UInt8) : Bool := isdigit c.toNat ≠ 0

/-- the decimal number loops of doprint.c:310-315 and 338-343 -/
def parseNum : Str → Nat → P (Nat × UInt8 × Str)
  | [], _ => .eos
  | c :: rest, n =>
    if dig c then
      let n := n * 10 + (c.toNat - 0x30)
      if n ≥ 2 ^ 31 then .ub else parseNum rest n
    else .ok (n, c, rest)

/-- width: doprint.c:306-328.  Result: flags, width (-1 if absent), current character, rest, arguments -/
def parseWidth (c : UInt8) (rest : Str) (f : Flags) (vl : List Arg) : P (Flags × Int × UInt8 × Str × List Arg) :=
  if dig c then
    match parseNum (c :: rest) 0 with
    | .ok (n, c, rest) => .ok (f, n, c, rest, vl)
    | .eos => .eos
    | .ub => .ub
  else if c = 0x2A then
    match vl with
    | .int v :: vl =>
      if v = BitVec.intMin 32 then .ub else
      let w := v.toInt
      let r : Flags × Int := if w < 0 then ({ f with ljust := true, lzeroes := false }, -w) else (f, w)
      match rest with
      | [] => .eos
      | c :: rest => .ok (r.1, r.2, c, rest, vl)
    | _ => .ub
  else .ok (f, -1, c, rest, vl)

/-- precision: doprint.c:330-351.  (In line 348 the character is not cast to `unsigned char`; a
character above 127 is then negative, and like the unsigned one matches no conversion.) -/
def parsePrec (c : UInt8) (rest : Str) (vl : List Arg) : P (Int × UInt8 × Str × List Arg) :=
  if c = 0x2E then
    match rest with
    | [] => .eos
    | c :: rest =>
      if dig c then
        match parseNum (c :: rest) 0 with
        | .ok (n, c, rest) => .ok (n, c, rest, vl)
        | .eos => .eos
        | .ub => .ub
      else if c = 0x2A then
        match vl with
        | .int v :: vl =>
          match rest with
          | [] => .eos
          | c :: rest => .ok (v.toInt, c, rest, vl)
        | _ => .ub
      else .ok (0, c, rest, vl)
  else .ok (-1, c, rest, vl)

/-- length modifier: doprint.c:353-378.  The result is `lmodifier` ('H' for `hh`, 0 for none), the
current character and the rest. -/
def parseLen (c : UInt8) (rest : Str) : P (UInt8 × UInt8 × Str) :=
  let r : UInt8 × Str :=
    if c = 0x68 then                                        -- 'h'
      match rest with
      | 0x68 :: rest => (0x48, rest)
      | _ => (c, rest)
    else if c = 0x6C ∨ c = 0x4C then (c, rest)              -- 'l', 'L'
    else if c ∈ [0x6A, 0x7A, 0x74] then (c, rest)           -- "jzt"
    else (0, rest)
  if r.1 ≠ 0 then
    match r.2 with
    | [] => .eos
    | c :: rest => .ok (r.1, c, rest)
  else .ok (0, c, rest)

/-- the digit loop, doprint.c:509-513: `room` is the number of free places in `char s[11]` -/
def digLoop (digit : Nat → UInt8) (base : Nat) : Nat → Nat → Str → Option Str
  | 0, _, _ => none
  | room+1, tmp, p =>
    let p := digit (tmp % base) :: p
    let tmp := tmp / base
    if tmp ≠ 0 then digLoop digit base room tmp p else some p

/-- `"0123456789abcdef"[i]` or its upper-case variant, doprint.c:470,485 -/
def lowerDigit (i : Nat) : UInt8 :=
  [0x30,0x31,0x32,0x33,0x34,0x35,0x36,0x37,0x38,0x39,0x61,0x62,0x63,0x64,0x65,0x66].getD i 0
def upperDigit (i : Nat) : UInt8 :=
  [0x30,0x31,0x32,0x33,0x34,0x35,0x36,0x37,0x38,0x39,0x41,0x42,0x43,0x44,0x45,0x46].getD i 0

/-- the value to be printed and the sign, doprint.c:490-506 -/
def intValue (c lmod : UInt8) (sign : UInt8) (v : BitVec 32) : BitVec 32 × UInt8 :=
  if c ≠ 0x64 then
    (if lmod = 0x48 then (v.truncate 8).zeroExtend 32
     else if lmod = 0x68 then (v.truncate 16).zeroExtend 32
     else v, 0)
  else
    let v := if lmod = 0x48 then (v.truncate 8).signExtend 32
      else if lmod = 0x68 then (v.truncate 16).signExtend 32
      else v
    if v.toInt < 0 then (-v, 0x2D) else (v, sign)

/-- integer conversions, doprint.c:464-569; `c` is one of `d o u x X p` -/
def convInt (k : Sink) (st : St) (c : UInt8) (f : Flags) (width precision : Int) (lmod : UInt8) (v : BitVec 32) : Option St :=
  let base : Nat := if c = 0x70 then 16 else 10
  let lzeroes := if precision ≥ 0 then false else f.lzeroes
  let isX : Bool := c = 0x78 ∨ c = 0x58
  let base := if c = 0x6F then 8 else if isX then 16 else base
  let digit := if c = 0x58 then upperDigit else lowerDigit
  let hexpfx : Str := if isX ∧ f.alt ∧ v ≠ 0 then (if c = 0x58 then [0x30, 0x58] else [0x30, 0x78]) else []
  let vs := intValue c lmod f.sign v
  let v := vs.1.toNat
  let sign := vs.2
  match digLoop digit base 11 v [] with
  | none => none
  | some p =>
    let dcnt := p.length
    let dcnt := if precision < 0 then dcnt else if v = 0 ∧ precision = 0 then 0 else dcnt
    let precision := if precision < 0 then 1 else precision
    let precision := if (f.alt = true ∧ c = 0x6F) ∧ ((v = 0 ∧ precision = 0) ∨ (v ≠ 0 ∧ precision ≤ dcnt)) then (dcnt : Int) + 1 else precision
    let precision := if precision < dcnt then (dcnt : Int) else precision
    let len : Int := (if sign ≠ 0 then 1 else 0) + (if hexpfx ≠ [] then 2 else 0) + precision
    if len ≥ 2 ^ 31 then none else
    let pad := (width - len).toNat
    let st := if !f.ljust && !lzeroes then rep k 0x20 pad st else st
    let st := if sign ≠ 0 then putc k st sign else putAll k hexpfx st
    let st := if !f.ljust && lzeroes then rep k 0x30 pad st else st
    let st := rep k 0x30 (precision - dcnt).toNat st
    let st := putAll k (p.take dcnt) st
    some (if f.ljust then rep k 0x20 pad st else st)

/-- `%c`, doprint.c:401-417 -/
def convChar (k : Sink) (st : St) (f : Flags) (width : Int) (v : BitVec 32) : St :=
  let pad := (width - 1).toNat
  let st := if f.ljust then st else rep k 0x20 pad st
  let st := putc k st (UInt8.ofNat v.toNat)
  if f.ljust then rep k 0x20 pad st else st

/-- `%s`, doprint.c:418-454; `none`: the length does not fit an `int` -/
def convStr (k : Sink) (st : St) (f : Flags) (width precision : Int) (s : Option Str) : Option St :=
  let s : Str := s.getD [0x28, 0x6E, 0x75, 0x6C, 0x6C, 0x29]     -- "(null)"
  let len := if precision < 0 then s.length else min s.length precision.toNat
  if len ≥ 2 ^ 31 then none else
  let pad := (width - len).toNat
  let st := if f.ljust then st else rep k 0x20 pad st
  let st := putAll k (s.take len) st
  some (if f.ljust then rep k 0x20 pad st else st)

/-- the main loop, doprint.c:269-572: final state and return value.  `fuel` bounds the iterations. -/
def doprint (k : Sink) : Nat → Str → List Arg → St → Option (St × Int)
  | 0, _, _, _ => none
  | _+1, [], _, st => some (st, if st.err then -1 else st.cnt.toInt)
  | fuel+1, c :: rest, vl, st =>
    if c ≠ 0x25 then doprint k fuel rest vl (putc k st c)
    else
      match rest with
      | [] => some (st, -1)
      | c :: rest =>
        if c = 0x25 then doprint k fuel rest vl (putc k st c)
        else
        match parseFlags (c :: rest) {} with
        | none => some (st, -1)
        | some (f, c, rest) =>
        match parseWidth c rest f vl with
        | .eos => some (st, -1)
        | .ub => none
        | .ok (f, width, c, rest, vl) =>
        match parsePrec c rest vl with
        | .eos => some (st, -1)
        | .ub => none
        | .ok (precision, c, rest, vl) =>
        match parseLen c rest with
        | .eos => some (st, -1)
        | .ub => none
        | .ok (lmod, c, rest) =>
        if c = 0x6E then none                         -- %n is not modelled
        else
          let c := if c = 0x69 then 0x64 else c       -- 'i' is 'd'
          if c ∉ [0x64, 0x6F, 0x75, 0x78, 0x58, 0x63, 0x73, 0x70, 0x65, 0x45, 0x66, 0x46, 0x67, 0x47] then some (st, -1)
          else if c = 0x63 then
            match vl with
            | .int v :: vl => doprint k fuel rest vl (convChar k st f width v)
            | _ => none
          else if c = 0x73 then
            match vl with
            | .str s :: vl =>
              match convStr k st f width precision s with
              | some st => doprint k fuel rest vl st
              | none => none
            | _ => none
          else if c ∈ [0x65, 0x45, 0x66, 0x46, 0x67, 0x47] then none      -- floating point is not modelled
          else
            match vl with
            | .int v :: vl =>
              match convInt k st c f width precision lmod v with
              | some st => doprint k fuel rest vl st
              | none => none
            | _ => none

/-- `__doprint(f, fmt, vl)` on a fresh stream -/
def printf (k : Sink) (fmt : Str) (vl : List Arg) : Option (Str × Int) :=
  (doprint k (fmt.length + 1) fmt vl ⟨[], 0, false⟩).map fun r => (r.1.out, r.2)

end Smlr.Printf
