import Verif.Time.Model
import Verif.Printf.Model
set_option autoImplicit false
/-! `strftime` (srclib/strftime.c) and `asctime`, `ctime` (srclib/asctime.c, ctime.c) on 32-bit targets.

`none` is undefined behaviour: overflow of an `int`, a store outside the buffer.  Strings are the lists of their bytes before the NUL. -/
namespace Smlr.Ftime
open Smlr.Time (Tm isleap u32 sub32)
open Smlr.Printf (Str)

/-- `struct bufstate`, strftime.c:27-32; `out`: the bytes that were stored from the beginning of the buffer -/
structure Buf where
  maxsize : Nat
  size : Nat
  out : Str

/-- `__putc`, strftime.c:34-38: `size_t` wraps around -/
def putc (c : UInt8) (b : Buf) : Buf :=
  { b with size := (b.size + 1) % 2 ^ 32, out := if b.size < b.maxsize then b.out ++ [c] else b.out }

/-- `__puts`, strftime.c:40-44 -/
def puts (s : Str) (b : Buf) : Buf := s.foldl (fun b c => putc c b) b

/-- the loop that makes the digits in `s`, strftime.c:49-58: there is room for ten -/
def digs : Nat → Nat → Option Str
  | 0, _ => none
  | room + 1, n =>
    if n / 10 = 0 then some [UInt8.ofNat (0x30 + n % 10)] else (digs room (n / 10)).map (· ++ [UInt8.ofNat (0x30 + n % 10)])

/-- `__putn`, strftime.c:46-62: `n` is converted to `unsigned` -/
def putn (n : Int) (width : Nat) (padch : UInt8) (b : Buf) : Option Buf :=
  (digs 10 (u32 n)).map fun s => puts s (puts (List.replicate (width - s.length) padch) b)

/-- the result of an operation on `int`s -/
def i32 (x : Int) : Option Int := if -2 ^ 31 ≤ x ∧ x < 2 ^ 31 then some x else none

/-- a string of ASCII characters -/
def lit (s : String) : Str := s.toList.map fun c => UInt8.ofNat c.toNat

/-- strftime.c:7-25 -/
def dayAbbr : List String := ["Sun", "Mon", "Tue", "Wed", "Thu", "Fri", "Sat"]
def dayFull : List String := ["Sunday", "Monday", "Tuesday", "Wednesday", "Thursday", "Friday", "Saturday"]
def monthAbbr : List String := ["Jan", "Feb", "Mar", "Apr", "May", "Jun", "Jul", "Aug", "Sep", "Oct", "Nov", "Dec"]
def monthFull : List String := ["January", "February", "March", "April", "May", "June", "July", "August", "September", "October", "November", "December"]

/-- `(i < 0 || i >= n) ? "?" : table[i]` -/
def name (table : List String) (i : Int) : Str :=
  if i < 0 ∨ i ≥ table.length then lit "?" else lit (table.getD i.toNat "")

/-- `year` and `week` before they are printed for `g`, `G`, `V`, strftime.c:145-187 -/
def week (t : Tm) : Option (Int × Int) :=
  (i32 (t.year + 1900)).bind fun year =>
  (i32 (6 + t.wday)).bind fun w =>
  (i32 (w - t.yday.tmod 7)).bind fun w =>
  let wj := w.tmod 7
  (i32 (t.yday + wj)).bind fun d =>
  let week := d.tdiv 7 - (if wj ≥ 4 then 1 else 0)
  if week < 0 then
    (i32 (year - 1)).map fun year => (year, week + if wj = 4 ∨ (wj = 5 ∧ isleap (u32 year) ≠ 0) then 53 else 52)
  else if week = 52 then
    let first := (7 - wj).tmod 7
    if first = 4 ∨ (first = 5 ∧ isleap (u32 year) ≠ 0) then some (year, week)
    else (i32 (year + 1)).map fun year => (year, 0)
  else some (year, week)

/-- `doformat`, strftime.c:63-298.  Its result is always 1 and left out.  It calls itself with other letters, at most twice; `fuel` bounds the depth. -/
def doformat : Nat → UInt8 → Tm → Buf → Option Buf
  | 0, _, _, _ => none
  | f + 1, c, t, b =>
    let go (c : Char) (b : Buf) : Option Buf := doformat f (UInt8.ofNat c.toNat) t b
    if c = 0x61 then some (puts (name dayAbbr t.wday) b) -- a
    else if c = 0x41 then some (puts (name dayFull t.wday) b) -- A
    else if c = 0x68 ∨ c = 0x62 then some (puts (name monthAbbr t.mon) b) -- h b
    else if c = 0x42 then some (puts (name monthFull t.mon) b) -- B
    else if c = 0x63 then -- c
      (go 'a' b).bind fun b => (go 'b' (putc 0x20 b)).bind fun b => (go 'e' (putc 0x20 b)).bind fun b =>
        (go 'T' (putc 0x20 b)).bind fun b => go 'Y' (putc 0x20 b)
    else if c = 0x43 then (i32 (t.year + 1900)).bind fun y => putn (y.tdiv 100) 2 0x30 b -- C
    else if c = 0x64 then putn t.mday 2 0x30 b -- d
    else if c = 0x78 ∨ c = 0x44 then -- x D
      (go 'm' b).bind fun b => (go 'd' (putc 0x2F b)).bind fun b => go 'y' (putc 0x2F b)
    else if c = 0x65 then putn t.mday 2 0x20 b -- e
    else if c = 0x46 then -- F
      (go 'Y' b).bind fun b => (go 'm' (putc 0x2D b)).bind fun b => go 'd' (putc 0x2D b)
    else if c = 0x67 then (week t).bind fun q => putn (q.1.tmod 100) 2 0x30 b -- g
    else if c = 0x47 then (week t).bind fun q => putn q.1 0 0x30 b -- G
    else if c = 0x56 then (week t).bind fun q => putn (q.2 + 1) 2 0x30 b -- V
    else if c = 0x48 then putn t.hour 2 0x30 b -- H
    else if c = 0x49 then putn (if t.hour.tmod 12 ≠ 0 then t.hour.tmod 12 else 12) 2 0x30 b -- I
    else if c = 0x6A then (i32 (t.yday + 1)).bind fun d => putn d 3 0x30 b -- j
    else if c = 0x6D then (i32 (t.mon + 1)).bind fun m => putn m 2 0x30 b -- m
    else if c = 0x4D then putn t.min 2 0x30 b -- M
    else if c = 0x6E then some (putc 0x0A b) -- n
    else if c = 0x70 then some (puts (if t.hour ≥ 12 then lit "PM" else lit "AM") b) -- p
    else if c = 0x72 then -- r
      (go 'I' b).bind fun b => (go 'M' (putc 0x3A b)).bind fun b => (go 'S' (putc 0x3A b)).bind fun b => go 'p' (putc 0x20 b)
    else if c = 0x52 then (go 'H' b).bind fun b => go 'M' (putc 0x3A b) -- R
    else if c = 0x53 then putn t.sec 2 0x30 b -- S
    else if c = 0x74 then some (putc 9 b) -- t
    else if c = 0x58 ∨ c = 0x54 then -- X T
      (go 'H' b).bind fun b => (go 'M' (putc 0x3A b)).bind fun b => go 'S' (putc 0x3A b)
    else if c = 0x75 then putn (if t.wday ≠ 0 then t.wday else 7) 1 0x30 b -- u
    else if c = 0x55 then -- U
      (i32 (t.yday + 7)).bind fun d => (i32 (d - t.wday)).bind fun d => putn (d.tdiv 7) 2 0x30 b
    else if c = 0x77 then putn t.wday 1 0x30 b -- w
    else if c = 0x57 then -- W
      (i32 (t.yday + 7)).bind fun d => (i32 (d - if t.wday ≠ 0 then t.wday - 1 else 6)).bind fun d => putn (d.tdiv 7) 2 0x30 b
    else if c = 0x79 then (i32 (t.year + 1900)).bind fun y => putn (y.tmod 100) 2 0x30 b -- y
    else if c = 0x59 then (i32 (t.year + 1900)).bind fun y => putn y 0 0x30 b -- Y
    else if c = 0x7A then some b -- z
    else if c = 0x5A then some b -- Z
    else some (putc c b)

/-- `helper`, strftime.c:300-326: the result and the buffer -/
def helper (t : Tm) : Str → Buf → Option (Bool × Buf)
  | [], b => some (true, putc 0 b)
  | c :: r, b =>
    if c ≠ 0x25 then helper t r (putc c b)
    else match r with
      | [] => some (false, b)
      | c' :: r' =>
        if c' = 0x25 then helper t r' (putc c b)
        else if c' = 0x45 ∨ c' = 0x4F then
          match r' with
          | [] => some (false, b)
          | c'' :: r'' => (doformat 3 c'' t b).bind fun b => helper t r'' b
        else (doformat 3 c' t b).bind fun b => helper t r' b

/-- `strftime`, strftime.c:328-340: the result, and the bytes that were stored.  The buffer has room for `maxsize` bytes. -/
def strftime (maxsize : Nat) (fmt : Str) (t : Tm) : Option (Nat × Str) :=
  (helper t fmt ⟨maxsize, 0, []⟩).bind fun q =>
    if q.2.out.length > maxsize then none
    else some (if q.1 = false then 0 else if q.2.size ≤ q.2.maxsize then sub32 q.2.size 1 else 0, q.2.out)

/-- `asctime`, asctime.c:8-31, with `sprintf` (sprintf.c:7-17): the bytes stored in `res`.  The strings in the tables have no NUL: a string goes on with those behind it.  `none` if there is no such string, or if `res`, of 26 bytes, is too short. -/
def asctime (t : Tm) : Option Str :=
  if t.wday < 0 ∨ t.wday > 6 ∨ t.mon < 0 ∨ t.mon > 11 then none else
  (i32 (1900 + t.year)).bind fun y =>
  (Printf.printf ⟨some (2 ^ 31 - 2), true⟩ (lit "%.3s %.3s%3d %.2d:%.2d:%.2d %d\n")
    [.str (some ((lit "SunMonTueWedThuFriSat").drop (3 * t.wday.toNat))), .str (some ((lit "JanFebMarAprMayJunJulAugSepOctNovDec").drop (3 * t.mon.toNat))),
     .int (BitVec.ofInt 32 t.mday), .int (BitVec.ofInt 32 t.hour), .int (BitVec.ofInt 32 t.min), .int (BitVec.ofInt 32 t.sec), .int (BitVec.ofInt 32 y)]).bind fun r =>
  if r.1.length + 1 > 26 then none else some (r.1 ++ [0])

/-- `ctime`, ctime.c:8-11, where local time is UTC (localtim.c:17-21): a null pointer is dereferenced in `asctime` -/
def ctime (t : Nat) : Option Str :=
  (Time.gmtime t).bind fun r => r.bind asctime

end Smlr.Ftime
