set_option autoImplicit false
/-
Calendar conversion, srclib/brktime.c, bldtime.c, time1.c, gmtime.c, mktime.c.
`time_t` is a 32-bit unsigned number (include/time.h), here a `Nat` below 2^32.
-/
namespace Smlr.Time

/-- `struct tm`, include/time.h:59-70 -/
structure Tm where
  sec : Int
  min : Int
  hour : Int
  mday : Int
  mon : Int
  year : Int
  wday : Int
  yday : Int
  isdst : Int
  deriving DecidableEq, Repr

/-- `a - b` on 32-bit unsigned numbers -/
def sub32 (a b : Nat) : Nat := (a + 2 ^ 32 - b % 2 ^ 32) % 2 ^ 32

/-- `DaysSinceEpoch`, brktime.c:8-29 -/
def daysSinceEpoch : List Nat := [
  0, 365, 730, 1096, 1461, 1826, 2191, 2557, 2922, 3287, 3652, 4018,
  4383, 4748, 5113, 5479, 5844, 6209, 6574, 6940, 7305, 7670, 8035, 8401,
  8766, 9131, 9496, 9862, 10227, 10592, 10957, 11323, 11688, 12053, 12418, 12784,
  13149, 13514, 13879, 14245, 14610, 14975, 15340, 15706, 16071, 16436, 16801, 17167,
  17532, 17897, 18262, 18628, 18993, 19358, 19723, 20089, 20454, 20819, 21184, 21550,
  21915, 22280, 22645, 23011, 23376, 23741, 24106, 24472, 24837, 25202, 25567, 25933,
  26298, 26663, 27028, 27394, 27759, 28124, 28489, 28855, 29220, 29585, 29950, 30316,
  30681, 31046, 31411, 31777, 32142, 32507, 32872, 33238, 33603, 33968, 34333, 34699,
  35064, 35429, 35794, 36160, 36525, 36890, 37255, 37621, 37986, 38351, 38716, 39082,
  39447, 39812, 40177, 40543, 40908, 41273, 41638, 42004, 42369, 42734, 43099, 43465,
  43830, 44195, 44560, 44926, 45291, 45656, 46021, 46387, 46752, 47117, 47482, 47847,
  48212, 48577, 48942, 49308, 49673]

/-- `__DaysSinceJan1st`, time1.c:5-9 -/
def daysSinceJan1st (leap : Nat) : List Nat :=
  if leap = 0 then [0, 31, 59, 90, 120, 151, 181, 212, 243, 273, 304, 334, 365]
  else [0, 31, 60, 91, 121, 152, 182, 213, 244, 274, 305, 335, 366]

/-- `__isleap`, time1.c:11-23: the subtractions wrap -/
def isleap (year : Nat) : Nat :=
  if year % 4 ≠ 0 then 0 else
  let y := year % 400
  let y := sub32 y 100
  if y = 0 then 0 else
  let y := sub32 y 100
  if y = 0 then 0 else
  let y := sub32 y 100
  if y = 0 then 0 else 1

/-- the two binary searches, brktime.c:68-77 and 85-94.  The C loop is unbounded: `none` if `fuel` is exhausted
or the table is read outside its bounds. -/
def search (tab : List Nat) (d : Nat) : Nat → Nat → Nat → Option Nat
  | 0, _, _ => none
  | fuel+1, lidx, ridx =>
    let idx := (lidx + ridx) / 2
    match tab[idx]?, tab[idx + 1]? with
    | some a, some b =>
      if d < a then search tab d fuel lidx idx
      else if d ≥ b then search tab d fuel idx ridx
      else some idx
    | _, _ => none

/-- `__breaktime`, brktime.c:42-103.  Outer `none`: the modelled code has no defined result; inner `none`: NULL. -/
def breaktime (t : Nat) : Option (Option Tm) :=
  let trem := t
  if trem = 2 ^ 32 - 1 then some none else
  let daysPassed := trem / 86400
  let trem := sub32 trem (daysPassed * 86400)
  let wday := (daysPassed + 4) % 7
  let hour := trem / 3600
  let trem := sub32 trem (hour * 3600)
  let min := trem / 60
  let trem := sub32 trem (min * 60)
  let sec := trem
  match daysSinceEpoch[136]? with
  | none => none
  | some last =>
  if daysPassed ≥ last then some none else
  match search daysSinceEpoch daysPassed 137 0 136 with
  | none => none
  | some idx =>
  let year := 70 + idx
  let leap := isleap (1970 + idx)
  match daysSinceEpoch[idx]? with
  | none => none
  | some base =>
  let daysPassed := sub32 daysPassed base
  let yday := daysPassed
  match search (daysSinceJan1st leap) daysPassed 13 0 12 with
  | none => none
  | some idx =>
  match (daysSinceJan1st leap)[idx]? with
  | none => none
  | some base =>
  let daysPassed := sub32 daysPassed base
  some (some ⟨sec, min, hour, 1 + daysPassed, idx, year, wday, yday, 0⟩)

/-- `gmtime`, gmtime.c:10-13 -/
def gmtime (t : Nat) : Option (Option Tm) := breaktime t

/-- conversion to `time_t` -/
def u32 (x : Int) : Nat := (x % 2 ^ 32).toNat

/-- `__buildtime`, bldtime.c:8-54: the updated structure and the result.  The additions and multiplications are done
in `unsigned long`; as these are ring operations modulo 2^32, one reduction at the end is the same. -/
def buildtime (tm : Tm) : Option (Tm × Nat) :=
  if tm.sec < 0 ∨ tm.sec > 59 ∨ tm.min < 0 ∨ tm.min > 59 ∨ tm.hour < 0 ∨ tm.hour > 23 ∨ tm.mday < 1 ∨ tm.mday > 31 ∨
     tm.mon < 0 ∨ tm.mon > 11 ∨ tm.year < 70 ∨ tm.year > 70 + 135 then some (tm, 2 ^ 32 - 1) else
  let leap := isleap (1900 + tm.year).toNat
  let daysInMonth : Int := if tm.mon = 1 then 28 + leap else 30 + ((0xAD5 / 2 ^ tm.mon.toNat) % 2 : Nat)
  if tm.mday > daysInMonth then some (tm, 2 ^ 32 - 1) else
  match (daysSinceJan1st leap)[tm.mon.toNat]? with
  | none => none
  | some d =>
  let yday : Int := d + tm.mday - 1
  let res := u32 (tm.sec + tm.min * 60 + tm.hour * 3600 + yday * 86400 + (tm.year - 70) * (365 * 86400) +
    (((tm.year - 69) / 4) * 86400 - ((tm.year - 1) / 100) * 86400 + ((tm.year + 299) / 400) * 86400))
  some ({ tm with yday := yday, wday := ((res / 86400 + 4) % 7 : Nat) }, res)

/-- `mktime`: mktime.c:17-21 (DOS), 86-101 (macOS; Linux with the time zone read as `tz` minutes west of Greenwich).
The Windows variant calls the system and is not modelled. -/
def mktime (tz : Int) (tm : Tm) : Option (Tm × Nat) :=
  (buildtime tm).map fun r => (r.1, u32 (r.2 + tz * 60))

end Smlr.Time
