import Verif.Time.Spec
import Verif.Printf.Spec
import Verif.Ftime.Model
set_option autoImplicit false
/-! What C99 7.23.3.5 says about `strftime` in the "C" locale, for broken-down times whose members are in their normal ranges (7.23.1). -/
namespace Smlr.Ftime.Spec
open Smlr.Time (Tm)
open Smlr.Time.Spec (leap yearLen)
open Smlr.Printf (Str)
open Smlr.Printf.Spec (chr digits lower)

def txt (s : String) : Str := s.toList.map chr

/-- the members are in their normal ranges; years from 1 on that an `int` holds, with the years before and after them -/
structure Normal (t : Tm) : Prop where
  sec : 0 ≤ t.sec ∧ t.sec ≤ 60
  min : 0 ≤ t.min ∧ t.min ≤ 59
  hour : 0 ≤ t.hour ∧ t.hour ≤ 23
  mday : 1 ≤ t.mday ∧ t.mday ≤ 31
  mon : 0 ≤ t.mon ∧ t.mon ≤ 11
  year : 1 ≤ t.year + 1900 ∧ t.year + 1900 < 2 ^ 31 - 1
  wday : 0 ≤ t.wday ∧ t.wday ≤ 6
  yday : 0 ≤ t.yday ∧ t.yday ≤ 365

/-- as a decimal number of at least so many digits -/
def dec (k n : Nat) : Str := digits lower 10 (max 1 k) n

/-- the year, counted from the birth of Christ -/
def year (t : Tm) : Nat := (t.year + 1900).toNat

/-- the day of the week with Monday as 0 -/
def isoDay (t : Tm) : Nat := (t.wday.toNat + 6) % 7

/-- A week belongs to the year that its Thursday belongs to: the year and the day of the year of the Thursday in the same week (from Monday to Sunday). -/
def thursday (t : Tm) : Nat × Nat :=
  let d : Int := t.yday - isoDay t + 3
  if d < 0 then (year t - 1, (d + yearLen (year t - 1)).toNat)
  else if d < yearLen (year t) then (year t, d.toNat)
  else (year t + 1, (d - yearLen (year t)).toNat)

/-- the year that the week belongs to, and the number of the week -/
def isoYear (t : Tm) : Nat := (thursday t).1
def isoWeek (t : Tm) : Nat := (thursday t).2 / 7 + 1

/-- the week of the year if weeks begin with a certain day: how many such days there are from 1 January to this day.  `k`: how many days ago the last one was -/
def weekFrom (t : Tm) (k : Nat) : Nat := ((List.range (t.yday.toNat + 1)).filter fun ago => ago % 7 = k).length

def days : List String := ["Sunday", "Monday", "Tuesday", "Wednesday", "Thursday", "Friday", "Saturday"]
def months : List String := ["January", "February", "March", "April", "May", "June", "July", "August", "September", "October", "November", "December"]

def dayName (t : Tm) : Str := txt (days.getD t.wday.toNat "")
def monthName (t : Tm) : Str := txt (months.getD t.mon.toNat "")

/-- the hour of a 12-hour clock -/
def hour12 (t : Tm) : Nat := (t.hour.toNat + 11) % 12 + 1

def dd (t : Tm) : Str := dec 2 t.mday.toNat
def mm (t : Tm) : Str := dec 2 (t.mon.toNat + 1)
def yyyy (t : Tm) : Str := dec 1 (year t)
def yy (t : Tm) : Str := dec 2 (year t % 100)
def hh (t : Tm) : Str := dec 2 t.hour.toNat
def mi (t : Tm) : Str := dec 2 t.min.toNat
def ss (t : Tm) : Str := dec 2 t.sec.toNat
/-- a single digit is preceded by a space -/
def ee (t : Tm) : Str := if t.mday.toNat < 10 then chr ' ' :: dec 1 t.mday.toNat else dec 1 t.mday.toNat
def ampm (t : Tm) : Str := txt (if t.hour < 12 then "AM" else "PM")

/-- what a conversion specifier is replaced by; those about the ISO week need a day of the year that there is in that year; no time zone is determinable -/
inductive Conv (t : Tm) : Char → Str → Prop
  | a : Conv t 'a' ((dayName t).take 3)
  | A : Conv t 'A' (dayName t)
  | b : Conv t 'b' ((monthName t).take 3)
  | h : Conv t 'h' ((monthName t).take 3)
  | B : Conv t 'B' (monthName t)
  | c : Conv t 'c' ((dayName t).take 3 ++ txt " " ++ (monthName t).take 3 ++ txt " " ++ ee t ++ txt " " ++ hh t ++ txt ":" ++ mi t ++ txt ":" ++ ss t ++ txt " " ++ yyyy t)
  | C : Conv t 'C' (dec 2 (year t / 100))
  | d : Conv t 'd' (dd t)
  | D : Conv t 'D' (mm t ++ txt "/" ++ dd t ++ txt "/" ++ yy t)
  | x : Conv t 'x' (mm t ++ txt "/" ++ dd t ++ txt "/" ++ yy t)
  | e : Conv t 'e' (ee t)
  | F : Conv t 'F' (yyyy t ++ txt "-" ++ mm t ++ txt "-" ++ dd t)
  | g : t.yday < yearLen (year t) → Conv t 'g' (dec 2 (isoYear t % 100))
  | G : t.yday < yearLen (year t) → Conv t 'G' (dec 1 (isoYear t))
  | V : t.yday < yearLen (year t) → Conv t 'V' (dec 2 (isoWeek t))
  | H : Conv t 'H' (hh t)
  | I : Conv t 'I' (dec 2 (hour12 t))
  | j : Conv t 'j' (dec 3 (t.yday.toNat + 1))
  | m : Conv t 'm' (mm t)
  | M : Conv t 'M' (mi t)
  | n : Conv t 'n' (txt "\n")
  | p : Conv t 'p' (ampm t)
  | r : Conv t 'r' (dec 2 (hour12 t) ++ txt ":" ++ mi t ++ txt ":" ++ ss t ++ txt " " ++ ampm t)
  | R : Conv t 'R' (hh t ++ txt ":" ++ mi t)
  | S : Conv t 'S' (ss t)
  | t : Conv t 't' (txt "\t")
  | T : Conv t 'T' (hh t ++ txt ":" ++ mi t ++ txt ":" ++ ss t)
  | X : Conv t 'X' (hh t ++ txt ":" ++ mi t ++ txt ":" ++ ss t)
  | u : Conv t 'u' (dec 1 (isoDay t + 1))
  | U : Conv t 'U' (dec 2 (weekFrom t t.wday.toNat))
  | w : Conv t 'w' (dec 1 t.wday.toNat)
  | W : Conv t 'W' (dec 2 (weekFrom t (isoDay t)))
  | y : Conv t 'y' (yy t)
  | Y : Conv t 'Y' (yyyy t)
  | z : Conv t 'z' []
  | Z : Conv t 'Z' []
  | pct : Conv t '%' (txt "%")

/-- the conversion specifiers that `E` and `O` may modify -/
def alts : List (Char × List Char) := [('E', ['c', 'C', 'x', 'X', 'y', 'Y']), ('O', ['d', 'e', 'H', 'I', 'm', 'M', 'S', 'u', 'U', 'V', 'w', 'W', 'y'])]

/-- a format and what it is replaced by -/
inductive Fmt (t : Tm) : Str → Str → Prop
  | nil : Fmt t [] []
  | char {c : UInt8} {r o : Str} : c ≠ chr '%' → Fmt t r o → Fmt t (c :: r) (c :: o)
  | conv {c : Char} {s r o : Str} : Conv t c s → Fmt t r o → Fmt t (chr '%' :: chr c :: r) (s ++ o)
  | alt {m c : Char} {cs : List Char} {s r o : Str} : (m, cs) ∈ alts → c ∈ cs → Conv t c s → Fmt t r o → Fmt t (chr '%' :: chr m :: chr c :: r) (s ++ o)

end Smlr.Ftime.Spec
