set_option autoImplicit false
/-
Model of the memory and string functions of the C library (the C versions used
by the 32-bit library; the hand-written 16-bit assembly variants in the same
files are not modelled).

Memory is a total map from addresses to bytes.  Addresses are natural numbers:
the model leaves out the wrap-around of pointers, which cannot occur for regions
that lie inside the address space.  Loops that are not bounded by a count take a
step bound `fuel`; the outcome `none` means the bound was exhausted (the theorems
show that never happens for NUL-terminated operands).
-/
namespace Smlr.Mem

abbrev Mem := Nat → UInt8

/-- store of one byte -/
def upd (m : Mem) (a : Nat) (b : UInt8) : Mem := fun x => if x = a then b else m x

/-- conversion of an `int` argument to `char` (`(char)c`), as a byte -/
def toChar (c : Int) : UInt8 := UInt8.ofNat (c % 256).toNat

/-- `while (n--) *p1++ = *p2++;` v0100/srclib/memcpy.c:20-21, memmove.c:41-42 -/
def copyFwd : Nat → Nat → Nat → Mem → Mem
  | 0, _, _, m => m
  | n+1, p1, p2, m => copyFwd n (p1+1) (p2+1) (upd m p1 (m p2))

/-- `while (n--) *--d = *--s;` v0100/srclib/memmove.c:36-37 (`d`, `s` point past the end) -/
def copyBwd : Nat → Nat → Nat → Mem → Mem
  | 0, _, _, m => m
  | n+1, d, s, m => copyBwd n (d-1) (s-1) (upd m (d-1) (m (s-1)))

/-- v0100/srclib/memcpy.c:17-23; returns memory and the result pointer -/
def memcpy (m : Mem) (dst src n : Nat) : Mem × Nat := (copyFwd n dst src m, dst)

/-- v0100/srclib/memmove.c:29-45 -/
def memmove (m : Mem) (dst src n : Nat) : Mem × Nat :=
  if src < dst then (copyBwd n (dst + n) (src + n) m, dst)
  else (copyFwd n dst src m, dst)

/-- `while (n--) *p++ = c;` v0100/srclib/memset.c:20-21 -/
def fill : Nat → Nat → UInt8 → Mem → Mem
  | 0, _, _, m => m
  | n+1, p, c, m => fill n (p+1) c (upd m p c)

/-- v0100/srclib/memset.c:18-23 -/
def memset (m : Mem) (s : Nat) (c : Int) (n : Nat) : Mem × Nat := (fill n s (toChar c) m, s)

/-- v0100/srclib/memcmp.c:5-17 (the `if (n) do … while (--n)` loop) -/
def memcmp (m : Mem) : Nat → Nat → Nat → Int
  | _, _, 0 => 0
  | p1, p2, n+1 =>
    if m p1 ≠ m p2 then ((m p1).toNat : Int) - (m p2).toNat
    else memcmp m (p1+1) (p2+1) n

/-- loop of v0100/srclib/memchr.c:9-16; `none` is the null pointer -/
def memchrLoop (m : Mem) (c : UInt8) : Nat → Nat → Option Nat
  | _, 0 => none
  | s, n+1 => if m s = c then some s else memchrLoop m c (s+1) n

/-- v0100/srclib/memchr.c:5-17 -/
def memchr (m : Mem) (s : Nat) (c : Int) (n : Nat) : Option Nat := memchrLoop m (toChar c) s n

/-- `while (*s) s++;` v0100/srclib/strlen.c:19-20, strcat.c:8, strncat.c:10-11:
the address of the terminating NUL -/
def strEnd (m : Mem) : Nat → Nat → Option Nat
  | 0, _ => none
  | fuel+1, s => if m s ≠ 0 then strEnd m fuel (s+1) else some s

/-- v0100/srclib/strlen.c:17-22 -/
def strlen (m : Mem) (fuel : Nat) (str : Nat) : Option Nat :=
  match strEnd m fuel str with
  | none => none
  | some s => some (s - str)

/-- v0100/srclib/strcmp.c:22-30 -/
def strcmp (m : Mem) : Nat → Nat → Nat → Option Int
  | 0, _, _ => none
  | fuel+1, s1, s2 =>
    if m s1 = m s2 then
      if m s1 = 0 then some 0 else strcmp m fuel (s1+1) (s2+1)
    else some (((m s1).toNat : Int) - (m s2).toNat)

/-- v0100/srclib/strncmp.c:25-36 (bounded by `n`, so no fuel) -/
def strncmp (m : Mem) : Nat → Nat → Nat → Int
  | _, _, 0 => 0
  | s1, s2, n+1 =>
    if m s1 ≠ m s2 then ((m s1).toNat : Int) - (m s2).toNat
    else if m s1 = 0 then 0
    else strncmp m (s1+1) (s2+1) n

/-- loop of v0100/srclib/strchr.c:25-35 -/
def strchrLoop (m : Mem) (c : UInt8) : Nat → Nat → Option (Option Nat)
  | 0, _ => none
  | fuel+1, s =>
    if m s ≠ 0 then
      if m s = c then some (some s) else strchrLoop m c fuel (s+1)
    else if c = 0 then some (some s) else some none

/-- v0100/srclib/strchr.c:23-35; inner `none` is the null pointer -/
def strchr (m : Mem) (fuel s : Nat) (c : Int) : Option (Option Nat) := strchrLoop m (toChar c) fuel s

/-- loop of v0100/srclib/strrchr.c:9-17 -/
def strrchrLoop (m : Mem) (c : UInt8) : Nat → Nat → Option Nat → Option (Option Nat)
  | 0, _, _ => none
  | fuel+1, s, res =>
    if m s ≠ 0 then strrchrLoop m c fuel (s+1) (if m s = c then some s else res)
    else some (if c = 0 then some s else res)

/-- v0100/srclib/strrchr.c:5-18 -/
def strrchr (m : Mem) (fuel s : Nat) (c : Int) : Option (Option Nat) :=
  strrchrLoop m (toChar c) fuel s none

/-- inner loop of v0100/srclib/strstr.c:12-23 for one start position: the outcome
`some true` is `return s`, `some false` is `return 0`, `none` inside means "advance s" -/
def strstrAt (m : Mem) : Nat → Nat → Nat → Option (Option Bool)
  | 0, _, _ => none
  | fuel+1, p1, p2 =>
    if m p1 = m p2 then
      if m p2 = 0 then some (some true) else strstrAt m fuel (p1+1) (p2+1)
    else if m p2 = 0 then some (some true)
    else if m p1 = 0 then some (some false)
    else some none

/-- outer loop of v0100/srclib/strstr.c:10-24 -/
def strstrLoop (m : Mem) (sub ifuel : Nat) : Nat → Nat → Option (Option Nat)
  | 0, _ => none
  | fuel+1, s =>
    match strstrAt m ifuel s sub with
    | none => none
    | some (some true) => some (some s)
    | some (some false) => some none
    | some none => strstrLoop m sub ifuel fuel (s+1)

/-- v0100/srclib/strstr.c:5-25 -/
def strstr (m : Mem) (fuel s sub : Nat) : Option (Option Nat) :=
  if m sub = 0 then some (some s) else strstrLoop m sub fuel fuel s

/-- `p = set; while ((c2 = *p++) != '\0') if (c2 == c) …`: is `c` among the characters
of the set string?  v0100/srclib/strspn.c:12-15, strpbrk.c:10-13, strtok.c:18-21,32-34 -/
def inSet (m : Mem) (c : UInt8) : Nat → Nat → Option Bool
  | 0, _ => none
  | fuel+1, p =>
    if m p = 0 then some false
    else if m p = c then some true
    else inSet m c fuel (p+1)

/-- loop of v0100/srclib/strspn.c:10-17; returns the address `s1 - 1` -/
def strspnLoop (m : Mem) (set ifuel : Nat) : Nat → Nat → Option Nat
  | 0, _ => none
  | fuel+1, s =>
    match inSet m (m s) ifuel set with
    | none => none
    | some true => strspnLoop m set ifuel fuel (s+1)
    | some false => some s

/-- v0100/srclib/strspn.c:5-18 -/
def strspn (m : Mem) (fuel s1 s2 : Nat) : Option Nat :=
  match strspnLoop m s2 fuel fuel s1 with
  | none => none
  | some s => some (s - s1)

/-- `do { if ((c2 = *p++) == c) … } while (c2);` v0100/srclib/strcspn.c:13-18 -/
def inSetZ (m : Mem) (c : UInt8) : Nat → Nat → Option Bool
  | 0, _ => none
  | fuel+1, p =>
    if m p = c then some true
    else if m p = 0 then some false
    else inSetZ m c fuel (p+1)

/-- loop of v0100/srclib/strcspn.c:10-19 -/
def strcspnLoop (m : Mem) (set ifuel : Nat) : Nat → Nat → Option Nat
  | 0, _ => none
  | fuel+1, s =>
    match inSetZ m (m s) ifuel set with
    | none => none
    | some true => some s
    | some false => strcspnLoop m set ifuel fuel (s+1)

/-- v0100/srclib/strcspn.c:5-20 -/
def strcspn (m : Mem) (fuel s1 s2 : Nat) : Option Nat :=
  match strcspnLoop m s2 fuel fuel s1 with
  | none => none
  | some s => some (s - s1)

/-- v0100/srclib/strpbrk.c:5-16 -/
def strpbrk (m : Mem) (set ifuel : Nat) : Nat → Nat → Option (Option Nat)
  | 0, _ => none
  | fuel+1, s =>
    if m s = 0 then some none
    else match inSet m (m s) ifuel set with
      | none => none
      | some true => some (some s)
      | some false => strpbrk m set ifuel fuel (s+1)

/-- `while ((*p++ = *src++) != 0);` v0100/srclib/strcpy.c:20, strcat.c:9 -/
def strcpyLoop : Nat → Nat → Nat → Mem → Option Mem
  | 0, _, _, _ => none
  | fuel+1, p, src, m =>
    let m' := upd m p (m src)
    if m' p ≠ 0 then strcpyLoop fuel (p+1) (src+1) m' else some m'

/-- v0100/srclib/strcpy.c:18-23 -/
def strcpy (m : Mem) (fuel dst src : Nat) : Option (Mem × Nat) :=
  match strcpyLoop fuel dst src m with
  | none => none
  | some m' => some (m', dst)

/-- first loop of v0100/srclib/strncpy.c:9-14 followed by the zero fill of 15-16 -/
def strncpyLoop : Nat → Nat → Nat → Mem → Mem
  | 0, _, _, m => m
  | n+1, s1, s2, m =>
    let m' := upd m s1 (m s2)
    if m' s1 = 0 then fill n (s1+1) 0 m' else strncpyLoop n (s1+1) (s2+1) m'

/-- v0100/srclib/strncpy.c:5-19 -/
def strncpy (m : Mem) (s1 s2 n : Nat) : Mem × Nat := (strncpyLoop n s1 s2 m, s1)

/-- v0100/srclib/strcat.c:5-11 -/
def strcat (m : Mem) (fuel s1 s2 : Nat) : Option (Mem × Nat) :=
  match strEnd m fuel s1 with
  | none => none
  | some e => match strcpyLoop fuel e s2 m with
    | none => none
    | some m' => some (m', s1)

/-- loop of v0100/srclib/strncat.c:13-20 -/
def strncatLoop : Nat → Nat → Nat → Mem → Mem
  | 0, s1, _, m => upd m s1 0
  | n+1, s1, s2, m =>
    if m s2 = 0 then upd m s1 0
    else strncatLoop n (s1+1) (s2+1) (upd m s1 (m s2))

/-- v0100/srclib/strncat.c:5-23 -/
def strncat (m : Mem) (fuel s1 s2 n : Nat) : Option (Mem × Nat) :=
  match strEnd m fuel s1 with
  | none => none
  | some e => some (strncatLoop n e s2 m, s1)

/-- delimiter-skipping loop of v0100/srclib/strtok.c:16-21: the address of the first
character that is not a delimiter (possibly the NUL) -/
def skipDelims (m : Mem) (delims ifuel : Nat) : Nat → Nat → Option Nat
  | 0, _ => none
  | fuel+1, s =>
    match inSet m (m s) ifuel delims with
    | none => none
    | some true => skipDelims m delims ifuel fuel (s+1)
    | some false => some s

/-- field loop of v0100/srclib/strtok.c:30-43: new memory and new `__strtoklast` -/
def strtokField (delims ifuel : Nat) : Nat → Nat → Mem → Option (Mem × Option Nat)
  | 0, _, _ => none
  | fuel+1, s, m =>
    if m s = 0 then some (m, none)
    else match inSet m (m s) ifuel delims with
      | none => none
      | some true => some (upd m s 0, some (s+1))
      | some false => strtokField delims ifuel fuel (s+1) m

/-- result of a `strtok` call: memory, `__strtoklast`, returned pointer -/
structure TokRes where
  mem : Mem
  last : Option Nat
  ret : Option Nat

/-- v0100/srclib/strtok.c:7-44; `s` and `last` are `none` when null -/
def strtok (m : Mem) (fuel : Nat) (last : Option Nat) (s : Option Nat) (delims : Nat) : Option TokRes :=
  match (match s with | some p => some p | none => last) with
  | none => some ⟨m, last, none⟩
  | some s =>
    match skipDelims m delims fuel fuel s with
    | none => none
    | some r =>
      if m r = 0 then some ⟨m, none, none⟩
      else match strtokField delims fuel fuel (r+1) m with
        | none => none
        | some (m', l) => some ⟨m', l, some r⟩

end Smlr.Mem
