set_option autoImplicit false
/-
32-bit helpers over two 16-bit halves: v0100/srclib/lng*.c.
`unsigned short acc[2]` is a pair of `UInt16`; element 0 is the low half.
Arithmetic on `unsigned short` operands is done in `unsigned` (16-bit code) or `int`
(32-bit code); both agree after the assignment truncates to 16 bits, and the comparison
`*addend > (unsigned short)-1 - *acc` has no negative operand in either, so one model serves.
-/
namespace Smlr.Lng

/-- `unsigned short l[2]` -/
structure Lng where
  lo : UInt16
  hi : UInt16
deriving DecidableEq, Repr

/-- v0100/srclib/lngadd.c:5-9 -/
def lngAdd (acc addend : Lng) : Lng :=
  let carry : Nat := if addend.lo.toNat > 65535 - acc.lo.toNat then 1 else 0
  { hi := UInt16.ofNat (acc.hi.toNat + (addend.hi.toNat + carry)),
    lo := UInt16.ofNat (acc.lo.toNat + addend.lo.toNat) }

/-- v0100/srclib/lngsub.c:5-9; subtraction wraps modulo 2^16 on assignment -/
def lngSub (acc s : Lng) : Lng :=
  let borrow : Int := if acc.lo.toNat < s.lo.toNat then 1 else 0
  { hi := UInt16.ofNat (((acc.hi.toNat : Int) - (s.hi.toNat + borrow)) % 65536).toNat,
    lo := UInt16.ofNat (((acc.lo.toNat : Int) - s.lo.toNat) % 65536).toNat }

/-- v0100/srclib/lngeq.c:5-8 -/
def lngEq (a b : Lng) : Bool := a.lo == b.lo && a.hi == b.hi

/-- v0100/srclib/lngltz.c:5-8 -/
def lngLessThan0 (l : Lng) : Bool := decide (l.hi.toNat > 65535 / 2)

/-- v0100/srclib/lngul.c:5-9 -/
def lngUnsignedLess (a b : Lng) : Bool :=
  decide (a.hi.toNat < b.hi.toNat) || (a.hi == b.hi && decide (a.lo.toNat < b.lo.toNat))

/-- v0100/srclib/lngsl.c:5-19 -/
def lngSignedLess (a b : Lng) : Bool :=
  let rest := decide (a.hi.toNat < b.hi.toNat) || (a.hi == b.hi && decide (a.lo.toNat < b.lo.toNat))
  if a.hi.toNat > 65535 / 2 then
    if b.hi.toNat ≤ 65535 / 2 then true else rest
  else
    if b.hi.toNat > 65535 / 2 then false else rest

/-- v0100/srclib/lngfs.c:6-10 (16-bit build): `int` has 16 bits -/
def lngFromSigned16 (n : Int16) : Lng :=
  { lo := n.toUInt16, hi := if n.toInt < 0 then 65535 else 0 }

/-- v0100/srclib/lngfs.c:14-24 (32-bit build, little-endian union) -/
def lngFromSigned32 (n : Int32) : Lng :=
  { lo := UInt16.ofNat (n.toUInt32.toNat % 65536), hi := UInt16.ofNat (n.toUInt32.toNat / 65536) }

/-- v0100/srclib/lngfu.c:6-10 (16-bit build) -/
def lngFromUnsigned16 (n : UInt16) : Lng := { lo := n, hi := 0 }

/-- v0100/srclib/lngfu.c:14-24 (32-bit build) -/
def lngFromUnsigned32 (n : UInt32) : Lng :=
  { lo := UInt16.ofNat (n.toNat % 65536), hi := UInt16.ofNat (n.toNat / 65536) }

/-- v0100/srclib/lngts.c:6-9 (16-bit build): `(short)l[0]` -/
def lngToSigned16 (l : Lng) : Int16 := l.lo.toInt16

/-- v0100/srclib/lngts.c:13-23 (32-bit build) -/
def lngToSigned32 (l : Lng) : Int32 := (UInt32.ofNat (l.lo.toNat + 65536 * l.hi.toNat)).toInt32

/-- v0100/srclib/lngtu.c:6-9 (16-bit build) -/
def lngToUnsigned16 (l : Lng) : UInt16 := l.lo

/-- v0100/srclib/lngtu.c:13-23 (32-bit build) -/
def lngToUnsigned32 (l : Lng) : UInt32 := UInt32.ofNat (l.lo.toNat + 65536 * l.hi.toNat)

end Smlr.Lng
