set_option autoImplicit false
/-
Model of the character classification functions of the C library.
Bytes are `UInt8`; `int c` arguments are `-1` (EOF) or an unsigned char value.
-/
namespace Smlr.Ctype

/-- `__chartype__` — v0100/srclib/ctype.c:5-16.  Entry 0 is for EOF; the 128
trailing entries not listed in the initialiser are zero. -/
def chartype : Array Nat :=
  #[0x00,
  0x01,0x01,0x01,0x01,0x01,0x01,0x01,0x01, 0x01,0x03,0x03,0x03,0x03,0x03,0x01,0x01,
  0x01,0x01,0x01,0x01,0x01,0x01,0x01,0x01, 0x01,0x01,0x01,0x01,0x01,0x01,0x01,0x01,
  0x02,0x04,0x04,0x04,0x04,0x04,0x04,0x04, 0x04,0x04,0x04,0x04,0x04,0x04,0x04,0x04,
  0x08,0x08,0x08,0x08,0x08,0x08,0x08,0x08, 0x08,0x08,0x04,0x04,0x04,0x04,0x04,0x04,
  0x04,0x50,0x50,0x50,0x50,0x50,0x50,0x10, 0x10,0x10,0x10,0x10,0x10,0x10,0x10,0x10,
  0x10,0x10,0x10,0x10,0x10,0x10,0x10,0x10, 0x10,0x10,0x10,0x04,0x04,0x04,0x04,0x04,
  0x04,0x60,0x60,0x60,0x60,0x60,0x60,0x20, 0x20,0x20,0x20,0x20,0x20,0x20,0x20,0x20,
  0x20,0x20,0x20,0x20,0x20,0x20,0x20,0x20, 0x20,0x20,0x20,0x04,0x04,0x04,0x04,0x01]

/-- `__chartype__[c + 1]`, v0100/srclib/ctype.c:5 (elements beyond the initialiser are 0). -/
def typeAt (c : Int) : Nat := chartype.getD (c + 1).toNat 0

/-- v0100/srclib/isspace.c:7-10 -/
def isspace (c : Int) : Nat := typeAt c &&& 0x02
/-- v0100/srclib/isdigit.c:7-10 -/
def isdigit (c : Int) : Nat := typeAt c &&& 0x08
/-- v0100/srclib/isalpha.c:7-10 -/
def isalpha (c : Int) : Nat := typeAt c &&& 0x30
/-- v0100/srclib/isalnum.c:6-9 -/
def isalnum (c : Int) : Nat := typeAt c &&& 0x38
/-- v0100/srclib/isblank.c:6-9 (C truth values as 0/1) -/
def isblank (c : Int) : Nat := if c = 32 ∨ c = 9 then 1 else 0
/-- v0100/srclib/iscntrl.c:6-9 -/
def iscntrl (c : Int) : Nat := typeAt c &&& 0x01
/-- v0100/srclib/isgraph.c:6-9 -/
def isgraph (c : Int) : Nat := if c > 32 ∧ c ≤ 126 then 1 else 0
/-- v0100/srclib/islower.c:6-9 -/
def islower (c : Int) : Nat := typeAt c &&& 0x20
/-- v0100/srclib/isprint.c:6-9 -/
def isprint (c : Int) : Nat := if c ≥ 32 ∧ c ≤ 126 then 1 else 0
/-- v0100/srclib/ispunct.c:6-9 -/
def ispunct (c : Int) : Nat := typeAt c &&& 0x04
/-- v0100/srclib/isupper.c:6-9 -/
def isupper (c : Int) : Nat := typeAt c &&& 0x10
/-- v0100/srclib/isxdigit.c:7-10 -/
def isxdigit (c : Int) : Nat := typeAt c &&& 0x48
/-- v0100/srclib/toupper.c:7-10 -/
def toupper (c : Int) : Int := c - (typeAt c &&& 0x20 : Nat)
/-- v0100/srclib/tolower.c:7-10 -/
def tolower (c : Int) : Int := c + (((typeAt c &&& 0x10) <<< 1 : Nat) : Int)

end Smlr.Ctype
