import Verif.Specif.Model
set_option autoImplicit false
/-! C's table of type specifiers (C99 6.7.2, without `long long`, `_Bool` and complex types). -/
namespace Smlr.Specif

inductive CTy
  | void | char | schar | uchar | short | ushort | int | uint | long | ulong | float | double | ldouble
  deriving DecidableEq

/-- the lists of specifiers; each may be given in any order -/
def table : List (List Kw × CTy) :=
  [([.void], .void),
   ([.char], .char),
   ([.signed, .char], .schar),
   ([.unsigned, .char], .uchar),
   ([.short], .short), ([.signed, .short], .short), ([.short, .int], .short), ([.signed, .short, .int], .short),
   ([.unsigned, .short], .ushort), ([.unsigned, .short, .int], .ushort),
   ([.int], .int), ([.signed], .int), ([.signed, .int], .int),
   ([.unsigned], .uint), ([.unsigned, .int], .uint),
   ([.long], .long), ([.signed, .long], .long), ([.long, .int], .long), ([.signed, .long, .int], .long),
   ([.unsigned, .long], .ulong), ([.unsigned, .long, .int], .ulong),
   ([.float], .float),
   ([.double], .double),
   ([.long, .double], .ldouble)]

/-- `ks` names the C type `t` -/
def Names (ks : List Kw) (t : CTy) : Prop := ∃ row, (row, t) ∈ table ∧ ks.Perm row

inductive Kind
  | none | plain | signed | unsigned | real
  deriving DecidableEq

/-- what C demands: kind, least number of bits -/
def CTy.kind : CTy → Kind × Nat
  | .void => (.none, 0)
  | .char => (.plain, 8)
  | .schar => (.signed, 8)
  | .uchar => (.unsigned, 8)
  | .short => (.signed, 16)
  | .ushort => (.unsigned, 16)
  | .int => (.signed, 16)
  | .uint => (.unsigned, 16)
  | .long => (.signed, 32)
  | .ulong => (.unsigned, 32)
  | .float => (.real, 0)
  | .double => (.real, 0)
  | .ldouble => (.real, 0)

/-- what the compiler's types are: kind, bits (`GetDeclSize`, smlrc.c:6359-6394).  The one real type is single precision -/
def Base.kind (W : Nat) : Base → Kind × Nat
  | .void => (.none, 0)
  | .char => (.plain, 8)
  | .schar => (.signed, 8)
  | .uchar => (.unsigned, 8)
  | .short => (.signed, 16)
  | .ushort => (.unsigned, 16)
  | .int => (.signed, 8 * W)
  | .unsigned => (.unsigned, 8 * W)
  | .float => (.real, 8 * W)

/-- the target's types for C's: `long` needs 32 bits, and the 16-bit targets have none -/
def CTy.target (W : Nat) : CTy → Option Base
  | .void => some .void
  | .char => some .char
  | .schar => some .schar
  | .uchar => some .uchar
  | .short => some (if W = 2 then .int else .short)
  | .ushort => some (if W = 2 then .unsigned else .ushort)
  | .int => some .int
  | .uint => some .unsigned
  | .long => if W = 2 then none else some .int
  | .ulong => if W = 2 then none else some .unsigned
  | .float => some .float
  | .double => some .float
  | .ldouble => some .float

end Smlr.Specif
