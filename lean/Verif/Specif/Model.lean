set_option autoImplicit false
/-! Model of the arithmetic type specifiers in `ParseBase` (smlrc.c:6728-6813, 7074-7104).  `W` is `SizeOfWord`. -/
namespace Smlr.Specif

inductive Kw
  | void | char | short | int | long | signed | unsigned | float | double
  deriving DecidableEq

/-- types that are left after `ParseBase` -/
inductive Base
  | void | char | schar | uchar | short | ushort | int | unsigned | float
  deriving DecidableEq

/-- the results of the switch at 6791-6810 before the adjustments at the end -/
inductive Mid
  | base (b : Base) | long | ulong
  deriving DecidableEq

/-- `tokMask` and `disallowedMask`, smlrc.c:6762-6783 -/
def masks : Kw → Nat × Nat
  | .char => (0x01, 0x4E)
  | .short => (0x02, 0x49)
  | .int => (0x04, 0x41)
  | .long => (0x08, 0x03)
  | .signed => (0x10, 0x60)
  | .unsigned => (0x20, 0x50)
  | .double => (0x40, 0x37)
  | _ => (0, 0)

/-- the loop at `lcont`, smlrc.c:6760-6789: type mask and the tokens left -/
def loop (allowed type : Nat) : List Kw → Nat × List Kw
  | [] => (type, [])
  | k :: ks =>
    if allowed &&& (masks k).1 ≠ 0 then
      loop (allowed &&& (0x7F - ((masks k).2 ||| (masks k).1))) (type ||| (masks k).1) ks
    else (type, k :: ks)

/-- smlrc.c:6791-6810; `none`: `errorDecl` -/
def ofMask (m : Nat) : Option Mid :=
  if m = 0x01 then some (.base .char)
  else if m = 0x11 then some (.base .schar)
  else if m = 0x21 then some (.base .uchar)
  else if m = 0x02 ∨ m = 0x12 ∨ m = 0x06 ∨ m = 0x16 then some (.base .short)
  else if m = 0x22 ∨ m = 0x26 then some (.base .ushort)
  else if m = 0x04 ∨ m = 0x10 ∨ m = 0x14 then some (.base .int)
  else if m = 0x20 ∨ m = 0x24 then some (.base .unsigned)
  else if m = 0x08 ∨ m = 0x18 ∨ m = 0x0C ∨ m = 0x1C then some .long
  else if m = 0x28 ∨ m = 0x2C then some .ulong
  else if m = 0x40 ∨ m = 0x48 then some (.base .float)
  else none

/-- smlrc.c:7075-7095 -/
def adjust (W : Nat) : Mid → Option Base
  | .long => if W = 2 then none else some .int
  | .ulong => if W = 2 then none else some .unsigned
  | .base .short => some (if W = 2 then .int else .short)
  | .base .ushort => some (if W = 2 then .unsigned else .ushort)
  | .base b => some b

/-- the switch on the first token, smlrc.c:6733-6756: the type and the tokens left -/
def parseBase (W : Nat) : List Kw → Option (Base × List Kw)
  | [] => none
  | .float :: ks => some (.float, ks)
  | .void :: ks => some (.void, ks)
  | k :: ks =>
    match loop 0x7F 0 (k :: ks) with
    | (m, rest) => match ofMask m with
      | none => none
      | some t => (adjust W t).map fun b => (b, rest)

/-- a declaration: specifiers and a declarator.  A keyword that is left over is no declarator (`ParseDerived`,
smlrc.c:7121-7171 and the check of the token after the declarator at 7218-7220) -/
def declare (W : Nat) (ks : List Kw) : Option Base :=
  match parseBase W ks with
  | some (b, []) => some b
  | _ => none

end Smlr.Specif
