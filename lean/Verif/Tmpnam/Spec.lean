import Verif.Exit.Spec
set_option autoImplicit false
namespace Smlr.Tmpnam.Spec
open Smlr.Exit.Spec

abbrev Str := List UInt8

/-- five decimal digits with the value `n` -/
def Five (ds : Str) (n : Nat) : Prop := ds.length = 5 ∧ (∀ c ∈ ds, 0x30 ≤ c.toNat ∧ c.toNat ≤ 0x39) ∧ val ds = n

/-- `s` is the name number `n` in the directory `d`: `TMPnnnnn.$$$`, or `tmpnnnnn.tmp` -/
def IsName (unix : Bool) (d : Str) (n : Nat) (s : Str) : Prop :=
  ∃ ds, Five ds n ∧ s = d ++ (if unix then [0x74, 0x6D, 0x70] else [0x54, 0x4D, 0x50]) ++ ds ++
    (if unix then [0x2E, 0x74, 0x6D, 0x70] else [0x2E, 0x24, 0x24, 0x24])

/-- `\` or `/` -/
def IsSlash (c : UInt8) : Prop := c = 0x5C ∨ c = 0x2F

end Smlr.Tmpnam.Spec
