import Verif.Layout.Model
set_option autoImplicit false
/-! Sizes, alignments and offsets in unbounded numbers. -/
namespace Smlr.Layout

/-- the least multiple of `a` that is not below `x` -/
def roundUp (x a : Nat) : Nat := (x + a - 1) / a * a

mutual
def Ty.align (W : Nat) : Ty → Nat
  | .char => 1
  | .short => 2
  | .word => W
  | .void => 1
  | .incomplete => 1
  | .arr _ t => t.align W
  | .su _ ms => ms.align W
/-- the greatest alignment of a member -/
def Members.align (W : Nat) : Members → Nat
  | .nil => 1
  | .cons pack t ms => max (min (t.align W) pack) (ms.align W)
end

mutual
def Ty.size (W : Nat) : Ty → Nat
  | .char => 1
  | .short => 2
  | .word => W
  | .void => 0
  | .incomplete => 0
  | .arr n t => n * t.size W
  | .su u ms => roundUp (if u then ms.widest W else ms.stop W 0) (ms.align W)
/-- the greatest size of a member -/
def Members.widest (W : Nat) : Members → Nat
  | .nil => 0
  | .cons _ t ms => max (t.size W) (ms.widest W)
/-- the end of the last member, if the first may be placed at `x` -/
def Members.stop (W : Nat) : Members → Nat → Nat
  | .nil, x => x
  | .cons pack t ms, x => ms.stop W (roundUp x (min (t.align W) pack) + t.size W)
end

/-- the offsets of the members, if the first may be placed at `x` -/
def Members.offsets (W : Nat) (u : Bool) : Members → Nat → List Nat
  | .nil, _ => []
  | .cons pack t ms, x =>
    if u then 0 :: ms.offsets W u 0
    else roundUp x (min (t.align W) pack) :: ms.offsets W u (roundUp x (min (t.align W) pack) + t.size W)

/-- the members as a list -/
def Members.list : Members → List (Nat × Ty)
  | .nil => []
  | .cons pack t ms => (pack, t) :: ms.list

mutual
/-- array dimensions are positive (smlrc.c:6704) and `#pragma pack` values are powers of two not above the word size
(smlrc.c:2194-2196) -/
def Ty.Ok (W : Nat) : Ty → Prop
  | .arr n t => 1 ≤ n ∧ n < 2 ^ (8 * W) ∧ t.Ok W
  | .su _ ms => ms.Ok W
  | _ => True
def Members.Ok (W : Nat) : Members → Prop
  | .nil => True
  | .cons pack t ms => pack ∈ [1, 2, 4] ∧ pack ≤ W ∧ t.Ok W ∧ ms.Ok W
end

mutual
/-- no part has an incomplete type, no structure is without members -/
def Ty.Complete : Ty → Prop
  | .arr _ t => t.Complete
  | .su _ ms => ms ≠ .nil ∧ ms.Complete
  | .void => False
  | .incomplete => False
  | _ => True
def Members.Complete : Members → Prop
  | .nil => True
  | .cons _ t ms => t.Complete ∧ ms.Complete
end

end Smlr.Layout
