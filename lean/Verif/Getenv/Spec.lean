import Init
set_option autoImplicit false
/-! What `getenv` must do: the environment is a list of entries, of the form `name=value`. -/
namespace Smlr.Getenv.Spec

/-- entry `e` gives `name` the value `v`: the name is what stands before the first `=` -/
def Gives (e name v : List UInt8) : Prop := e = name ++ 0x3D :: v ∧ 0x3D ∉ name

/-- `v` is the value of `name`: that of the first entry that gives one -/
inductive Value : List (List UInt8) → List UInt8 → List UInt8 → Prop
  | here (e es name v) : Gives e name v → Value (e :: es) name v
  | later (e es name v) : (∀ v', ¬ Gives e name v') → Value es name v → Value (e :: es) name v

/-- a name that the environment does not have -/
def Absent (es : List (List UInt8)) (name : List UInt8) : Prop := ∀ e ∈ es, ∀ v, ¬ Gives e name v

/-- the block of DOS: every entry ends with a 0, and one more 0 ends the block -/
def block (es : List (List UInt8)) : List UInt8 := es.flatMap (· ++ [0]) ++ [0]

/-- entries that a block can have -/
def Entries (es : List (List UInt8)) : Prop := ∀ e ∈ es, e ≠ [] ∧ 0 ∉ e

end Smlr.Getenv.Spec
