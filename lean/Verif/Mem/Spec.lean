import Verif.Mem.Model
set_option autoImplicit false
/-
Specification vocabulary for the string functions.
-/
namespace Smlr.Mem.Spec

/-- The bytes of memory from `p` on are the string `l` followed by a NUL; `l` has no NUL. -/
def CStr (m : Mem) : Nat → List UInt8 → Prop
  | p, [] => m p = 0
  | p, c :: t => c ≠ 0 ∧ m p = c ∧ CStr m (p+1) t

/-- The fields of `l`: the maximal runs of non-delimiters. -/
def fields (delims l : List UInt8) : List (List UInt8) :=
  (l.splitOnP (fun c => delims.contains c)).filter (fun f => !f.isEmpty)

end Smlr.Mem.Spec
