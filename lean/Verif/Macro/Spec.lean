import Verif.Macro.Model
set_option autoImplicit false
/-! Macro definitions as a dictionary. -/
namespace Smlr.Macro

/-- a C string: no NUL inside -/
def NoNul (s : Str) : Prop := ∀ c ∈ s, c ≠ 0

/-- text without trailing spaces and tabs -/
def strip (b : Str) : Str := (b.reverse.dropWhile (fun c => c = 0x20 || c = 9)).reverse

/-- what a name stands for, given the history, the latest directive first -/
def latest : List Op → Str → Option Str
  | [], _ => none
  | .define m b :: os, n => if m = n then some (strip b) else latest os n
  | .undef m :: os, n => if m = n then none else latest os n

/-- all strings of a history are C strings -/
def Op.Ok : Op → Prop
  | .define n b => NoNul n ∧ NoNul b
  | .undef n => NoNul n

/-- bytes one definition takes -/
def size (n b : Str) : Nat := n.length + b.length + 3

/-- a definition that must be accepted: new, not too long, and room left for it -/
def Fits (free : Nat) (n b : Str) : Prop := n.length ≤ 126 ∧ b.length ≤ 127 ∧ size n b ≤ free

end Smlr.Macro
