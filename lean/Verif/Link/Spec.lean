import Verif.Link.Model
set_option autoImplicit false
namespace Smlr.Link

/-- module `o` exports `n` -/
def Exports (o : Obj) (n : Name) : Prop := ∃ a, (n, a) ∈ o.defs

/-- module number `i` is the first one that exports `n` -/
def Provides (objs : List Obj) (n : Name) (i : Nat) : Prop :=
  ∃ h : i < objs.length, Exports objs[i] n ∧ ∀ j, ∀ h : j < objs.length, j < i → ¬ Exports objs[j] n

/-- the modules that the program consists of: the one with the entry point, and with each module those that provide what it imports -/
inductive Needs (objs : List Obj) (entry : Name) : Nat → Prop
  | entry (i) : Provides objs entry i → Needs objs entry i
  | undef (i j n) (h : i < objs.length) : Needs objs entry i → n ∈ objs[i].undefs → Provides objs n j → Needs objs entry j

/-- names that the program refers to -/
def Refers (objs : List Obj) (entry n : Name) : Prop :=
  n = entry ∨ ∃ i, ∃ h : i < objs.length, Needs objs entry i ∧ n ∈ objs[i].undefs

/-- names the linker defines itself: `__start_x` and `__stop_x` for nonempty `x` -/
def Special (n : Name) : Prop := ∃ x, x ≠ [] ∧ (n = str "__start_" ++ x ∨ n = str "__stop_" ++ x)

/-- some module exports the name -/
def Defined (objs : List Obj) (n : Name) : Prop := ∃ o ∈ objs, Exports o n

/-- two modules of the program export the same name -/
def Ambiguous (objs : List Obj) (entry : Name) : Prop :=
  ∃ i j n, ∃ hi : i < objs.length, ∃ hj : j < objs.length, i ≠ j ∧ Needs objs entry i ∧ Needs objs entry j ∧ Exports objs[i] n ∧ Exports objs[j] n

end Smlr.Link
