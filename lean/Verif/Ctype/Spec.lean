set_option autoImplicit false
/-
Character classes of the "C" locale in ASCII, written with explicit ranges
(C99 7.4.1).  Independent of the table in the model.
-/
namespace Smlr.Ctype.Spec

def Digit (c : Int) : Prop := 48 ≤ c ∧ c ≤ 57          -- '0'..'9'
def Upper (c : Int) : Prop := 65 ≤ c ∧ c ≤ 90          -- 'A'..'Z'
def Lower (c : Int) : Prop := 97 ≤ c ∧ c ≤ 122         -- 'a'..'z'
def Alpha (c : Int) : Prop := Upper c ∨ Lower c
def Alnum (c : Int) : Prop := Alpha c ∨ Digit c
def Space (c : Int) : Prop := c = 32 ∨ (9 ≤ c ∧ c ≤ 13) -- ' ' \t \n \v \f \r
def Blank (c : Int) : Prop := c = 32 ∨ c = 9
def Cntrl (c : Int) : Prop := (0 ≤ c ∧ c ≤ 31) ∨ c = 127
def Print (c : Int) : Prop := 32 ≤ c ∧ c ≤ 126
def Graph (c : Int) : Prop := Print c ∧ c ≠ 32
def Punct (c : Int) : Prop := Print c ∧ c ≠ 32 ∧ ¬ Alnum c
def XDigit (c : Int) : Prop := Digit c ∨ (65 ≤ c ∧ c ≤ 70) ∨ (97 ≤ c ∧ c ≤ 102)
/-- to upper case: only lower-case letters change -/
def upperOf (c : Int) : Int := if 97 ≤ c ∧ c ≤ 122 then c - 32 else c
/-- to lower case: only upper-case letters change -/
def lowerOf (c : Int) : Int := if 65 ≤ c ∧ c ≤ 90 then c + 32 else c

instance (c) : Decidable (Digit c) := by unfold Digit; infer_instance
instance (c) : Decidable (Upper c) := by unfold Upper; infer_instance
instance (c) : Decidable (Lower c) := by unfold Lower; infer_instance
instance (c) : Decidable (Alpha c) := by unfold Alpha; infer_instance
instance (c) : Decidable (Alnum c) := by unfold Alnum; infer_instance
instance (c) : Decidable (Space c) := by unfold Space; infer_instance
instance (c) : Decidable (Blank c) := by unfold Blank; infer_instance
instance (c) : Decidable (Cntrl c) := by unfold Cntrl; infer_instance
instance (c) : Decidable (Print c) := by unfold Print; infer_instance
instance (c) : Decidable (Graph c) := by unfold Graph; infer_instance
instance (c) : Decidable (Punct c) := by unfold Punct; infer_instance
instance (c) : Decidable (XDigit c) := by unfold XDigit; infer_instance

end Smlr.Ctype.Spec
