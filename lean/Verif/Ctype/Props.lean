import Verif.Ctype.Model
import Verif.Ctype.Spec
set_option autoImplicit false
/-
Property C40: character classification is that of the "C" locale for every
argument the standard permits (EOF and all unsigned char values).
-/
namespace Smlr.Ctype

/-- Enumeration of the complete argument domain (the table has 257 entries). -/
theorem allArgs {P : Int → Prop} (h : ∀ n : Fin 257, P ((n.val : Int) - 1)) :
    ∀ c : Int, -1 ≤ c → c ≤ 255 → P c := by
  intro c h1 h2
  have := h ⟨(c + 1).toNat, by omega⟩
  have e : (((c + 1).toNat : Nat) : Int) - 1 = c := by omega
  rw [← e]; exact this

/-- C40: each predicate is non-zero exactly on its character class. -/
theorem c40_classes (c : Int) (h1 : -1 ≤ c) (h2 : c ≤ 255) :
    (isspace c ≠ 0 ↔ Spec.Space c) ∧ (isdigit c ≠ 0 ↔ Spec.Digit c) ∧
    (isalpha c ≠ 0 ↔ Spec.Alpha c) ∧ (isalnum c ≠ 0 ↔ Spec.Alnum c) ∧
    (isblank c ≠ 0 ↔ Spec.Blank c) ∧ (iscntrl c ≠ 0 ↔ Spec.Cntrl c) ∧
    (isgraph c ≠ 0 ↔ Spec.Graph c) ∧ (islower c ≠ 0 ↔ Spec.Lower c) ∧
    (isprint c ≠ 0 ↔ Spec.Print c) ∧ (ispunct c ≠ 0 ↔ Spec.Punct c) ∧
    (isupper c ≠ 0 ↔ Spec.Upper c) ∧ (isxdigit c ≠ 0 ↔ Spec.XDigit c) := by
  revert c
  exact allArgs (by decide +kernel)

/-- C40: case mapping changes exactly the letters of the other case. -/
theorem c40_case (c : Int) (h1 : -1 ≤ c) (h2 : c ≤ 255) :
    toupper c = Spec.upperOf c ∧ tolower c = Spec.lowerOf c := by
  revert c
  exact allArgs (by decide +kernel)

example : (-1 : Int) ≤ 0x41 ∧ (0x41 : Int) ≤ 255 ∧ tolower 0x41 = 0x61 := by decide +kernel

end Smlr.Ctype
