import Verif.Mips.Model
set_option autoImplicit false
/-! What is asked of the code: expressions and their meaning are those of the other code generator (`Cg.E`, `Cg.Steps`, `Cg.Safe`). -/
namespace Smlr.Mips
open Smlr.Cg (E)

/-- does the expression have the type `void`? -/
def isVoid : E → Bool
  | .un .void _ => true
  | .cond _ _ a _ => isVoid a
  | .comma _ r => isVoid r
  | _ => false

/-- Expressions of type `void` are not operands, as C demands, except of the comma operator, of conversions to `void`, and both second and third of `?:`. -/
def typed : E → Prop
  | .num _ | .glob _ | .loc _ => True
  | .deref _ e | .inc _ _ e | .padd _ _ _ e => isVoid e = false ∧ typed e
  | .un u e => (u ≠ .void → isVoid e = false) ∧ typed e
  | .bin _ l r | .cmp _ l r | .asg _ l r | .asgo _ _ l r | .land _ l r | .lor _ l r => isVoid l = false ∧ isVoid r = false ∧ typed l ∧ typed r
  | .cond _ c a b => isVoid c = false ∧ isVoid a = isVoid b ∧ typed c ∧ typed a ∧ typed b
  | .comma l r => typed l ∧ typed r

/-- how many intermediate values there may be besides the working one -/
def temps : E → Nat
  | .num _ | .glob _ | .loc _ => 0
  | .deref _ e | .un _ e | .inc _ _ e => temps e
  | .padd _ _ _ e => max (temps e) 1
  | .bin _ l r | .cmp _ l r | .asg _ l r | .asgo _ _ l r => max (temps l) (temps r + 1)
  | .land _ l r | .lor _ l r | .comma l r => max (temps l) (temps r)
  | .cond _ c a b => max (temps c) (max (temps a) (temps b))

/-- how many words of the stack are enough: eight intermediate values are in registers -/
def words (e : E) : Nat := temps e - 8

/-- the registers that code for an expression does not change: it uses `$1`, `$2`, `$8` to `$15`, `$24`, `$25` -/
def saved (i : Nat) : Prop := i ≠ 1 ∧ i ≠ 2 ∧ ¬ (8 ≤ i ∧ i ≤ 15) ∧ i ≠ 24 ∧ i ≠ 25

end Smlr.Mips
