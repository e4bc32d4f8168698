import Verif.Fn.Spec
import Verif.Mips.Props
set_option autoImplicit false
/-! From the body of a function to MIPS code: the code of statements (`Stmt.fxn`) with expressions as `exprval` leaves them (`Fn.Item`), and what each piece of it is printed as. -/
namespace Smlr.Mfn
open Smlr.Fn (Item lang)
open Smlr.Mips (Ins V0 TB)

/-- The code of an instruction; `ρ` numbers the labels, among which are those of the expressions.
`GenNumLabel` (cgmips.c:112-115), `GenJumpUncond` (486-490), `GenJumpIfZero`, `GenJumpIfNotZero` (507-529; `GenWreg` is `$2` outside of expressions), `GenExpr` with `tokIfNot`, `tokIf`, nothing or `tokReturn` on the top, `GenJumpIfEqual` (495-504) -/
def one (ρ : Nat → Int) : Stmt.I (lang 4).X → Option (List Ins)
  | .lab l => some [.lab (ρ l)]
  | .jmp l => some [.j (ρ l)]
  | .jz l => some [.beq V0 0 (ρ l)]
  | .jnz l => some [.bne V0 0 (ρ l)]
  | .ifNot e l => Mips.genExpr (e.map Prod.snd ++ [(.ifN, ρ l)])
  | .ifYes e l => Mips.genExpr (e.map Prod.snd ++ [(.ifT, ρ l)])
  | .eval e => Mips.genExpr (e.map Prod.snd)
  | .evalR e => Mips.genExpr (e.map Prod.snd ++ [(.ret, 0)])
  | .je v l => some [.li TB v, .beq V0 TB (ρ l)]

/-- the program -/
def print (ρ : Nat → Int) : List (Stmt.I (lang 4).X) → Option (List Ins)
  | [] => some []
  | i :: is => (one ρ i).bind fun a => (print ρ is).map (a ++ ·)

/-- the number of words of the stack that the code of a statement may need -/
def need : Stmt.I (lang 4).X → Nat
  | .ifNot e _ | .ifYes e _ | .eval e | .evalR e => match e.head? with
    | some x => Mips.words x.1.tree
    | none => 0
  | _ => 0

/-- `n` steps of a program -/
inductive RunN (G : Int → Cg.Wd 4) (P : List Ins) : Nat → Nat → Mips.St → Nat → Mips.St → Prop
  | refl (pc : Nat) (s : Mips.St) : RunN G P 0 pc s pc s
  | step {n pc pc₁ pc₂ : Nat} {s s₁ s₂ : Mips.St} : Mips.stepP G P pc s = some (pc₁, s₁) → RunN G P n pc₁ s₁ pc₂ s₂ → RunN G P (n + 1) pc s pc₂ s₂

end Smlr.Mfn
