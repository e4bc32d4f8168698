import Verif.Fn.Model
set_option autoImplicit false
/-! What the body of a function does, in C: the steps of `Stmt.Spec`, in which an expression is evaluated as `Cg.Steps` says, in any order that C allows. -/
namespace Smlr.Fn
open Smlr.Cg (Wd Mem Env Ins Safe Steps wd)
open Smlr.Stmt.Spec (Stmt Cont Conf step)

variable {W : Nat}

/-- evaluation that has outcomes only where C allows them: a value, as a signed word, and memory -/
def Sound (V : Env W) (sem : List (lang W).X → Mem W → Option (Int × Mem W)) : Prop :=
  ∀ x m v m', sem x m = some (v, m') → ∃ (i : Item W) (w : Int), x = rpn i ∧ Safe V i.den m ∧ Steps V i.den m (.num w) m' ∧ v = (wd W w).toInt

/-- a step of the body, one of those that C allows -/
def Step (V : Env W) (isMain : Bool) (body : Stmt (lang W)) (c c' : Conf (lang W) (Mem W)) : Prop := ∃ sem, Sound V sem ∧ step sem isMain body c = some c'

inductive Reach (V : Env W) (isMain : Bool) (body : Stmt (lang W)) : Conf (lang W) (Mem W) → Conf (lang W) (Mem W) → Prop
  | refl (c : Conf (lang W) (Mem W)) : Reach V isMain body c c
  | step {a b c : Conf (lang W) (Mem W)} : Reach V isMain body a b → Step V isMain body b c → Reach V isMain body a c

open Classical in
/-- defined where evaluation is safe, with some outcome -/
noncomputable def probe (V : Env W) (x : List (lang W).X) (m : Mem W) : Option (Int × Mem W) := if ∃ i : Item W, x = rpn i ∧ Safe V i.den m then some (0, m) else none

/-- the function has returned -/
def isDone : Conf (lang W) (Mem W) → Prop
  | .done _ _ => True
  | _ => False

/-- the next step is an evaluation whose behaviour may be undefined -/
def Wrong (V : Env W) (isMain : Bool) (body : Stmt (lang W)) (c : Conf (lang W) (Mem W)) : Prop := ¬ isDone c ∧ step (probe V) isMain body c = none

/-- the behaviour is defined: whatever the order of evaluation in each expression is, nothing goes wrong -/
def Defined (V : Env W) (isMain : Bool) (body : Stmt (lang W)) (m : Mem W) : Prop := ∀ c, Reach V isMain body (.run body .stop m) c → ¬ Wrong V isMain body c

/-- the initialisers in the head of a `for` -/
def initsFor : Stmt.Spec.Init (lang W) → List (List (lang W).X)
  | .decl es => es
  | _ => []

/-- the initialisers of declarations -/
def inits : Stmt (lang W) → List (List (lang W).X)
  | .cons s ss => inits s ++ inits ss
  | .decl es => es
  | .block ss => inits ss
  | .whl _ b => inits b
  | .dow b _ => inits b
  | .ift _ a => inits a
  | .ife _ a b => inits a ++ inits b
  | .for i _ _ b => initsFor i ++ inits b
  | .switch _ b => inits b
  | .case _ s => inits s
  | .default s => inits s
  | .label _ s => inits s
  | _ => []

/-- the number of words of the stack that the code of a statement may need -/
def need : Stmt.I (lang W).X → Nat
  | .ifNot e _ | .ifYes e _ | .eval e | .evalR e => match e.head? with
    | some x => x.1.tree.depth
    | none => 0
  | _ => 0

/-- `n` steps of a program -/
inductive RunN (G : Int → Wd W) (P : List Ins) : Nat → Nat → Cg.St W → Nat → Cg.St W → Prop
  | refl (pc : Nat) (s : Cg.St W) : RunN G P 0 pc s pc s
  | step {n pc pc₁ pc₂ : Nat} {s s₁ s₂ : Cg.St W} : Cg.stepP G P pc s = some (pc₁, s₁) → RunN G P n pc₁ s₁ pc₂ s₂ → RunN G P (n + 1) pc s pc₂ s₂

end Smlr.Fn
