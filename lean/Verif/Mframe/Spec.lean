import Verif.Mframe.Model
import Verif.Mfn.Props
import Verif.Frame.Props
set_option autoImplicit false
/-! What the instructions of functions and calls do, and where arguments are. -/
namespace Smlr.Mframe
open Smlr.Cg (Wd Mem ld st)
open Smlr.Mips (Ins St stepP)
open Smlr.Frame (Code Under)

/-- the instruction number of the name of a function -/
def entry (Q : List XIns) (x : Int) : Option Nat := if .fn x ∈ Q then some (Q.idxOf (.fn x)) else none

/-- an instruction from which nothing goes on -/
def stuck : Ins := .div 0 0

def XIns.ins : XIns → Ins
  | .base i => i
  | _ => stuck

/-- One step; instructions of expressions and statements do what they did (labels are those of the whole program).  The assembler fills delay slots, so that `$31` has the address of what comes after `jal`. -/
def stepX (G : Int → Wd 4) (K : Code 4) (Q : List XIns) (pc : Nat) (s : St) : Option (Nat × St) :=
  match Q[pc]? with
  | none => none
  | some (.base _) => stepP G (Q.map XIns.ins) pc s
  | some (.fn _) => some (pc + 1, s)
  | some (.jal x) => (entry Q x).map (·, s.set 31 (K.adr (pc + 1)))
  | some (.jalr r) => (K.ins (s.get r)).map (·, s.set 31 (K.adr (pc + 1)))
  | some (.jr r) => (K.ins (s.get r)).map (·, s)

/-- `n` steps -/
inductive RunX (G : Int → Wd 4) (K : Code 4) (Q : List XIns) : Nat → Nat → St → Nat → St → Prop
  | refl (pc : Nat) (s : St) : RunX G K Q 0 pc s pc s
  | step {n pc pc₁ pc₂ : Nat} {s s₁ s₂ : St} : stepX G K Q pc s = some (pc₁, s₁) → RunX G K Q n pc₁ s₁ pc₂ s₂ → RunX G K Q (n + 1) pc s pc₂ s₂

/-- a word of the stack -/
def word (s : St) (i : Nat) : Wd 4 := BitVec.ofNat _ (ld s.mem (s.sp + BitVec.ofNat _ (4 * i)) 4)

/-- the memory after the first `n` registers with arguments have been stored in the words on the top of the stack -/
def home (s : St) : Nat → Mem 4
  | 0 => s.mem
  | n + 1 => st (home s n) (s.sp + BitVec.ofNat _ (4 * n)) 4 (s.r (4 + n)).toNat

/-- the memory when the body begins: under the arguments are the return address, unless there are no calls, and the saved frame pointer -/
def began (s : St) (n : Nat) (leaf : Bool) : Mem 4 :=
  let m := st (home s n) (s.sp - 8#32) 4 s.fp.toNat
  if leaf then m else st m (s.sp - 4#32) 4 (s.r 31).toNat

open Smlr.Fn (lang Item rpn inits) in
open Smlr.Mfn (print need) in
/-- `P` is printed for the body of a function, and needs at most `d` words of the stack.  Not for functions that end with a loop whose body is a bare `return` (`c26_loop_return_defect`). -/
def Compiled (isMain : Bool) (body : Stmt.Spec.Stmt (lang 4)) (P : List Ins) (d : Nat) : Prop :=
  ∃ (void : Bool) (mc mg n lab0 : Nat) (rest : List (Stmt.Tok (lang 4))) (code : List (Stmt.I (lang 4).X)) (ρ : Nat → Int),
    body.wf true ∧ 2 * body.toks.length + 2 ≤ n ∧ Stmt.fxn isMain void mc mg n lab0 (body.toks ++ .k .rbrace :: rest) = .ok code ∧ (isMain = true ∨ Stmt.loopRet body = false) ∧
    (∀ x ∈ inits body, ∃ i : Item 4, x = rpn i) ∧ print ρ code = some P ∧ ∀ i ∈ code, need i ≤ d

/-- What a call of a function with a frame of `n` bytes of variables finds: the stack pointer is `sp` when the function is entered.  The frame pointer is going to be two words lower; the saved frame pointer and the return address are not objects; nor is what is below the frame; and nothing wraps around. -/
structure Room (V : Cg.Env 4) (sp : Wd 4) (n d : Nat) : Prop where
  bp : V.bp = sp - 8#32
  links : ∀ k < 8, ¬ V.A (V.bp + BitVec.ofNat _ k)
  below : ∀ a, Under (V.bp - BitVec.ofNat _ n) (d * 4) a → ¬ V.A a
  fits : n + d * 4 + 24 ≤ 2 ^ 32

/-- an argument, as the caller has it before the code of the call: on the stack, the first on the top; or the first four in registers, and the others on the stack -/
def given (deep : Bool) (s : St) (i : Nat) : Wd 4 := if deep then word s i else if i < 4 then s.r (4 + i) else word s (i - 4)

/-- What the function finds: the return address; and the first four words of arguments in registers, or, where they are in registers already, room for them. -/
def atEntry (deep : Bool) (s : St) (v : Nat) (ra : Wd 4) : St :=
  if deep then { s with r := fun k => if k = 31 then ra else if 4 ≤ k ∧ k < 8 ∧ 4 * (k - 4) + 4 ≤ v then word s (k - 4) else s.r k }
  else { s with r := fun k => if k = 31 then ra else if k = 29 then s.sp - 16#32 else s.r k }

end Smlr.Mframe
