import Verif.Frame.Model
import Verif.Fn.Props
set_option autoImplicit false
/-! Which objects may share memory, how much memory a frame needs, where arguments are, and what the instructions of functions and calls do. -/
namespace Smlr.Frame
open Smlr.Cg (Wd Ins Opd St Mem ld st stepP)

/-! ### Local variables -/

/-- the bytes of a variable: from an offset, so many -/
structure Slot where
  ofs : Int
  size : Int

/-- no byte in common -/
def Slot.apart (a b : Slot) : Prop := ∀ x : Int, ¬ (a.ofs ≤ x ∧ x < a.ofs + a.size ∧ b.ofs ≤ x ∧ x < b.ofs + b.size)

def slot (ofs size : I32) : Slot := ⟨ofs.toInt, size.toNat⟩

/-- Every variable is apart from those that live when it is declared. -/
def Placed.sound : List Slot → Placed → Prop
  | _, .nil => True
  | live, .var o n rest => (∀ l ∈ live, Slot.apart l (slot o n)) ∧ rest.sound (slot o n :: live)
  | live, .scope inside rest => inside.sound live ∧ rest.sound live

/-- all variables -/
def Placed.slots : Placed → List Slot
  | .nil => []
  | .var o n rest => slot o n :: rest.slots
  | .scope inside rest => inside.slots ++ rest.slots

/-- without the offsets -/
def Placed.decls : Placed → Decls
  | .nil => .nil
  | .var _ n rest => .var n rest.decls
  | .scope inside rest => .scope inside.decls rest.decls

/-- the number of bytes of whole words -/
def up (W n : Nat) : Nat := (n + (W - 1)) / W * W

/-- the memory that is needed for variables of one function, each in whole words, where those in a scope and those after it can be in the same place -/
def Decls.height (W : Nat) : Decls → Nat
  | .nil => 0
  | .var n rest => up W n.toNat + rest.height W
  | .scope inside rest => max (inside.height W) (rest.height W)

/-- no variable is empty -/
def Decls.full : Decls → Bool
  | .nil => true
  | .var n rest => n.toNat ≠ 0 && rest.full
  | .scope inside rest => inside.full && rest.full

/-! ### Parameters -/

/-- above the return address and the saved frame pointer are the arguments, the first of them lowest, each in whole words -/
def argOfs (W : Nat) (szs : List Nat) (i : Nat) : Nat := 2 * W + ((szs.take i).map (up W)).sum

/-! ### The machine -/

variable {W : Nat}

/-- the instruction number of the name of a function -/
def entry (Q : List XIns) (x : Int) : Option Nat := if .fn x ∈ Q then some (Q.idxOf (.fn x)) else none

/-- an instruction that does nothing and from which nothing goes on -/
def stuck : Ins := .i2 .lea .ax .ax

def XIns.ins : XIns → Ins
  | .base i => i
  | _ => stuck

/-- push a word -/
def push (s : St W) (v : Wd W) : St W := { s with sp := s.sp - BitVec.ofNat _ W, mem := st s.mem (s.sp - BitVec.ofNat _ W) W v.toNat }

/-- the word on the top of the stack -/
def top (s : St W) : Wd W := BitVec.ofNat _ (ld s.mem s.sp W)

/-- the word above -/
def pop (s : St W) : St W := { s with sp := s.sp + BitVec.ofNat _ W }

/-- where instructions are in memory: the address of an instruction, and the instruction at an address -/
structure Code (W : Nat) where
  adr : Nat → Wd W
  ins : Wd W → Option Nat

/-- one step; instructions of expressions and statements do what they did (labels are those of the whole program) -/
def stepX (G : Int → Wd W) (K : Code W) (Q : List XIns) (pc : Nat) (s : St W) : Option (Nat × St W) :=
  match Q[pc]? with
  | none => none
  | some (.base _) => stepP G (Q.map XIns.ins) pc s
  | some .pushBp => some (pc + 1, push s s.bp)
  | some .movBpSp => some (pc + 1, { s with bp := s.sp })
  | some (.subSp n) => some (pc + 1, { s with sp := s.sp - BitVec.ofInt _ n, flags := none })
  | some .leave => let t := { s with sp := s.bp }; some (pc + 1, { pop t with bp := top t })
  | some .ret => (K.ins (top s)).map (·, pop s)
  | some (.fn _) => some (pc + 1, s)
  | some (.call x) => (entry Q x).map (·, push s (K.adr (pc + 1)))
  | some .calla => (K.ins s.ax).map (·, push s (K.adr (pc + 1)))

/-- `n` steps -/
inductive RunX (G : Int → Wd W) (K : Code W) (Q : List XIns) : Nat → Nat → St W → Nat → St W → Prop
  | refl (pc : Nat) (s : St W) : RunX G K Q 0 pc s pc s
  | step {n pc pc₁ pc₂ : Nat} {s s₁ s₂ : St W} : stepX G K Q pc s = some (pc₁, s₁) → RunX G K Q n pc₁ s₁ pc₂ s₂ → RunX G K Q (n + 1) pc s pc₂ s₂

/-- the `n` bytes under an address -/
def Under (sp : Wd W) (n : Nat) (a : Wd W) : Prop := ∃ k, 1 ≤ k ∧ k ≤ n ∧ a = sp - BitVec.ofNat _ k

open Smlr.Fn (lang Item rpn inits need print) in
/-- `P` is printed for the body of a function, and needs at most `d` words of the stack.  Not for functions that end with a loop whose body is a bare `return` (`c26_loop_return_defect`). -/
def Compiled (isMain : Bool) (body : Stmt.Spec.Stmt (lang W)) (P : List Ins) (d : Nat) : Prop :=
  ∃ (void : Bool) (mc mg n lab0 : Nat) (rest : List (Stmt.Tok (lang W))) (code : List (Stmt.I (lang W).X)) (ρ : Nat → Int),
    body.wf true ∧ 2 * body.toks.length + 2 ≤ n ∧ Stmt.fxn isMain void mc mg n lab0 (body.toks ++ .k .rbrace :: rest) = .ok code ∧ (isMain = true ∨ Stmt.loopRet body = false) ∧
    (∀ x ∈ inits body, ∃ i : Item W, x = rpn i) ∧ print ρ code = some P ∧ ∀ i ∈ code, need i ≤ d

/-- What a call of a function with a frame of `n` bytes finds: the stack pointer is `sp` when the function is entered.  The frame pointer is going to be a word lower; the return address and the saved frame pointer are not objects; nor is what is below the frame; and nothing wraps around. -/
structure Room (V : Cg.Env W) (sp : Wd W) (n d : Nat) : Prop where
  bp : V.bp = sp - BitVec.ofNat _ W
  links : ∀ k < 2 * W, ¬ V.A (V.bp + BitVec.ofNat _ k)
  below : ∀ a, Under (V.bp - BitVec.ofNat _ n) (d * W) a → ¬ V.A a
  fits : n + d * W + 2 * W ≤ 2 ^ (8 * W)

end Smlr.Frame
