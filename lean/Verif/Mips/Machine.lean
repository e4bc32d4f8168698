import Verif.Cg.Props
set_option autoImplicit false
/-! The part of MIPS32 that `cgmips.c` uses for integer expressions: 32 registers, `hi` and `lo`, little-endian memory, and the instructions that it prints, as the assembler takes them: it puts instructions into delay slots itself (there is no `.set noreorder`), and turns constants that do not fit into an instruction into more than one with the help of `$1`.  Division by zero, and of the least number by −1, have no next state.  Accesses need not be aligned here. -/
namespace Smlr.Mips
open Smlr.Cg (Wd Mem ld st sext wd)

/-- instructions with three operands -/
inductive Alu
  | addu | subu | and | or | xor | nor | sll | srl | sra | mul | slt | sltu
  deriving DecidableEq, Repr

/-- a third operand -/
inductive Opd
  | reg (r : Nat)
  | imm (v : Int)
  deriving DecidableEq, Repr

/-- memory operands: `ofs(reg)` and `%lo(x)($1)` -/
inductive Adr
  | ind (r : Nat) (ofs : Int)
  | lo (x : Int)
  deriving DecidableEq, Repr

inductive Load
  | lb | lbu | lh | lhu | lw
  deriving DecidableEq, Repr

inductive Store
  | sb | sh | sw
  deriving DecidableEq, Repr

/-- conditions of branches that compare with zero -/
inductive Bz
  | ltz | gez | lez | gtz
  deriving DecidableEq, Repr

inductive Ins
  | move (d s : Nat)
  | mflo (d : Nat)
  | mfhi (d : Nat)
  | la (d : Nat) (x : Int)
  | li (d : Nat) (v : Int)
  /-- `lui $1, %hi(x)` -/
  | lui (x : Int)
  | load (i : Load) (d : Nat) (a : Adr)
  | store (i : Store) (s : Nat) (a : Adr)
  | alu (i : Alu) (d s : Nat) (o : Opd)
  /-- `div $0, s, t` -/
  | div (s t : Nat)
  | divu (s t : Nat)
  | seb (d s : Nat)
  | seh (d s : Nat)
  | j (l : Int)
  | beq (s t : Nat) (l : Int)
  | bne (s t : Nat) (l : Int)
  | bz (k : Bz) (s : Nat) (l : Int)
  | lab (l : Int)
  deriving DecidableEq, Repr

structure St where
  r : Nat → Wd 4
  hi : Wd 4
  lo : Wd 4
  mem : Mem 4

/-- register 0 is zero -/
def St.get (s : St) (i : Nat) : Wd 4 := if i = 0 then 0 else s.r i

def St.set (s : St) (i : Nat) (v : Wd 4) : St := { s with r := fun k => if k = i then v else s.r k }

abbrev St.sp (s : St) : Wd 4 := s.r 29

abbrev St.fp (s : St) : Wd 4 := s.r 30

/-- the high half of an address, so that adding the low half as a signed number makes the address -/
def hiOf (a : Wd 4) : Wd 4 := wd 4 ((a.toInt + 32768) / 65536 * 65536)

def loOf (a : Wd 4) : Wd 4 := sext 2 a

def ea (G : Int → Wd 4) (s : St) : Adr → Wd 4
  | .ind r o => s.get r + wd 4 o
  | .lo x => s.get 1 + loOf (G x)

def opd (s : St) : Opd → Wd 4
  | .reg r => s.get r
  | .imm v => wd 4 v

def bit (b : Bool) : Wd 4 := if b then 1 else 0

/-- shifts look at five bits of the count -/
def alu : Alu → Wd 4 → Wd 4 → Wd 4
  | .addu, x, y => x + y
  | .subu, x, y => x - y
  | .and, x, y => x &&& y
  | .or, x, y => x ||| y
  | .xor, x, y => x ^^^ y
  | .nor, x, y => ~~~ (x ||| y)
  | .sll, x, y => x <<< (y.toNat % 32)
  | .srl, x, y => x >>> (y.toNat % 32)
  | .sra, x, y => x.sshiftRight (y.toNat % 32)
  | .mul, x, y => x * y
  | .slt, x, y => bit (decide (x.toInt < y.toInt))
  | .sltu, x, y => bit (decide (x.toNat < y.toNat))

def load (m : Mem 4) (a : Wd 4) : Load → Wd 4
  | .lb => sext 1 (BitVec.ofNat _ (ld m a 1))
  | .lbu => BitVec.ofNat _ (ld m a 1)
  | .lh => sext 2 (BitVec.ofNat _ (ld m a 2))
  | .lhu => BitVec.ofNat _ (ld m a 2)
  | .lw => BitVec.ofNat _ (ld m a 4)

def Store.size : Store → Nat
  | .sb => 1
  | .sh => 2
  | .sw => 4

def Bz.holds : Bz → Wd 4 → Bool
  | .ltz, x => x.toInt < 0
  | .gez, x => x.toInt ≥ 0
  | .lez, x => x.toInt ≤ 0
  | .gtz, x => x.toInt > 0

/-- one instruction that is not a jump; a label does nothing -/
def exec (G : Int → Wd 4) (s : St) : Ins → Option St
  | .move d t => some (s.set d (s.get t))
  | .mflo d => some (s.set d s.lo)
  | .mfhi d => some (s.set d s.hi)
  | .la d x => some (s.set d (G x))
  | .li d v => some (s.set d (wd 4 v))
  | .lui x => some (s.set 1 (hiOf (G x)))
  | .load i d a => some (s.set d (load s.mem (ea G s a) i))
  | .store i t a => some { s with mem := st s.mem (ea G s a) i.size (s.get t).toNat }
  | .alu i d t o => some (s.set d (alu i (s.get t) (opd s o)))
  | .div t u =>
    let x := (s.get t).toInt
    let y := (s.get u).toInt
    if y = 0 ∨ (x = -2 ^ 31 ∧ y = -1) then none else some { s with lo := wd 4 (Int.tdiv x y), hi := wd 4 (Int.tmod x y) }
  | .divu t u =>
    let x := (s.get t).toNat
    let y := (s.get u).toNat
    if y = 0 then none else some { s with lo := BitVec.ofNat _ (x / y), hi := BitVec.ofNat _ (x % y) }
  | .seb d t => some (s.set d (sext 1 (s.get t)))
  | .seh d t => some (s.set d (sext 2 (s.get t)))
  | .lab _ => some s
  | .j _ | .beq .. | .bne .. | .bz .. => none

/-- where a label is -/
def target (P : List Ins) (l : Int) : Option Nat := if .lab l ∈ P then some (P.idxOf (.lab l)) else none

/-- where a jump goes to, and whether it does -/
def jump (s : St) : Ins → Option (Int × Bool)
  | .j l => some (l, true)
  | .beq t u l => some (l, decide (s.get t = s.get u))
  | .bne t u l => some (l, decide (s.get t ≠ s.get u))
  | .bz k t l => some (l, k.holds (s.get t))
  | _ => none

/-- one step of a program from the instruction with the number `pc` -/
def stepP (G : Int → Wd 4) (P : List Ins) (pc : Nat) (s : St) : Option (Nat × St) :=
  match P[pc]? with
  | none => none
  | some i =>
    match jump s i with
    | some (l, true) => (target P l).map (·, s)
    | some (_, false) => some (pc + 1, s)
    | none => (exec G s i).map (pc + 1, ·)

/-- any number of steps -/
inductive Run (G : Int → Wd 4) (P : List Ins) : Nat → St → Nat → St → Prop
  | refl (pc : Nat) (s : St) : Run G P pc s pc s
  | step {pc pc₁ pc₂ : Nat} {s s₁ s₂ : St} : stepP G P pc s = some (pc₁, s₁) → Run G P pc₁ s₁ pc₂ s₂ → Run G P pc s pc₂ s₂

/-- the labels of a program -/
def labs (P : List Ins) : List Int := P.filterMap fun i => match i with
  | .lab l => some l
  | _ => none

end Smlr.Mips
