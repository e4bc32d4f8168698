import Verif.Mips.Machine
set_option autoImplicit false
/-! The code generator for integer expressions of cgmips.c: `GenPrep`, `GenCmp`, `GenExpr0` and what they print.

Left out: function calls (`'('`, `','`, `')'`), so that `CanUseTempRegs` is true; the workarounds `REORDER_WORKAROUND` and `DONT_USE_SEH`, which are off in the source; comments.  `tokNumInt` and `tokNumUint`, which `GenPrep` makes one, are one token here.  `errorInternal` is `none`.  Numbers are integers of which the 32 low bits count (`truncInt`, `truncUint`); in particular `constval++` wraps around. -/
namespace Smlr.Mips
open Smlr.Cg (Ar Cc wd)

/-- tokens of the expression stack (those of the parser are those of the other code generator), and `tokRevIdent`, `tokRevLocalOfs`, `tokAssign0`, `tokNum0`, cgmips.c:1057-1060 -/
inductive Tok
  | t (k : Cg.Tok)
  | revIdent | revLocl | asg0 | num0
  deriving DecidableEq, Repr

abbrev T := Tok × Int

/-! ### Registers -/

/-- cgmips.c:271-322 -/
abbrev V0 : Nat := 2
abbrev T0 : Nat := 8
abbrev TA : Nat := 24
abbrev TB : Nat := 25
abbrev SP : Nat := 29
abbrev FP : Nat := 30
abbrev maxTemps : Nat := 8

/-- `gotUnary`, `TempsUsed`, `GenWreg` -/
structure Gs where
  g : Bool
  t : Nat
  w : Nat
  deriving DecidableEq, Repr

/-- `GenWregInc(1)`, cgmips.c:989-999 -/
def incW (w : Nat) : Nat := if w = V0 then T0 else w + 1

/-- `GenWregInc(-1)`, cgmips.c:1000-1008 -/
def decW (w : Nat) : Nat := if w = T0 then V0 else w - 1

/-- `GenPrintInstr3Operands`, cgmips.c:408-431: adding or subtracting the constant 0 in place is left out -/
def p3 (i : Alu) (d s : Nat) (o : Opd) : List Ins :=
  if o = .imm 0 ∧ (i = .addu ∨ i = .subu) ∧ d = s then [] else [.alu i d s o]

/-- `GenPushReg`, cgmips.c:1010-1030 -/
def push (G : Gs) : List Ins × Gs :=
  if G.t < maxTemps then ([], { G with t := G.t + 1, w := incW G.w })
  else (p3 .subu SP SP (.imm 4) ++ [.store .sw G.w (.ind SP 0)], { G with t := G.t + 1 })

/-- `GenPopReg`, cgmips.c:1032-1055: the code, `GenLreg`, `GenRreg`; there is always something to pop -/
def pop (G : Gs) : Option (List Ins × Nat × Nat × Gs) :=
  match G.t with
  | 0 => none
  | t + 1 =>
    if t < maxTemps then some ([], decW G.w, G.w, { G with t := t, w := decW G.w })
    else some ([.load .lw TA (.ind SP 0)] ++ p3 .addu SP SP (.imm 4), TA, G.w, { G with t := t })

/-! ### Objects -/

/-- the choice of the instruction in `GenReadIdent`, `GenReadLocal`, `GenReadIndirect`, cgmips.c:699-715 -/
def ldI (sz : Int) : Load :=
  if sz = -1 then .lb else if sz = 1 then .lbu else if sz = -2 then .lh else if sz = 2 then .lhu else .lw

/-- the choice of the instruction in `GenWriteIdent`, …, cgmips.c:776-785 -/
def stI (sz : Int) : Store :=
  if sz = -1 ∨ sz = 1 then .sb else if sz = -2 ∨ sz = 2 then .sh else .sw

/-- where an object is: an identifier, a local one, one whose address is in a register -/
inductive Obj
  | ident (x : Int)
  | locl (o : Int)
  | reg (r : Nat)
  deriving DecidableEq, Repr

/-- `GenReadIdent` (with `GenPreIdentAccess`), `GenReadLocal`, `GenReadIndirect`, cgmips.c:682-771 -/
def rd (d : Nat) (sz : Int) : Obj → List Ins
  | .ident x => [.lui x, .load (ldI sz) d (.lo x)]
  | .locl o => [.load (ldI sz) d (.ind FP o)]
  | .reg r => [.load (ldI sz) d (.ind r 0)]

/-- `GenWriteIdent`, `GenWriteLocal`, `GenWriteIndirect`, cgmips.c:773-824 -/
def wr (s : Nat) (sz : Int) : Obj → List Ins
  | .ident x => [.lui x, .store (stI sz) s (.lo x)]
  | .locl o => [.store (stI sz) s (.ind FP o)]
  | .reg r => [.store (stI sz) s (.ind r 0)]

/-- `GenExtendRegIfNeeded`, cgmips.c:433-484 -/
def extend (r : Nat) (sz : Int) : List Ins :=
  if sz = -1 then [.seb r r]
  else if sz = 1 then p3 .and r r (.imm 0xFF)
  else if sz = -2 then [.seh r r]
  else if sz = 2 then p3 .and r r (.imm 0xFFFF)
  else []

/-- `GenIncDecIdent`, `GenIncDecLocal`, `GenIncDecIndirect`, cgmips.c:826-875 -/
def incDec (d : Nat) (sz : Int) (o : Obj) (dec : Bool) : List Ins :=
  let i : Alu := if dec then .subu else .addu
  rd d sz o ++ p3 i d d (.imm 1) ++ wr d sz o ++ extend d sz

/-- `GenPostIncDecIdent`, `GenPostIncDecLocal`, `GenPostIncDecIndirect`, cgmips.c:877-938 -/
def postIncDec (d : Nat) (sz : Int) (o : Obj) (dec : Bool) : List Ins :=
  let i : Alu := if dec then .subu else .addu
  rd d sz o ++ p3 i d d (.imm 1) ++ wr d sz o ++ p3 i d d (.imm (-1)) ++ extend d sz

/-! ### Operators -/

/-- `GenGetBinaryOperatorInstr`, cgmips.c:619-680, without the divisions -/
def aluOf : Ar → Option Alu
  | .add => some .addu
  | .sub => some .subu
  | .band => some .and
  | .xor => some .xor
  | .bor => some .or
  | .mul => some .mul
  | .shl => some .sll
  | .sar => some .sra
  | .shr => some .srl
  | .div | .mod | .udiv | .umod => none

/-- division and modulo, cgmips.c:1787-1810 -/
def divOf (o : Ar) (d l r : Nat) : List Ins :=
  (if o = .div ∨ o = .mod then [.div l r] else [.divu l r]) ++ (if o = .mod ∨ o = .umod then [.mfhi d] else [.mflo d])

/-- an operator on registers -/
def opOf (o : Ar) (d l r : Nat) : List Ins :=
  match aluOf o with
  | some i => p3 i d l (.reg r)
  | none => divOf o d l r

/-- may a number be an immediate operand of the operator?  cgmips.c:1603-1622, 1759-1785 -/
def immOp : Cg.Tok → Bool
  | .ar .add | .ar .sub | .ar .band | .ar .xor | .ar .bor | .ar .shl | .ar .sar | .ar .shr | .cmp _ => true
  | _ => false

/-- is the operator applied to an identifier or a local object without taking its address?  cgmips.c:1624-1656 -/
def objOp : Cg.Tok → Bool
  | .star | .inc | .dec | .pinc | .pdec => true
  | _ => false

def Tok.is (p : Cg.Tok → Bool) : Tok → Bool
  | .t k => p k
  | _ => false

/-! ### Comparisons -/

/-- the blocks of code of which `CmpBlocks` is made, cgmips.c:1311-1381, 1416-1521 -/
inductive Bl
  | a | b | c | d | e | f | g | h | i | j | k | l | m | n | o | p | q | r | s | t
  deriving DecidableEq, Repr

/-- `CmpBlocks`, cgmips.c:1355-1381; `cst`: 0 = zero, 1 = another number, 2 = not a number -/
def blocks (op : Nat) (br : Bool) (cst : Nat) : List Bl :=
  match op, br, cst with
  | 0, false, 0 => [.k] | 0, false, 1 => [.m] | 0, false, _ => [.i]
  | 0, true, 0 => [.f] | 0, true, 1 => [.m, .c] | 0, true, _ => [.i, .c]
  | 1, false, 0 => [.l] | 1, false, 1 => [.n] | 1, false, _ => [.j, .s]
  | 1, true, 0 => [.g] | 1, true, 1 => [.n, .c] | 1, true, _ => [.j, .d]
  | 2, false, 0 => [.o] | 2, false, 1 => [.n, .s] | 2, false, _ => [.j]
  | 2, true, 0 => [.h] | 2, true, 1 => [.n, .d] | 2, true, _ => [.j, .c]
  | 3, false, 0 => [.k, .s] | 3, false, 1 => [.m, .s] | 3, false, _ => [.i, .s]
  | 3, true, 0 => [.e] | 3, true, 1 => [.m, .d] | 3, true, _ => [.i, .d]
  | 4, false, 0 => [.q] | 4, false, 1 => [.t, .q] | 4, false, _ => [.r, .q]
  | 4, true, 0 => [.d] | 4, true, 1 => [.t, .d] | 4, true, _ => [.b]
  | _, false, 0 => [.p] | _, false, 1 => [.t, .p] | _, false, _ => [.r, .p]
  | _, true, 0 => [.c] | _, true, 1 => [.t, .c] | _, true, _ => [.a]

/-- the second argument of `GenCmp` without the bit for unsigned comparisons, and that bit, cgmips.c:2058-2067 -/
def cmpOp : Cc → Nat × Bool
  | .lt => (0, false) | .le => (1, false) | .gt => (2, false) | .ge => (3, false)
  | .ult => (0, true) | .ule => (1, true) | .ugt => (2, true) | .uge => (3, true)
  | .eq => (4, false) | .ne => (5, false)

/-- The body of the loop of `GenCmp`, cgmips.c:1414-1522.  `tr`: branch if true (`condbranch == 1`); the blocks that change `condbranch` or `constval` are the last to use it. -/
def block (slt : Alu) (w L R : Nat) (cv : Int) (tr : Bool) (lab : Int) : Bl → List Ins
  | .a => if tr then [.bne L R lab] else [.beq L R lab]
  | .b => if tr then [.beq L R lab] else [.bne L R lab]
  | .c => if tr then [.bne w 0 lab] else [.beq w 0 lab]
  | .d => if tr then [.beq w 0 lab] else [.bne w 0 lab]
  | .e => if tr then [.bz .gez w lab] else [.bz .ltz w lab]
  | .f => if tr then [.bz .ltz w lab] else [.bz .gez w lab]
  | .g => if tr then [.bz .lez w lab] else [.bz .gtz w lab]
  | .h => if tr then [.bz .gtz w lab] else [.bz .lez w lab]
  | .i => p3 slt w L (.reg R)
  | .j => p3 slt w R (.reg L)
  | .k => p3 slt w w (.reg 0)
  | .l => p3 slt w w (.imm 1)
  | .m => p3 slt w w (.imm cv)
  | .n => p3 slt w w (.imm (cv + 1))
  | .o => p3 slt w 0 (.reg w)
  | .p => p3 .sltu w 0 (.reg w)
  | .q => p3 .sltu w w (.imm 1)
  | .r => p3 .xor w L (.reg R)
  | .s => p3 .xor w w (.imm 1)
  | .t => p3 .xor w w (.imm cv)

/-- the same: `cst` as for `blocks`, `cv` is `constval` -/
def cmpWith (c : Cc) (w L R : Nat) (cst : Nat) (cv : Int) (br : Option (Bool × Int)) : List Ins :=
  let slt : Alu := if (cmpOp c).2 then .sltu else .slt
  let special : Bool := br.isSome && (cmpOp c).1 < 4 && cst == 0 && (cmpOp c).2
  let op := if special && (cmpOp c).1 == 2 then 5 else (cmpOp c).1
  let cst := if special && !((cmpOp c).1 == 2) then 1 else cst
  (blocks op br.isSome cst).flatMap (block slt w L R cv (br.getD (false, 0)).1 (br.getD (false, 0)).2)

/-- the code of `GenCmp` after `GenPopReg`, cgmips.c:1383-1525: `num`: the right operand, if it is a number; `br`: the branch that follows, and whether it is taken if the comparison holds -/
def cmpCode (c : Cc) (w L R : Nat) (num : Option Int) (br : Option (Bool × Int)) : List Ins :=
  match num with
  | some v => if v = 0 then cmpWith c w L R 0 0 br else cmpWith c w L R 1 v br
  | none => cmpWith c w L R 2 0 br

/-! ### `GenExpr0` -/

/-- the object that an operator is applied to: `tokIdent`, `tokLocalOfs`, or the address in a register -/
def objOf (prev : T) (r : Nat) : Obj :=
  match prev with
  | (.t .ident, x) => .ident x
  | (.t .locl, o) => .locl o
  | _ => .reg r

/-- an assigned object that was moved behind the right operand by `GenPrep` -/
def revOf : T → Option Obj
  | (.revIdent, x) => some (.ident x)
  | (.revLocl, o) => some (.locl o)
  | _ => none

/-- `tokInc`, `tokDec`, `tokPostInc`, `tokPostDec`, cgmips.c:1812-1847: an address in a register is moved to `TEMP_REG_A` first -/
def incOf (prev : T) (w : Nat) (code : Obj → List Ins) : List Ins :=
  match objOf prev w with
  | .reg r => .move TA r :: code (.reg TA)
  | o => code o

/-- `tokPostAdd`, `tokPostSub`, cgmips.c:1849-1882 -/
def postOf (i : Alu) (w L R : Nat) (sz : Int) : List Ins :=
  if w = L then [.move TB L] ++ rd w sz (.reg TB) ++ p3 i TA w (.reg R) ++ wr TA sz (.reg TB)
  else [.move TB R] ++ rd w sz (.reg L) ++ p3 i TB w (.reg TB) ++ wr TB sz (.reg L)

/-- compound assignment to an object whose address is in a register, cgmips.c:1884-2020 -/
def asgoOf (o : Ar) (w L R : Nat) (sz : Int) : List Ins :=
  if w = L then [.move TB L] ++ rd w sz (.reg L) ++ opOf o w w R ++ wr w sz (.reg TB)
  else [.move TB R] ++ rd w sz (.reg L) ++ opOf o w w TB ++ wr w sz (.reg L)

/-- `condbranch` and `label` of `GenCmp`: the branch that follows a comparison, and whether it is taken if the comparison holds, cgmips.c:1389-1393 -/
def brOf : Option T → Option (Bool × Int)
  | some (.t .ifT, l) => some (true, l)
  | some (.t .ifN, l) => some (false, l)
  | _ => none

/-- the body of the loop of `GenExpr0` for one element, cgmips.c:1575-2168: the code, the state after it, and whether the next element has been used up (by `GenCmp`).  `prev` and `next` are the elements before and after. -/
def step (G : Gs) (prev : T) (next : Option T) (x : T) : Option (List Ins × Gs × Bool) :=
  let v := x.2
  let leaf (hidden : Bool) (pushes : Bool) (code : Nat → List Ins) : Option (List Ins × Gs × Bool) :=
    let q := if G.g && pushes then push G else ([], G)
    some (q.1 ++ (if hidden then [] else code q.2.w), { q.2 with g := true }, false)
  match x.1 with
  | .num0 | .revIdent | .revLocl => some ([], G, false)
  | .asg0 => some (wr 0 v ((revOf prev).getD (.reg G.w)), G, false)
  | .t .num =>
    let hidden := (next.map (·.1.is immOp)).getD false
    leaf hidden (!hidden) fun w => [.li w v]
  | .t .ident => leaf ((next.map (·.1.is objOp)).getD false) true fun w => [.la w v]
  | .t .locl => leaf ((next.map (·.1.is objOp)).getD false) true fun w => p3 .addu w FP (.imm v)
  | .t .star => some (rd G.w v (objOf prev G.w), G, false)
  | .t .uplus => some ([], G, false)
  | .t .not => some (p3 .nor G.w G.w (.reg G.w), G, false)
  | .t .neg => some (p3 .subu G.w 0 (.reg G.w), G, false)
  | .t (.ar o) =>
    if prev.1 = .t .num ∧ immOp (.ar o) = true then
      (aluOf o).map fun i => (p3 i G.w G.w (.imm prev.2), G, false)
    else (pop G).map fun (c, L, R, G') => (c ++ opOf o G'.w L R, G', false)
  | .t .inc => some (incOf prev G.w (incDec G.w v · false), G, false)
  | .t .dec => some (incOf prev G.w (incDec G.w v · true), G, false)
  | .t .pinc => some (incOf prev G.w (postIncDec G.w v · false), G, false)
  | .t .pdec => some (incOf prev G.w (postIncDec G.w v · true), G, false)
  | .t .padd => (pop G).map fun (c, L, R, G') => (c ++ postOf .addu G'.w L R v, G', false)
  | .t .psub => (pop G).map fun (c, L, R, G') => (c ++ postOf .subu G'.w L R v, G', false)
  | .t (.asgo o) =>
    match revOf prev with
    | some ob => some (rd TB v ob ++ opOf o G.w TB G.w ++ wr G.w v ob ++ extend G.w v, G, false)
    | none => (pop G).map fun (c, L, R, G') => (c ++ asgoOf o G'.w L R v ++ extend G'.w v, G', false)
  | .t .asg =>
    match revOf prev with
    | some ob => some (wr G.w v ob ++ extend G.w v, G, false)
    | none => (pop G).map fun (c, L, R, G') =>
      (c ++ wr R v (.reg L) ++ (if G'.w = R then [] else [.move G'.w R]) ++ extend G'.w v, G', false)
  | .t (.cmp c) =>
    if prev.1 = .t .num then some (cmpCode c G.w 0 0 (some prev.2) (brOf next), G, (brOf next).isSome)
    else (pop G).map fun (k, L, R, G') => (k ++ cmpCode c G'.w L R none (brOf next), G', (brOf next).isSome)
  | .t .bool => some (p3 .sltu G.w 0 (.reg G.w), G, false)
  | .t .schar => some ([.seb G.w G.w], G, false)
  | .t .uchar => some (p3 .and G.w G.w (.imm 0xFF), G, false)
  | .t .tshort => some ([.seh G.w G.w], G, false)
  | .t .tushort => some (p3 .and G.w G.w (.imm 0xFFFF), G, false)
  | .t .short => some (if v ≥ 0 then [.beq G.w 0 v] else [.bne G.w 0 (-v)], { G with g := false }, false)
  | .t .goto => some ([.j v], { G with g := false }, false)
  | .t .logAnd | .t .logOr => some ([.lab v], G, false)
  | .t .void => some ([], { G with g := false }, false)
  | .t .comma | .t .ret => some ([], G, false)
  | .t .ifT => some ([.bne G.w 0 v], G, false)
  | .t .ifN => some ([.beq G.w 0 v], G, false)
  | _ => none

/-- the loop of `GenExpr0`, cgmips.c:1559-2173; `skip`: the element has been used up -/
def gen (skip : Bool) (G : Gs) (prev : T) : List T → Option (List Ins)
  | [] => if G.w = V0 then some [] else none
  | x :: r =>
    if skip then gen false G x r
    else (step G prev r.head? x).bind fun q => (gen q.2.2 q.2.1 x r).map (q.1 ++ ·)

/-! ### `GenPrep` -/

/-- the numbers `m` with `m && !(m & (m - 1))`, and how many times they can be halved (`while (m >>= 1) t1++`) -/
def pow2 (v : Int) : Option Nat :=
  let m := (wd 4 v).toNat
  if m ≠ 0 ∧ m &&& (m - 1) = 0 then some m.log2 else none

def truncU (v : Int) : Nat := (wd 4 v).toNat

/-- the first `switch`, cgmips.c:1072-1103: a division by a power of two becomes a shift, a modulo becomes a bitwise and; the operator and the last element of its right operand -/
def prep1 (k : Cg.Tok) (x : Cg.T) : Cg.Tok × Cg.T :=
  if x.1 = .num then
    match pow2 x.2 with
    | some n =>
      match k with
      | .ar .udiv => (.ar .shr, (x.1, n))
      | .ar .umod => (.ar .band, (x.1, (truncU x.2 : Int) - 1))
      | .asgo .udiv => (.asgo .shr, (x.1, n))
      | .asgo .umod => (.asgo .band, (x.1, (truncU x.2 : Int) - 1))
      | _ => (k, x)
    | none => (k, x)
  else (k, x)

/-- the same, with the elements before the operator from the last to the first -/
def first (k : Cg.Tok) : List Cg.T → Cg.Tok × List Cg.T
  | [] => (k, [])
  | x :: r => ((prep1 k x).1, (prep1 k x).2 :: r)

/-- the comparison with the operands exchanged, cgmips.c:1211-1237 -/
def mirror : Cg.Tok → Cg.Tok
  | .cmp .lt => .cmp .gt | .cmp .gt => .cmp .lt
  | .cmp .le => .cmp .ge | .cmp .ge => .cmp .le
  | .cmp .ult => .cmp .ugt | .cmp .ugt => .cmp .ult
  | .cmp .ule => .cmp .uge | .cmp .uge => .cmp .ule
  | k => k

/-- the operators with a number on the right that are changed, cgmips.c:1238-1291: the operator and the number -/
def special (k : Cg.Tok) (v : Int) : Cg.Tok × Int :=
  match k with
  | .ar .mul => match pow2 v with
    | some n => (.ar .shl, n)
    | none => (k, v)
  | .cmp .le => if truncU v = 0x7FFFFFFF then (.cmp .uge, 0) else (k, v)
  | .cmp .ule => if truncU v = 0xFFFFFFFF then (.cmp .uge, 0) else (k, v)
  | .cmp .gt => if truncU v = 0x7FFFFFFF then (.ar .band, 0) else (k, v)
  | .cmp .ugt => if truncU v = 0xFFFFFFFF then (.ar .band, 0) else (k, v)
  | _ => (k, v)

/-- the end of an operator whose right operand ends with the element `x`; `a` are the elements before -/
def fin (k : Cg.Tok) (v : Int) (a : List T) : T → List T
  | (.t .num, n) => a ++ [(.t .num, (special k n).2), (.t (special k n).1, v)]
  | x => a ++ [x, (.t k, v)]

/-- the second part of the case of `+` and so on, cgmips.c:1188-1293: `l` and `r` are the elements of the operands; a number on the left goes behind a right operand that is not one -/
def swapped (k : Cg.Tok) (v : Int) (l r : List T) : List T :=
  match l.getLast?, r.getLast? with
  | some (.t .num, n), some x =>
    if x.1 = .t .num then fin k v (l ++ r.dropLast) x else fin (mirror k) v (l.dropLast ++ r) (.t .num, n)
  | _, some x => fin k v (l ++ r.dropLast) x
  | _, none => l ++ r ++ [(.t k, v)]

/-- which of the cases of the second `switch` an operator belongs to -/
inductive Kind
  | leaf | one | two | asg | comm | bad
  deriving DecidableEq, Repr

/-- cgmips.c:1105-1202 -/
def kind : Cg.Tok → Kind
  | .num | .ident | .locl => .leaf
  | .padd | .psub | .ar .sub | .ar .div | .ar .mod | .ar .udiv | .ar .umod | .ar .shl | .ar .sar | .ar .shr | .logAnd | .logOr | .comma => .two
  | .short | .goto | .star | .inc | .dec | .pinc | .pdec | .not | .uplus | .neg | .bool | .void | .uchar | .schar | .tshort | .tushort => .one
  | .asg | .asgo _ => .asg
  | .ar .add | .ar .mul | .ar .band | .ar .xor | .ar .bor | .cmp _ => .comm
  | _ => .bad

/-- a left operand that is an identifier or a local object goes behind the right operand, cgmips.c:1177-1185 -/
def revd (k : Tok) (v : Int) (l r : List T) : List T :=
  match l.getLast? with
  | some (.t .ident, x) => l.dropLast ++ r ++ [(.revIdent, x), (k, v)]
  | some (.t .locl, o) => l.dropLast ++ r ++ [(.revLocl, o), (k, v)]
  | _ => l ++ r ++ [(k, v)]

/-- `GenPrep`, cgmips.c:1062-1309.  The elements before `*idx` (included) are given from the last to the first; the result is what becomes of the elements that belong to the operand, and the elements before it.  `top`: is `*idx` equal to `sp - 1`?  The number of calls is bounded by the first argument. -/
def prep : Nat → Bool → List Cg.T → Option (List T × List Cg.T)
  | 0, _, _ => none
  | _, _, [] => none
  | f + 1, top, (k, v) :: rest =>
    match first k rest with
    | (k, rest) =>
    match kind k with
    | .leaf => some ([(.t k, v)], rest)
    | .one => (prep f false rest).map fun (l, rest) => (l ++ [(.t k, v)], rest)
    | .two => (prep f false rest).bind fun (r, rest) => (prep f false rest).map fun (l, rest) => (l ++ r ++ [(.t k, v)], rest)
    | .comm => (prep f false rest).bind fun (r, rest) => (prep f false rest).map fun (l, rest) => (swapped k v l r, rest)
    | .asg =>
      match k, top, rest with
      | .asg, true, (.num, n) :: rest' =>
        if truncU n = 0 then (prep f false rest').map fun (l, rest) => (revd .asg0 v l [(.num0, n)], rest)
        else (prep f false rest).bind fun (r, rest) => (prep f false rest).map fun (l, rest) => (revd (.t k) v l r, rest)
      | _, _, _ => (prep f false rest).bind fun (r, rest) => (prep f false rest).map fun (l, rest) => (revd (.t k) v l r, rest)
    | .bad => none

/-- `GenExpr0`: `tokIf`, `tokIfNot`, `tokReturn` at the end are not given to `GenPrep`, cgmips.c:1545-1557 -/
def genExpr (s : List Cg.T) : Option (List Ins) :=
  match s.reverse with
  | (k, v) :: r =>
    if k = .ifT ∨ k = .ifN ∨ k = .ret then
      (prep (s.length + 1) false r).bind fun q => gen false ⟨false, 0, V0⟩ (.t .ret, 0) (q.1 ++ [(.t k, v)])
    else (prep (s.length + 1) true ((k, v) :: r)).bind fun q => gen false ⟨false, 0, V0⟩ (.t .ret, 0) q.1
  | [] => none

/-- the code that jumps to a label if the value of an expression is not zero (`nz`) or is zero: as for the other code generator, smlrc.c:9015-9051, 9121-9158, 9201-9237, 9330-9366; `GenJumpIfZero`, `GenJumpIfNotZero`, cgmips.c:507-529 -/
def branch (e : Cg.E) (nz : Bool) (lab : Int) : Option (List Ins) :=
  if e.isCmp then genExpr (Cg.toks e ++ [(if nz then .ifT else .ifN, lab)])
  else (genExpr (Cg.toks e ++ [(.ret, 0)])).map (· ++ [if nz then .bne V0 0 lab else .beq V0 0 lab])

end Smlr.Mips
