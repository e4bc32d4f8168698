import Verif.Cg.Machine
set_option autoImplicit false
/-! The code generator for integer expressions of cgx86.c: `GetOperandInfo`, `GenFuse`, `GenExpr1` and what they print.

The stack of the code is the list of its elements, `stack[i][0]` and `stack[i][1]` being the two components; `sp` is the length of the list.  `tokNumInt` and `tokNumUint` (and `tokOpNumInt` and `tokOpNumUint`) share all their cases and are one token here.  Function calls (`'('`, `','`, `')'`) are left out, as are the output formats "huge" and "unreal", whose addresses are not plain numbers. `errorInternal` is `none`; running out of `STACK_SIZE` elements, which aborts the compilation, is not modelled. -/
namespace Smlr.Cg

/-- tokens of the expression stack (smlrc.c:215-330) and of the fused one (cgx86.c:1306-1317) -/
inductive Tok
  | num | ident | locl
  | short | goto
  | star | inc | dec | pinc | pdec
  | not | uplus | neg | bool | void | uchar | schar | tshort | tushort
  | padd | psub
  | asg | asgo (o : Ar) | ar (o : Ar) | cmp (c : Cc)
  | logAnd | logOr | comma
  | opNum | opIdent | opLoc | opAcc | opIIdent | opILoc | opIAcc | opStk | opIStk
  | push
  | ifT | ifN | ret
  deriving DecidableEq, Repr

abbrev T := Tok × Int

/-- `stack[i]` -/
def get (s : List T) (i : Int) : Option T := if i < 0 then none else s[i.toNat]?

def len (s : List T) : Int := s.length

/-- `ins2`, smlrc.c:2427-2437 -/
def ins (s : List T) (pos : Int) (t : T) : List T := s.take pos.toNat ++ t :: s.drop pos.toNat

/-- `del`, smlrc.c:2445-2452 -/
def del (s : List T) (pos cnt : Int) : List T := s.take pos.toNat ++ s.drop (pos + cnt).toNat

/-- `stack[pos] = t` -/
def put (s : List T) (pos : Int) (t : T) : List T := s.set pos.toNat t

/-- between `tokOpNumInt` and `tokOpIndAcc` -/
def Tok.isOp : Tok → Bool
  | .opNum | .opIdent | .opLoc | .opAcc | .opIIdent | .opILoc | .opIAcc => true
  | _ => false

/-- cgx86.c:1326-1327 -/
def skipOps (s : List T) : Nat → Int
  | 0 => if (s[0]?.map (·.1.isOp)).getD false then -1 else 0
  | n + 1 => if (s[n + 1]?.map (·.1.isOp)).getD false then skipOps s n else (n + 1 : Nat)

/-- `+ tokOpIndIdent - tokOpIdent`, cgx86.c:1345 -/
def Tok.addInd : Tok → Option Tok
  | .opIdent => some .opIIdent
  | .opLoc => some .opILoc
  | .opAcc => some .opIAcc
  | _ => none

/-- the results of `GetOperandInfo` -/
structure Info where
  typ : Tok
  val : Int
  size : Int
  delDeref : Bool
  deriving DecidableEq, Repr

/-- `GetOperandInfo`, cgx86.c:1319-1402 -/
def operandInfo (W : Nat) (s : List T) (idx0 : Int) (lvalSize : Int) : Option Info :=
  if idx0 < 0 then none else
  let idx := skipOps s idx0.toNat
  match get s idx with
  | some (.star, sz) =>
    if lvalSize ≠ 0 then some ⟨.opIAcc, 0, lvalSize, false⟩
    else (get s (idx + 1)).bind fun t => t.1.addInd.map fun k => ⟨k, t.2, sz, true⟩
  | _ =>
    (get s idx0).map fun t =>
      if lvalSize ≠ 0 then
        match t.1 with
        | .ident => ⟨.opIIdent, t.2, lvalSize, false⟩
        | .locl => ⟨.opILoc, t.2, lvalSize, false⟩
        | _ => ⟨.opIAcc, 0, lvalSize, false⟩
      else
        match t.1 with
        | .num => ⟨.opNum, t.2, W, false⟩
        | .ident => ⟨.opIdent, t.2, W, false⟩
        | .locl => ⟨.opLoc, t.2, W, false⟩
        | _ => ⟨.opAcc, 0, W, false⟩

def Tok.isAcc : Tok → Bool
  | .opAcc | .opIAcc => true
  | _ => false

/-- the cases of `tokUnaryStar` (1440-1468) and of `++` and `--` (1470-1501) after the operand has been fused; `ind` tells the second ones; `i` is `oldIdxRight` -/
def fuseUn (ind : Bool) (tok : Tok) (sz : Int) (s : List T) (i : Int) : Option (List T) :=
  (get s i).map fun t =>
    match t.1 with
    | .ident => put (put s (i + 1) (if ind then .opIIdent else .opIdent, t.2)) i (tok, sz)
    | .locl => put (put s (i + 1) (if ind then .opILoc else .opLoc, t.2)) i (tok, sz)
    | _ => ins s (i + 2) (if ind then .opIAcc else .opAcc, 0)

/-- `tokPostAdd` and `tokPostSub` after the operand has been fused, 1520-1555 -/
def fusePost (tok : Tok) (sz num : Int) (s : List T) (i : Int) : Option (List T) :=
  (get s i).map fun t =>
    match t.1 with
    | .ident => put (put (put s (i + 2) (.opNum, num)) (i + 1) (.opIIdent, t.2)) i (tok, sz)
    | .locl => put (put (put s (i + 2) (.opNum, num)) (i + 1) (.opILoc, t.2)) i (tok, sz)
    | _ => ins (put (put s (i + 1) (tok, sz)) (i + 2) (.opIAcc, 0)) (i + 3) (.opNum, num)

/-- the left operand of a binary operator, 1704-1736: the stack, `oldIdxLeft`, `oldIdxRight` and `opTypLeft`; `idx` is `*idx` -/
def fuseLeft (s : List T) (idx iL iR : Int) (L R : Info) : List T × Int × Int × Tok :=
  if !L.typ.isAcc then
    let cnt := iL - idx
    (del s (idx + 1) cnt, iL - cnt, iR - cnt, L.typ)
  else if R.typ.isAcc then
    let iL := iL + 1
    let s := ins s iL (.push, 0)
    let iR := iR + 1
    let tL := if L.typ = .opAcc then .opStk else .opIStk
    if L.delDeref then (del s (iL - 2) 2, iL - 2, iR - 2, tL) else (s, iL, iR, tL)
  else if L.delDeref then (del s (iL - 1) 2, iL - 2, iR - 2, L.typ)
  else (s, iL, iR, L.typ)

/-- the right operand, 1738-1750: the stack and `oldIdxRight` -/
def fuseRight (s : List T) (iL iR : Int) (R : Info) : List T × Int :=
  if !R.typ.isAcc then
    let cnt := iR - iL
    (del s (iL + 1) cnt, iR - cnt)
  else if R.delDeref then (del s (iR - 1) 2, iR - 2)
  else (s, iR)

/-- the end of the case of binary operators, 1704-1758 -/
def fuseBin (tok : Tok) (s : List T) (idx iL iR : Int) (L R : Info) : List T :=
  let l := fuseLeft s idx iL iR L R
  let r := fuseRight l.1 l.2.1 l.2.2.1 R
  let s := put r.1 (r.2 + 1) (tok, (L.size + 8) * 16 + (R.size + 8))
  let s := ins s (r.2 + 2) (R.typ, R.val)
  ins s (r.2 + 2) (l.2.2.2, L.val)

/-- `GenFuse`, cgx86.c:1404-1774: the stack and `*idx`; the first argument bounds the depth of the recursion -/
def fuse (W : Nat) : Nat → List T → Int → Option (List T × Int)
  | 0, _, _ => none
  | f + 1, s, idx =>
    (get s idx).bind fun t =>
    let idx := idx - 1
    match t.1 with
    | .num | .ident | .locl => some (s, idx)
    | .short | .goto => fuse W f s idx
    | .star =>
      (fuse W f s idx).bind fun r => (fuseUn false t.1 t.2 r.1 (idx - (len s - len r.1))).map (·, r.2)
    | .inc | .dec | .pinc | .pdec =>
      (fuse W f s idx).bind fun r => (fuseUn true t.1 t.2 r.1 (idx - (len s - len r.1))).map (·, r.2)
    | .not | .neg | .bool | .void | .uchar | .schar | .tshort | .tushort => fuse W f s idx
    | .uplus =>
      (fuse W f s idx).bind fun r => some (del r.1 (idx - (len s - len r.1) + 1) 1, r.2)
    | .padd | .psub =>
      (get s idx).bind fun n =>
      let idx := idx - 1
      (fuse W f s idx).bind fun r => (fusePost t.1 t.2 n.2 r.1 (idx - (len s - len r.1))).map (·, r.2)
    | .asg | .asgo _ | .ar _ | .cmp _ | .logAnd | .logOr | .comma =>
      let lvalSize := match t.1 with
        | .asg | .asgo _ => t.2
        | _ => 0
      (fuse W f s idx).bind fun r =>
      let iR := idx - (len s - len r.1)
      (operandInfo W r.1 iR 0).bind fun R =>
      let iL := r.2
      (fuse W f r.1 iL).bind fun l =>
      let iR := iR - (len r.1 - len l.1)
      let iL := iL - (len r.1 - len l.1)
      (operandInfo W l.1 iL lvalSize).bind fun L =>
      match t.1 with
      | .logAnd | .logOr | .comma => some (l.1, l.2)
      | _ => some (fuseBin t.1 l.1 l.2 iL iR L R, l.2)
    | _ => none

/-! ### Printing of instructions -/

/-- `truncUint`, smlrc.c:686-696 -/
def truncUint (W : Nat) (v : Int) : Int := v % 2 ^ (8 * W)

/-- `GenPrintInstr2Operands`, cgx86.c:684-748, without "huge" and "unreal" -/
def p2 (W : Nat) (i : I2) (d t : Opd) : List Ins :=
  match t with
  | .imm v =>
    if i = .add ∨ i = .sub then
      if truncUint W v = 0 then []
      else if v = 1 ∨ v = -1 then
        if (v = 1 ∧ i = .add) ∨ (v = -1 ∧ i = .sub) then [.i1 .inc d] else [.i1 .dec d]
      else [.i2 i d t]
    else [.i2 i d t]
  | _ => [.i2 i d t]

/-- `GenSelectByteOrWord(X86OpRegAByteOrWord, opSz)`, cgx86.c:496-509 -/
def selA (W : Nat) (sz : Int) : Opd :=
  if sz = W then .ax else if sz = 2 ∨ sz = -2 then .axh else .al

/-- `GenSelectByteOrWord(X86OpInd…ExplicitByteOrWord, opSz)`, cgx86.c:520-545 -/
def selM (W : Nat) (a : Adr) (sz : Int) : Opd :=
  if sz = W then .mem a (some W) else if sz = 2 ∨ sz = -2 then .mem a (some 2) else .mem a (some 1)

/-- `GenExtendRegAIfNeeded`, cgx86.c:765-798 -/
def extendA (W : Nat) (sz : Int) : List Ins :=
  if W = 2 then
    if sz = -1 then [.i0 .cbw]
    else if sz = 1 then p2 W .mov .ah (.imm 0)
    else []
  else
    if sz = -1 then p2 W .movsx .ax .al
    else if sz = 1 then p2 W .movzx .ax .al
    else if sz = -2 then p2 W .movsx .ax .axh
    else if sz = 2 then p2 W .movzx .ax .axh
    else []

/-- `GenReadIdent`, `GenReadLocal` and the end of `GenReadIndirect`, cgx86.c:1012-1043 -/
def readA (W : Nat) (sz : Int) (a : Adr) : List Ins :=
  p2 W .mov (selA W sz) (.mem a none) ++ extendA W sz

/-- `GenReadIndirect`, cgx86.c:1030-1043 -/
def readInd (W : Nat) (sz : Int) : List Ins := p2 W .mov .bx .ax ++ readA W sz .bx

/-- `GenReadCRegIdent`, `GenReadCRegLocal` and the end of `GenReadCRegIndirect`, cgx86.c:1045-1140 -/
def readC (W : Nat) (sz : Int) (a : Adr) : List Ins :=
  if sz = -1 then p2 W .movsx .cx (.mem a (some 1))
  else if sz = 1 then p2 W .movzx .cx (.mem a (some 1))
  else if sz ≠ W ∧ -sz ≠ W then
    if sz = -2 then p2 W .movsx .cx (.mem a (some 2))
    else if sz = 2 then p2 W .movzx .cx (.mem a (some 2))
    else []
  else p2 W .mov .cx (.mem a none)

/-- `GenReadCRegIndirect`, cgx86.c:1105-1140 -/
def readCInd (W : Nat) (sz : Int) : List Ins := p2 W .mov .bx .ax ++ readC W sz .bx

/-- `GenIncDecIdent`, `GenIncDecLocal` and the end of `GenIncDecIndirect`, cgx86.c:1141-1193 -/
def incDec (W : Nat) (dec : Bool) (sz : Int) (a : Adr) : List Ins :=
  .i1 (if dec then .dec else .inc) (selM W a sz) :: (p2 W .mov (selA W sz) (.mem a none) ++ extendA W sz)

/-- `GenPostIncDecIdent`, `GenPostIncDecLocal` and the end of `GenPostIncDecIndirect`, cgx86.c:1195-1247 -/
def postIncDec (W : Nat) (dec : Bool) (sz : Int) (a : Adr) : List Ins :=
  p2 W .mov (selA W sz) (.mem a none) ++ extendA W sz ++ [.i1 (if dec then .dec else .inc) (selM W a sz)]

/-- `GenPostAddSubIdent`, `GenPostAddSubLocal` and the end of `GenPostAddSubIndirect`, cgx86.c:1249-1304 -/
def postAddSub (W : Nat) (sub : Bool) (sz n : Int) (a : Adr) : List Ins :=
  p2 W .mov (selA W sz) (.mem a none) ++ extendA W sz ++ p2 W (if sub then .sub else .add) (selM W a sz) (.imm n)

/-- a fused operand that is a place in memory: its address, and whether it has to be moved from `ax` to `bx` first -/
def Tok.place (t : T) : Option (Adr × Bool) :=
  match t.1 with
  | .opIdent | .opIIdent => some (.lab t.2, false)
  | .opLoc | .opILoc => some (.loc t.2, false)
  | .opAcc | .opIAcc => some (.bx, true)
  | _ => none

/-- `mov bx, ax` for the `…Indirect` functions -/
def toB (W : Nat) (b : Bool) : List Ins := if b then p2 W .mov .bx .ax else []

/-- cases `tokUnaryStar` … `tokPostSub` of `GenExpr1`, cgx86.c:2092-2161; the operands of the switches that are not listed there print nothing -/
def genUn (W : Nat) (tok : Tok) (sz : Int) (t : T) (n : Int) : List Ins :=
  match Tok.place t with
  | none => []
  | some (a, b) =>
    toB W b ++ match tok with
      | .star => readA W sz a
      | .inc => incDec W false sz a
      | .dec => incDec W true sz a
      | .pinc => postIncDec W false sz a
      | .pdec => postIncDec W true sz a
      | .padd => postAddSub W false sz n a
      | .psub => postAddSub W true sz n a
      | _ => []

/-- "load the left operand into ax", cgx86.c:2229-2273 -/
def loadA (W : Nat) (sz : Int) (t : T) : List Ins :=
  match t.1 with
  | .opNum => p2 W .mov .ax (.imm t.2)
  | .opIdent => p2 W .mov .ax (.lab t.2)
  | .opLoc => p2 W .lea .ax (.mem (.loc t.2) none)
  | .opIIdent => readA W sz (.lab t.2)
  | .opILoc => readA W sz (.loc t.2)
  | .opIAcc => readInd W sz
  | .opStk => [.i1 .pop .ax]
  | .opIStk => .i1 .pop .bx :: readA W sz .bx
  | _ => []

/-- the first group of operators, cgx86.c:2289-2369 -/
def alu (W : Nat) (i : I2) (sz : Int) (t : T) : List Ins :=
  match t.1 with
  | .opNum => p2 W i .ax (.imm t.2)
  | .opIdent => p2 W i .ax (.lab t.2)
  | .opLoc => p2 W .lea .cx (.mem (.loc t.2) none) ++ p2 W i .ax .cx
  | .opAcc | .opIAcc => p2 W i .ax .cx
  | .opIIdent => if sz ≠ W then readC W sz (.lab t.2) ++ p2 W i .ax .cx else p2 W i .ax (.mem (.lab t.2) none)
  | .opILoc => if sz ≠ W then readC W sz (.loc t.2) ++ p2 W i .ax .cx else p2 W i .ax (.mem (.loc t.2) none)
  | _ => []

/-- multiplication, cgx86.c:2423-2482 -/
def mulA (W : Nat) (sz : Int) (t : T) : List Ins :=
  match t.1 with
  | .opNum => [.imul3 .ax .ax (.imm t.2)]
  | .opIdent => [.imul3 .ax .ax (.lab t.2)]
  | .opLoc => p2 W .lea .cx (.mem (.loc t.2) none) ++ [.i1 .mul .cx]
  | .opAcc | .opIAcc => [.i1 .mul .cx]
  | .opIIdent => if sz ≠ W then readC W sz (.lab t.2) ++ [.i1 .mul .cx] else [.i1 .mul (.mem (.lab t.2) (some W))]
  | .opILoc => if sz ≠ W then readC W sz (.loc t.2) ++ [.i1 .mul .cx] else [.i1 .mul (.mem (.loc t.2) (some W))]
  | _ => []

/-- division, cgx86.c:2484-2576: `sgn` for the signed operators, `md` for the remainders -/
def divA (W : Nat) (sgn md : Bool) (sz : Int) (t : T) : List Ins :=
  let i : I1 := if sgn then .idiv else .div
  (if sgn then (if W = 2 then [.i0 .cwd] else [.i0 .cdq]) else p2 W .mov .dx (.imm 0)) ++
  (match t.1 with
  | .opNum => p2 W .mov .cx (.imm t.2) ++ [.i1 i .cx]
  | .opIdent => p2 W .mov .cx (.lab t.2) ++ [.i1 i .cx]
  | .opLoc => p2 W .lea .cx (.mem (.loc t.2) none) ++ [.i1 i .cx]
  | .opAcc | .opIAcc => [.i1 i .cx]
  | .opIIdent => if sz ≠ W then readC W sz (.lab t.2) ++ [.i1 i .cx] else [.i1 i (.mem (.lab t.2) (some W))]
  | .opILoc => if sz ≠ W then readC W sz (.loc t.2) ++ [.i1 i .cx] else [.i1 i (.mem (.loc t.2) (some W))]
  | _ => []) ++
  (if md then p2 W .mov .ax .dx else [])

/-- shifts, cgx86.c:2578-2631 -/
def shiftA (W : Nat) (i : I2) (t : T) : List Ins :=
  match t.1 with
  | .opNum => p2 W i .ax (.imm t.2)
  | .opIdent => p2 W i .ax (.lab t.2)
  | .opLoc => p2 W .lea .cx (.mem (.loc t.2) none) ++ p2 W i .ax .cl
  | .opAcc | .opIAcc => p2 W i .ax .cl
  | .opIIdent => p2 W .mov .cl (.mem (.lab t.2) none) ++ p2 W i .ax .cl
  | .opILoc => p2 W .mov .cl (.mem (.loc t.2) none) ++ p2 W i .ax .cl
  | _ => []

/-- the operator itself, cgx86.c:2286-2640 -/
def operA (W : Nat) (o : Ar) (sz : Int) (t : T) : List Ins :=
  match o with
  | .add => alu W .add sz t
  | .sub => alu W .sub sz t
  | .band => alu W .band sz t
  | .xor => alu W .xor sz t
  | .bor => alu W .bor sz t
  | .mul => mulA W sz t
  | .div => divA W true false sz t
  | .mod => divA W true true sz t
  | .udiv => divA W false false sz t
  | .umod => divA W false true sz t
  | .shl => shiftA W .shl t
  | .sar => shiftA W .sar t
  | .shr => shiftA W .shr t

/-- `X86InstrJNotCc`, cgx86.c:411-425 -/
def Cc.inv : Cc → Cc
  | .lt => .ge
  | .ult => .uge
  | .gt => .le
  | .ugt => .ule
  | .le => .gt
  | .ule => .ugt
  | .ge => .lt
  | .uge => .ult
  | .eq => .ne
  | .ne => .eq

/-- what a comparison prints after `cmp`, cgx86.c:2371-2421; `next` is `stack[i + 3]` -/
def cmpEnd (W : Nat) (c : Cc) (next : Option T) : List Ins :=
  match next with
  | some (.ifT, l) => [.jcc c l]
  | some (.ifN, l) => [.jcc c.inv l]
  | _ => .i1 (.setcc c) .al :: (if W = 2 then [.i0 .cbw] else p2 W .movzx .ax .al)

/-- "save the right operand from ax in cx", cgx86.c:2200-2214 -/
def saveR (W : Nat) (sz : Int) (t : T) : List Ins :=
  match t.1 with
  | .opAcc => p2 W .mov .cx .ax
  | .opIAcc => readCInd W sz
  | _ => []

/-- "store ax into the left operand", cgx86.c:2642-2683 -/
def store (W : Nat) (sz : Int) (t : T) : List Ins :=
  (match t.1 with
  | .opIIdent => p2 W .mov (.mem (.lab t.2) none) (selA W sz)
  | .opILoc => p2 W .mov (.mem (.loc t.2) none) (selA W sz)
  | .opIAcc | .opIStk => p2 W .mov (.mem .bx none) (selA W sz)
  | _ => []) ++ extendA W sz

/-- the left size of a fused operator: `v / 16 - 8` -/
def szL (v : Int) : Int := v / 16 - 8

/-- the right size: `v % 16 - 8` -/
def szR (v : Int) : Int := v % 16 - 8

/-- the case of binary operators of `GenExpr1`, cgx86.c:2163-2686 -/
def genBin (W : Nat) (tok : Tok) (v : Int) (l r : T) (next : Option T) : List Ins :=
  match tok with
  | .asg =>
    let v' := v / 16 + v % 16 * 16
    (if l.1 = .opIAcc then p2 W .mov .bx .ax else []) ++ loadA W (szL v') r ++
    (if l.1 = .opIStk then [.i1 .pop .bx] else []) ++ store W (szL (v' / 16 + v' % 16 * 16)) l
  | .asgo o => saveR W (szR v) r ++ loadA W (szL v) l ++ operA W o (szR v) r ++ store W (szL v) l
  | .ar o => saveR W (szR v) r ++ loadA W (szL v) l ++ operA W o (szR v) r
  | .cmp c => saveR W (szR v) r ++ loadA W (szL v) l ++ alu W .cmp (szR v) r ++ cmpEnd W c next
  | _ => []

/-- `GenJumpIfZero` and `GenJumpIfNotZero`, cgx86.c:817-841 -/
def jumpIf (W : Nat) (nz : Bool) (l : Int) : List Ins :=
  p2 W .test .ax .ax ++ [.jcc (if nz then .ne else .eq) l]

/-- the loop of `GenExpr1`, cgx86.c:1953-2712, from an element on -/
def gen (W : Nat) : List T → Option (List Ins)
  | [] => some []
  | (.num, v) :: r => (gen W r).map (p2 W .mov .ax (.imm v) ++ ·)
  | (.ident, v) :: r => (gen W r).map (p2 W .mov .ax (.lab v) ++ ·)
  | (.locl, v) :: r => (gen W r).map (p2 W .lea .ax (.mem (.loc v) none) ++ ·)
  | (.not, _) :: r => (gen W r).map (.i1 .not .ax :: ·)
  | (.neg, _) :: r => (gen W r).map (.i1 .neg .ax :: ·)
  | (.bool, _) :: r =>
    (gen W r).map (p2 W .test .ax .ax ++ .i1 (.setcc .ne) .al :: (if W = 2 then [.i0 .cbw] else p2 W .movsx .ax .al) ++ ·)
  | (.schar, _) :: r => (gen W r).map ((if W = 2 then [.i0 .cbw] else p2 W .movsx .ax .al) ++ ·)
  | (.uchar, _) :: r => (gen W r).map (p2 W .band .ax (.imm 0xFF) ++ ·)
  | (.tshort, _) :: r => (gen W r).map (p2 W .movsx .ax .axh ++ ·)
  | (.tushort, _) :: r => (gen W r).map (p2 W .movzx .ax .axh ++ ·)
  | (.short, v) :: r =>
    (gen W r).map ((if v ≥ 0 then jumpIf W false v else jumpIf W true (-v)) ++ ·)
  | (.goto, v) :: r => (gen W r).map (.jmp v :: ·)
  | (.logAnd, v) :: r => (gen W r).map (.lab v :: ·)
  | (.logOr, v) :: r => (gen W r).map (.lab v :: ·)
  | (.push, _) :: r => (gen W r).map (.i1 .push .ax :: ·)
  | (.star, v) :: t :: r => (gen W r).map (genUn W .star v t 0 ++ ·)
  | (.inc, v) :: t :: r => (gen W r).map (genUn W .inc v t 0 ++ ·)
  | (.dec, v) :: t :: r => (gen W r).map (genUn W .dec v t 0 ++ ·)
  | (.pinc, v) :: t :: r => (gen W r).map (genUn W .pinc v t 0 ++ ·)
  | (.pdec, v) :: t :: r => (gen W r).map (genUn W .pdec v t 0 ++ ·)
  | (.padd, v) :: t :: n :: r => (gen W r).map (genUn W .padd v t n.2 ++ ·)
  | (.psub, v) :: t :: n :: r => (gen W r).map (genUn W .psub v t n.2 ++ ·)
  | (.asg, v) :: a :: b :: r => (gen W r).map (genBin W .asg v a b r.head? ++ ·)
  | (.asgo o, v) :: a :: b :: r => (gen W r).map (genBin W (.asgo o) v a b r.head? ++ ·)
  | (.ar o, v) :: a :: b :: r => (gen W r).map (genBin W (.ar o) v a b r.head? ++ ·)
  | (.cmp c, v) :: a :: b :: r => (gen W r).map (genBin W (.cmp c) v a b r.head? ++ ·)
  | (.ifT, _) :: r => gen W r
  | (.ifN, _) :: r => gen W r
  | (.ret, _) :: r => gen W r
  | (.void, _) :: r => gen W r
  | (.comma, _) :: r => gen W r
  | _ => none

/-- where `GenExpr1` starts fusing, cgx86.c:1845-1849 -/
def topIdx (s : List T) : Int :=
  match get s (len s - 1) with
  | some (.ifT, _) | some (.ifN, _) | some (.ret, _) => len s - 2
  | _ => len s - 1

/-- `GenExpr1`, cgx86.c:1842-2713 -/
def genExpr (W : Nat) (s : List T) : Option (List Ins) :=
  (fuse W (s.length + 1) s (topIdx s)).bind fun r => gen W r.1

end Smlr.Cg
