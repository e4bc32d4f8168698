import Mathlib.Data.List.Nodup
set_option autoImplicit false
/-! The part of the x86 that the code generator uses: 16-bit (`W = 2`) or 32-bit (`W = 4`) registers, byte-addressed memory with one address space (`ds = ss`), and exactly the instruction forms that `cgx86.c` prints for integer expressions.  An instruction form outside of this list, a division that traps, and a conditional instruction after flags that are not modelled have no next state. -/
namespace Smlr.Cg

/-- arithmetic operators -/
inductive Ar
  | add | sub | mul | div | udiv | mod | umod | shl | sar | shr | band | xor | bor
  deriving DecidableEq, Repr

/-- comparison operators; the `u` ones compare as unsigned -/
inductive Cc
  | lt | ult | gt | ugt | le | ule | ge | uge | eq | ne
  deriving DecidableEq, Repr

/-- a machine word of `W` bytes -/
abbrev Wd (W : Nat) := BitVec (8 * W)

abbrev Mem (W : Nat) := Wd W → BitVec 8

/-- read `n` bytes, little endian -/
def ld {W : Nat} (m : Mem W) (a : Wd W) : Nat → Nat
  | 0 => 0
  | n + 1 => (m a).toNat + 256 * ld m (a + 1) n

/-- write the low `n` bytes of a number, little endian -/
def st {W : Nat} (m : Mem W) (a : Wd W) : Nat → Nat → Mem W
  | 0, _ => m
  | n + 1, v => fun x => if x = a then BitVec.ofNat 8 v else st m (a + 1) n (v / 256) x

/-- memory operands: a label, an offset from the frame pointer, the register B -/
inductive Adr
  | lab (x : Int)
  | loc (o : Int)
  | bx
  deriving DecidableEq, Repr

/-- operands (the `X86Op…` of cgx86.c:461-491); `axh` is `ax` of a 32-bit machine; memory operands may have an explicit size in bytes -/
inductive Opd
  | al | ah | cl | axh | ax | bx | cx | dx
  | imm (v : Int)
  | lab (x : Int)
  | mem (a : Adr) (n : Option Nat)
  deriving DecidableEq, Repr

inductive I0
  | cbw | cwd | cdq
  deriving DecidableEq, Repr

inductive I1
  | inc | dec | not | neg | push | pop | mul | idiv | div
  | setcc (c : Cc)
  deriving DecidableEq, Repr

inductive I2
  | mov | movsx | movzx | lea | add | sub | band | xor | bor | cmp | test | shl | sar | shr
  deriving DecidableEq, Repr

inductive Ins
  | i0 (i : I0)
  | i1 (i : I1) (o : Opd)
  | i2 (i : I2) (d s : Opd)
  /-- `imul d, s, t` -/
  | imul3 (d s t : Opd)
  | jcc (c : Cc) (l : Int)
  | jmp (l : Int)
  | lab (l : Int)
  deriving DecidableEq, Repr

/-- the flags that the comparisons look at -/
structure Flags where
  zf : Bool
  cf : Bool
  sf : Bool
  of : Bool

structure St (W : Nat) where
  ax : Wd W
  bx : Wd W
  cx : Wd W
  dx : Wd W
  sp : Wd W
  bp : Wd W
  mem : Mem W
  flags : Option Flags

variable {W : Nat}

def ea (G : Int → Wd W) (s : St W) : Adr → Wd W
  | .lab x => G x
  | .loc o => s.bp + BitVec.ofInt _ o
  | .bx => s.bx

def Opd.size (W : Nat) : Opd → Option Nat
  | .al | .ah | .cl => some 1
  | .axh => some 2
  | .ax | .bx | .cx | .dx => some W
  | .imm _ | .lab _ => none
  | .mem _ n => n

/-- the low `n` bytes of an operand, zero-extended -/
def read (G : Int → Wd W) (s : St W) (n : Nat) : Opd → Wd W
  | .al => BitVec.ofNat _ (s.ax.toNat % 256)
  | .ah => BitVec.ofNat _ (s.ax.toNat / 256 % 256)
  | .cl => BitVec.ofNat _ (s.cx.toNat % 256)
  | .axh => BitVec.ofNat _ (s.ax.toNat % 65536)
  | .ax => s.ax
  | .bx => s.bx
  | .cx => s.cx
  | .dx => s.dx
  | .imm v => BitVec.ofNat _ ((BitVec.ofInt (8 * W) v).toNat % 256 ^ n)
  | .lab x => BitVec.ofNat _ ((G x).toNat % 256 ^ n)
  | .mem a _ => BitVec.ofNat _ (ld s.mem (ea G s a) n)

/-- replace the low `n` bytes of an operand -/
def write (G : Int → Wd W) (s : St W) (n : Nat) (v : Wd W) : Opd → Option (St W)
  | .al => some { s with ax := BitVec.ofNat _ (s.ax.toNat / 256 * 256 + v.toNat % 256) }
  | .ah => some { s with ax := BitVec.ofNat _ (s.ax.toNat / 65536 * 65536 + v.toNat % 256 * 256 + s.ax.toNat % 256) }
  | .cl => some { s with cx := BitVec.ofNat _ (s.cx.toNat / 256 * 256 + v.toNat % 256) }
  | .axh => some { s with ax := BitVec.ofNat _ (s.ax.toNat / 65536 * 65536 + v.toNat % 65536) }
  | .ax => some { s with ax := v }
  | .bx => some { s with bx := v }
  | .cx => some { s with cx := v }
  | .dx => some { s with dx := v }
  | .imm _ => none
  | .lab _ => none
  | .mem a _ => some { s with mem := st s.mem (ea G s a) n v.toNat }

/-- the size of an instruction with two operands: they must not disagree, and one of them must tell -/
def size2 (W : Nat) (d s : Opd) : Option Nat :=
  match d.size W, s.size W with
  | some a, some b => if a = b then some a else none
  | some a, none => some a
  | none, some b => some b
  | none, none => none

/-- sign-extend `k` bytes -/
def sext (k : Nat) (x : Wd W) : Wd W := (BitVec.ofNat (8 * k) x.toNat).signExtend (8 * W)

/-- flags of `cmp x, y` -/
def subFlags (x y : Wd W) : Flags where
  zf := decide (x = y)
  cf := decide (x.toNat < y.toNat)
  sf := (x - y).msb
  of := decide ((x - y).toInt ≠ x.toInt - y.toInt)

/-- flags of `test x, y` -/
def testFlags (x y : Wd W) : Flags where
  zf := decide (x &&& y = 0)
  cf := false
  sf := (x &&& y).msb
  of := false

/-- l, b, g, a, le, be, ge, ae, e, ne -/
def Flags.holds (f : Flags) : Cc → Bool
  | .lt => f.sf != f.of
  | .ult => f.cf
  | .gt => !f.zf && f.sf == f.of
  | .ugt => !f.zf && !f.cf
  | .le => f.zf || f.sf != f.of
  | .ule => f.zf || f.cf
  | .ge => f.sf == f.of
  | .uge => !f.cf
  | .eq => f.zf
  | .ne => !f.zf

/-- shifts take the low five bits of a byte as the count -/
def count (x : Wd W) : Nat := x.toNat % 256 % 32

def exec0 (s : St W) : I0 → Option (St W)
  | .cbw => if W = 2 then some { s with ax := sext 1 s.ax } else none
  | .cwd => if W = 2 then some { s with dx := if s.ax.msb then -1 else 0 } else none
  | .cdq => if W = 4 then some { s with dx := if s.ax.msb then -1 else 0 } else none

def exec1 (G : Int → Wd W) (s : St W) (i : I1) (o : Opd) : Option (St W) :=
  (o.size W).bind fun n =>
  match i with
  | .inc => write G { s with flags := none } n (read G s n o + 1) o
  | .dec => write G { s with flags := none } n (read G s n o - 1) o
  | .not => write G s n (~~~ read G s n o) o
  | .neg => write G { s with flags := none } n (- read G s n o) o
  | .push =>
    if n = W then some { s with sp := s.sp - BitVec.ofNat _ W, mem := st s.mem (s.sp - BitVec.ofNat _ W) W (read G s n o).toNat }
    else none
  | .pop =>
    if n = W then write G { s with sp := s.sp + BitVec.ofNat _ W } n (BitVec.ofNat _ (ld s.mem s.sp W)) o
    else none
  | .mul =>
    if n = W then
      let p := s.ax.toNat * (read G s n o).toNat
      some { s with ax := BitVec.ofNat _ p, dx := BitVec.ofNat _ (p / 2 ^ (8 * W)), flags := none }
    else none
  | .div =>
    let d := s.dx.toNat * 2 ^ (8 * W) + s.ax.toNat
    let x := (read G s n o).toNat
    if n = W ∧ x ≠ 0 ∧ d / x < 2 ^ (8 * W) then
      some { s with ax := BitVec.ofNat _ (d / x), dx := BitVec.ofNat _ (d % x), flags := none }
    else none
  | .idiv =>
    let d := s.dx.toInt * 2 ^ (8 * W) + s.ax.toNat
    let x := (read G s n o).toInt
    if n = W ∧ x ≠ 0 ∧ -2 ^ (8 * W - 1) ≤ Int.tdiv d x ∧ Int.tdiv d x < 2 ^ (8 * W - 1) then
      some { s with ax := BitVec.ofInt _ (Int.tdiv d x), dx := BitVec.ofInt _ (Int.tmod d x), flags := none }
    else none
  | .setcc c =>
    if n = 1 then s.flags.bind fun f => write G s 1 (if f.holds c then 1 else 0) o
    else none

def exec2 (G : Int → Wd W) (s : St W) (i : I2) (d t : Opd) : Option (St W) :=
  match i with
  | .movsx =>
    (t.size W).bind fun k => if d.size W = some W then write G s W (sext k (read G s k t)) d else none
  | .movzx =>
    (t.size W).bind fun k => if d.size W = some W then write G s W (read G s k t) d else none
  | .lea =>
    match t with
    | .mem a _ => if d.size W = some W then write G s W (ea G s a) d else none
    | _ => none
  | .shl =>
    if d.size W = some W then write G { s with flags := none } W (read G s W d <<< count (read G s 1 t)) d else none
  | .sar =>
    if d.size W = some W then write G { s with flags := none } W ((read G s W d).sshiftRight (count (read G s 1 t))) d else none
  | .shr =>
    if d.size W = some W then write G { s with flags := none } W (read G s W d >>> count (read G s 1 t)) d else none
  | .mov => (size2 W d t).bind fun n => write G s n (read G s n t) d
  | .add => (size2 W d t).bind fun n => write G { s with flags := none } n (read G s n d + read G s n t) d
  | .sub => (size2 W d t).bind fun n => write G { s with flags := none } n (read G s n d - read G s n t) d
  | .band => (size2 W d t).bind fun n => write G { s with flags := none } n (read G s n d &&& read G s n t) d
  | .xor => (size2 W d t).bind fun n => write G { s with flags := none } n (read G s n d ^^^ read G s n t) d
  | .bor => (size2 W d t).bind fun n => write G { s with flags := none } n (read G s n d ||| read G s n t) d
  | .cmp => (size2 W d t).bind fun n =>
    if n = W then some { s with flags := some (subFlags (read G s n d) (read G s n t)) } else none
  | .test => (size2 W d t).bind fun n =>
    if n = W then some { s with flags := some (testFlags (read G s n d) (read G s n t)) } else none

/-- one instruction that is not a jump; a label does nothing -/
def exec (G : Int → Wd W) (s : St W) : Ins → Option (St W)
  | .i0 i => exec0 s i
  | .i1 i o => exec1 G s i o
  | .i2 i d t => exec2 G s i d t
  | .imul3 d t u => if d.size W = some W ∧ t.size W = some W then write G { s with flags := none } W (read G s W t * read G s W u) d else none
  | .jcc _ _ => none
  | .jmp _ => none
  | .lab _ => some s

/-- where a label is -/
def target (P : List Ins) (l : Int) : Option Nat := if .lab l ∈ P then some (P.idxOf (.lab l)) else none

/-- one step of a program from the instruction with the number `pc` -/
def stepP (G : Int → Wd W) (P : List Ins) (pc : Nat) (s : St W) : Option (Nat × St W) :=
  match P[pc]? with
  | none => none
  | some (.jmp l) => (target P l).map (·, s)
  | some (.jcc c l) => s.flags.bind fun f => if f.holds c then (target P l).map (·, s) else some (pc + 1, s)
  | some i => (exec G s i).map (pc + 1, ·)

/-- any number of steps -/
inductive Run (G : Int → Wd W) (P : List Ins) : Nat → St W → Nat → St W → Prop
  | refl (pc : Nat) (s : St W) : Run G P pc s pc s
  | step {pc pc₁ pc₂ : Nat} {s s₁ s₂ : St W} : stepP G P pc s = some (pc₁, s₁) → Run G P pc₁ s₁ pc₂ s₂ → Run G P pc s pc₂ s₂

end Smlr.Cg
