set_option autoImplicit false
/-! Model of relocation in the linker: the symbol table part of `loadElfObj` (smlrl.c:1047-1096), `Relocate` (1669-1754) and
`RelocateAndWriteSection` (1756-1817). -/
namespace Smlr.Reloc

abbrev Bytes := List UInt8

inductive Err
  /-- `error("...")`, the linker stops -/
  | error
  /-- access outside an array -/
  | ub
  /-- the model's loop bound -/
  | fuel
  deriving DecidableEq

/-! ### symbols -/

/-- `Elf32_Sym`; `name` is the offset of the name, 0 if there is none -/
structure Sym where
  name : Nat
  value : Nat
  info : Nat
  shndx : Nat
  deriving DecidableEq, Inhabited

/-- `(pSym->st_info & 0xF) == STT_SECTION` -/
def Sym.isSection (s : Sym) : Bool := s.info % 16 = 3

/-- `(pSym->st_info >> 4) == STB_GLOBAL` -/
def Sym.isGlobal (s : Sym) : Bool := s.info / 16 = 1

/-- the loop that collects the local section symbols in place, smlrl.c:1074-1084: `k` iterations are left, then `i` and `cnt` -/
def collect : Nat → Nat → Nat → List Sym → Nat × List Sym
  | 0, _, cnt, a => (cnt, a)
  | k + 1, i, cnt, a =>
    let s := a[i]!
    if s.isSection && s.shndx ≠ 0 then
      let a := if i > cnt then a.set cnt s else a
      let a := a.set cnt { a[cnt]! with value := i }
      collect k (i + 1) (cnt + 1) a
    else collect k (i + 1) cnt a

/-- smlrl.c:1074-1087: the table that is kept and the number of section symbols in it (`sh_addralign`); `info` is `sh_info` -/
def compact (info : Nat) (a : List Sym) : List Sym × Nat :=
  let (cnt, b) := collect info 0 0 a
  (b.take cnt ++ b.drop info, cnt)

/-- the loop at 1696-1701 -/
def findLocal (symIdx : Nat) : Nat → List Sym → Option Sym
  | 0, _ => none
  | _ + 1, [] => none
  | n + 1, s :: l => if s.value = symIdx then some s else findLocal symIdx n l

/-- smlrl.c:1686-1705: the symbol with index `symIdx` (not 0) in the original table -/
def lookup (info : Nat) (tab : List Sym × Nat) (symIdx : Nat) : Except Err Sym :=
  if symIdx ≥ info then
    match tab.1[symIdx - info + tab.2]? with
    | some s => .ok s
    | none => .error .ub
  else match findLocal symIdx tab.2 tab.1 with
    | some s => .ok s
    | none => .error .error

/-- smlrl.c:1678-1727: the address of a relocation's symbol.  `outOffset` gives the address of a section of this file, `global` is `FindSymbolAddress` -/
def symAddr (info : Nat) (tab : List Sym × Nat) (outOffset : Nat → Nat) (global : Nat → Nat) (symIdx : Nat) : Except Err Nat :=
  if symIdx = 0 then .ok 0
  else match lookup info tab symIdx with
    | .error e => .error e
    | .ok s =>
      if s.isSection then .ok (outOffset s.shndx)
      else if s.isGlobal && s.name ≠ 0 then .ok (global s.name)
      else .error .error

/-! ### fields -/

/-- a relocation whose symbol has been resolved -/
structure Rel where
  off : Nat
  type : Nat
  addr : Nat
  deriving DecidableEq

/-- smlrl.c:1732-1753 on the bytes `buf` from the field on; `place` is the address of the field.  R_386_32 is 1, R_386_PC32 2, R_386_16 20, R_386_PC16 21 -/
def field (r : Rel) (place : Nat) (buf : Bytes) : Except Err Bytes :=
  if r.type = 1 ∨ r.type = 2 then
    match buf with
    | b0 :: b1 :: b2 :: b3 :: rest =>
      let dd := (b0.toNat + b1.toNat <<< 8 + b2.toNat <<< 16 + b3.toNat <<< 24) % 2 ^ 32
      let dd := (dd + r.addr) % 2 ^ 32
      let dd := if r.type = 2 then (dd + 2 ^ 32 - place % 2 ^ 32) % 2 ^ 32 else dd
      .ok (UInt8.ofNat dd :: UInt8.ofNat (dd >>> 8) :: UInt8.ofNat (dd >>> 16) :: UInt8.ofNat (dd >>> 24) :: rest)
    | _ => .error .ub
  else if r.type = 20 ∨ r.type = 21 then
    match buf with
    | b0 :: b1 :: rest =>
      let dd := b0.toNat + b1.toNat <<< 8
      let dd := (dd + r.addr) % 2 ^ 32
      let dd := if r.type = 21 then (dd + 2 ^ 32 - place % 2 ^ 32) % 2 ^ 32 else dd
      .ok (UInt8.ofNat dd :: UInt8.ofNat (dd >>> 8) :: rest)
    | _ => .error .ub
  else .error .error

/-- `Relocate(…, buf + i, …)` -/
def relocate (r : Rel) (place i : Nat) (buf : Bytes) : Except Err Bytes :=
  match field r place (buf.drop i) with
  | .error e => .error e
  | .ok b => .ok (buf.take i ++ b)

/-! ### streaming -/

/-- `FBUF_SIZE` -/
def fbuf : Nat := 1024

/-- the inner loop, smlrl.c:1785-1804.  `base` is the `OutOffset` of the section.  The C buffer always has 1027 bytes; the model keeps the `sz` bytes that
belong to the section and treats access to others as undefined -/
def inner (base ofs : Nat) : List Rel → Bytes → Except Err (List Rel × Bytes)
  | [], buf => .ok ([], buf)
  | r :: rs, buf =>
    if r.off < (ofs + fbuf) % 2 ^ 32 then
      if r.off < ofs then .error .ub
      else match relocate r (r.off + base) (r.off - ofs) buf with
        | .error e => .error e
        | .ok buf => inner base ofs rs buf
    else .ok (r :: rs, buf)

/-- the outer loop, smlrl.c:1774-1816: `inp` is what is left of the input file, `size` what is left of the section there, `out` what has been written -/
def outer (base : Nat) : Nat → Bytes → Nat → Bytes → Nat → List Rel → Bytes → Except Err (Bytes × Bytes)
  | 0, _, _, _, _, _, _ => .error .fuel
  | fuel + 1, inp, size, buf, ofs, rels, out =>
    if buf.length = 0 then .ok (out, inp)
    else
      let csz := if size > fbuf then fbuf else size
      if inp.length < csz then .error .error
      else match inner base ofs rels (buf ++ inp.take csz) with
        | .error e => .error e
        | .ok (rels, buf) =>
          let wsz := if buf.length > fbuf then fbuf else buf.length
          outer base fuel (inp.drop csz) (size - csz) (buf.drop wsz) ((ofs + fbuf) % 2 ^ 32) rels (out ++ buf.take wsz)

/-- `RelocateAndWriteSection`: bytes written and what is left of the input -/
def write (base : Nat) (inp : Bytes) (size : Nat) (rels : List Rel) : Except Err (Bytes × Bytes) :=
  let csz := if 3 > size then size else 3
  if inp.length < csz then .error .error
  else outer base (size + 1) (inp.drop csz) (size - csz) (inp.take csz) 0 rels []

end Smlr.Reloc
