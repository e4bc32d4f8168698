import Verif.Exe.Model
import Verif.Sect.Spec
set_option autoImplicit false
/-! What systems do with executable files: loaders that read the bytes of a file as the formats are documented. -/
namespace Smlr.Exe
open Smlr.Sect (Bytes Place contents InFile)

/-- sections as they come from object files: 32-bit sizes and alignments, contents of the section's size; a section with the name of one that is part of the program is part of the program -/
structure Objects (ss : List Sect.Sec) : Prop where
  sizes : ∀ s ∈ ss, s.size < 2 ^ 32 ∧ s.align < 2 ^ 32 ∧ (s.attrs.nobits = false → s.data.length = s.size)
  alloc : ∀ s ∈ ss, ∀ t ∈ ss, s.name = t.name → s.alloc = true → t.alloc = true

/-- the number in the two or four bytes at `o`; 0 past the end -/
def u16 (f : Bytes) (o : Nat) : Nat := (f.getD o 0).toNat + 256 * (f.getD (o + 1) 0).toNat
def u32 (f : Bytes) (o : Nat) : Nat := u16 f o + 65536 * u16 f (o + 2)

/-! ### ELF (System V ABI, chapters 4 and 5) -/

/-- a part of the memory of a process -/
structure Seg where
  addr : Nat
  bytes : Bytes
  r : Bool
  w : Bool
  x : Bool

structure Image where
  entry : Nat
  segs : List Seg

/-- the segment of the program header at `o`: nothing for PT_NULL, an error for what a simple loader does not support.  The first `p_filesz` bytes come from the file, the others are 0 -/
def loadSeg (f : Bytes) (o : Nat) : Option (List Seg) :=
  let off := u32 f (o + 4)
  let addr := u32 f (o + 8)
  let filesz := u32 f (o + 16)
  let memsz := u32 f (o + 20)
  let flags := u32 f (o + 24)
  let align := u32 f (o + 28)
  if u32 f o = 0 then some []
  else if u32 f o = 1 ∧ align = 4096 ∧ off % 4096 = addr % 4096 ∧ filesz ≤ memsz ∧ off + filesz ≤ f.length ∧ addr + memsz ≤ 2 ^ 32 then
    some [⟨addr, (f.drop off).take filesz ++ List.replicate (memsz - filesz) 0, flags / 4 % 2 = 1, flags / 2 % 2 = 1, flags % 2 = 1⟩]
  else none

def loadSegs (f : Bytes) (o : Nat) : Nat → Option (List Seg)
  | 0 => some []
  | n + 1 =>
    match loadSeg f o, loadSegs f (o + 32) n with
    | some a, some b => some (a ++ b)
    | _, _ => none

/-- an ELF file for Linux on the 80386: e_ident, e_type = ET_EXEC, e_machine = EM_386, e_version, sizes of the headers; the program headers lie in the file -/
def loadElf (f : Bytes) : Option Image :=
  if f.take 7 = [0x7F, 0x45, 0x4C, 0x46, 1, 1, 1] ∧ u16 f 16 = 2 ∧ u16 f 18 = 3 ∧ u32 f 20 = 1 ∧ u16 f 40 = 52 ∧ u16 f 42 = 32 ∧ u32 f 28 + 32 * u16 f 44 ≤ f.length then
    match loadSegs f (u32 f 28) (u16 f 44) with
    | some l => some ⟨u32 f 24, l⟩
    | none => none
  else none

/-- segments that lie on pages of their own, in the order of their addresses -/
def Separate (l : List Seg) : Prop := l.Pairwise (fun s t => (s.addr + s.bytes.length + 4095) / 4096 ≤ t.addr / 4096)

/-- the bytes `b` are at address `a` of the segment -/
def Seg.Holds (s : Seg) (a : Nat) (b : Bytes) : Prop := s.addr ≤ a ∧ a - s.addr + b.length ≤ s.bytes.length ∧ (s.bytes.drop (a - s.addr)).take b.length = b

/-! ### a.out (OMAGIC): text and data follow the header and each other, in the file and in memory from address 0; bss is 0 -/

structure Aout where
  entry : Nat
  text : Nat
  mem : Bytes
  /-- the relocation tables of text and data, which follow -/
  trel : Bytes
  drel : Bytes

def loadAout (f : Bytes) : Option Aout :=
  if u16 f 0 = 0x107 ∧ u16 f 2 = 0x64 ∧ 32 + u32 f 4 + u32 f 8 + u32 f 24 + u32 f 28 = f.length ∧ u32 f 4 + u32 f 8 + u32 f 12 ≤ 2 ^ 32 then
    some ⟨u32 f 20, u32 f 4, (f.drop 32).take (u32 f 4 + u32 f 8) ++ List.replicate (u32 f 12) 0,
      (f.drop (32 + u32 f 4 + u32 f 8)).take (u32 f 24), (f.drop (32 + u32 f 4 + u32 f 8 + u32 f 24)).take (u32 f 28)⟩
  else none

/-- the bytes `b` stand at `a` -/
def At (m : Bytes) (a : Nat) (b : Bytes) : Prop := a + b.length ≤ m.length ∧ (m.drop a).take b.length = b

/-! ### a flat file is loaded as it is at `base`; execution starts at its first byte -/

/-- execution comes to the address `e`: it is the first, or there is a jump `E9` to it with a displacement of 16 or 32 bits -/
def Starts (wide : Bool) (f : Bytes) (base e : Nat) : Prop :=
  e = base ∨
  (f.head? = some 0xE9 ∧ (if wide then (base + 5 + u32 f 1) % 2 ^ 32 = e % 2 ^ 32 else (base + 3 + u16 f 1) % 2 ^ 16 = e % 2 ^ 16))

/-! ### DOS .EXE (INT 21h, function 4Bh): the part of the file after the header is loaded at the paragraph `seg` -/

structure Dos where
  /-- the bytes from the paragraph `seg` -/
  mem : Bytes
  /-- paragraphs from `seg` that the program owns -/
  owned : Nat
  cs : Nat
  ip : Nat
  ss : Nat
  sp : Nat

/-- the size of the file is in pages of 512 bytes and the bytes of the last page, 0 standing for 512 -/
def mzSize (f : Bytes) : Nat := if u16 f 2 = 0 then u16 f 4 * 512 else (u16 f 4 - 1) * 512 + u16 f 2

def loadMz (f : Bytes) (seg : Nat) : Option Dos :=
  if u16 f 0 = 0x5A4D ∧ u16 f 6 = 0 ∧ u16 f 8 * 16 ≤ mzSize f ∧ mzSize f ≤ f.length then
    some ⟨(f.drop (u16 f 8 * 16)).take (mzSize f - u16 f 8 * 16), (mzSize f - u16 f 8 * 16 + 15) / 16 + u16 f 10,
      (seg + u16 f 22) % 65536, u16 f 20, (seg + u16 f 14) % 65536, u16 f 16⟩
  else none

/-- the physical address of `s:o` relative to the paragraph `seg` -/
def rel (seg s o : Nat) : Int := 16 * (s : Int) + o - 16 * seg

end Smlr.Exe
