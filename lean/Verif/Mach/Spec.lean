import Verif.Mach.Model
import Verif.Exe.Spec
set_option autoImplicit false
/-! What the system does with a Mach-O executable (Apple's "OS X ABI Mach-O File Format Reference"): the load commands that follow the header are obeyed one after the other. -/
namespace Smlr.Mach
open Smlr.Sect (Bytes)
open Smlr.Exe (u16 u32 Seg)

/-- the string that starts at `o`, of at most `n` bytes -/
def cstr (f : Bytes) (o n : Nat) : Bytes := ((f.drop o).take n).takeWhile (· ≠ 0)

/-- a segment: what it is in memory, its name and its part of the file -/
structure MSeg where
  seg : Seg
  name : Bytes
  off : Nat
  size : Nat

structure Sym where
  name : Bytes
  type : Nat
  sect : Nat
  value : Nat

structure Loaded where
  /-- `eip` of the threads to start -/
  entries : List Nat
  segs : List MSeg
  /-- the symbol table and the part of the file where it and its strings are -/
  syms : List (List Sym × Nat × Nat)

/-- the section header at `o` describes a part of the segment, in memory and at the corresponding place of the file, and has no relocations -/
def sectOk (f : Bytes) (o vmaddr vmsize fileoff filesize : Nat) : Bool :=
  let addr := u32 f (o + 32)
  let size := u32 f (o + 36)
  let offset := u32 f (o + 40)
  vmaddr ≤ addr && addr + size ≤ vmaddr + vmsize && fileoff ≤ offset && offset + size ≤ fileoff + filesize && addr - vmaddr == offset - fileoff && u32 f (o + 52) == 0

/-- LC_SEGMENT: `filesize` bytes of the file at `vmaddr`, the others of the `vmsize` bytes are 0.  Segments are of whole pages, in memory and at page boundaries of the file; what is asked to be
allowed must be allowed at most; the sections must fill the command -/
def segment (f : Bytes) (o : Nat) : Option MSeg :=
  let vmaddr := u32 f (o + 24)
  let vmsize := u32 f (o + 28)
  let fileoff := u32 f (o + 32)
  let filesize := u32 f (o + 36)
  let maxprot := u32 f (o + 40)
  let prot := u32 f (o + 44)
  let nsects := u32 f (o + 48)
  if u32 f (o + 4) = 56 + 68 * nsects ∧ vmaddr % 4096 = 0 ∧ vmsize % 4096 = 0 ∧ fileoff % 4096 = 0 ∧ filesize ≤ vmsize ∧ fileoff + filesize ≤ f.length ∧ vmaddr + vmsize ≤ 2 ^ 32 ∧
      prot &&& maxprot = prot ∧ (List.range nsects).all (fun i => sectOk f (o + 56 + 68 * i) vmaddr vmsize fileoff filesize) then
    some ⟨⟨vmaddr, (f.drop fileoff).take filesize ++ List.replicate (vmsize - filesize) 0, prot % 2 = 1, prot / 2 % 2 = 1, prot / 4 % 2 = 1⟩, cstr f (o + 8) 16, fileoff, filesize⟩
  else none

/-- the symbol at `o`, its name in the strings of size `strsize` at `stroff` -/
def symbol (f : Bytes) (stroff strsize o : Nat) : Option Sym :=
  if u32 f o < strsize ∧ (0 : UInt8) ∈ (f.drop (stroff + u32 f o)).take (strsize - u32 f o) then
    some ⟨cstr f (stroff + u32 f o) (strsize - u32 f o), (f.getD (o + 4) 0).toNat, (f.getD (o + 5) 0).toNat, u32 f (o + 8)⟩
  else none

def symbols (f : Bytes) (stroff strsize o : Nat) : Nat → Option (List Sym)
  | 0 => some []
  | n + 1 =>
    match symbol f stroff strsize o, symbols f stroff strsize (o + 12) n with
    | some a, some b => some (a :: b)
    | _, _ => none

/-- LC_SYMTAB: symbols and then their strings -/
def symtab (f : Bytes) (o : Nat) : Option (List Sym × Nat × Nat) :=
  let symoff := u32 f (o + 8)
  let nsyms := u32 f (o + 12)
  let stroff := u32 f (o + 16)
  let strsize := u32 f (o + 20)
  if u32 f (o + 4) = 24 ∧ symoff + 12 * nsyms ≤ stroff ∧ stroff + strsize ≤ f.length then
    match symbols f stroff strsize symoff nsyms with
    | some l => some (l, symoff, stroff + strsize)
    | none => none
  else none

/-- one load command -/
def command (f : Bytes) (o : Nat) (l : Loaded) : Option Loaded :=
  if u32 f o = 1 then
    match segment f o with
    | some s => some { l with segs := s :: l.segs }
    | none => none
  else if u32 f o = 2 then
    match symtab f o with
    | some t => some { l with syms := t :: l.syms }
    | none => none
  else if u32 f o = 5 ∧ u32 f (o + 4) = 80 ∧ u32 f (o + 8) = 1 ∧ u32 f (o + 12) = 16 then some { l with entries := u32 f (o + 16 + 4 * 10) :: l.entries }
  else none

/-- `n` load commands from `o`, which end at `e` -/
def commands (f : Bytes) (e : Nat) : Nat → Nat → Option Loaded
  | 0, o => if o = e then some ⟨[], [], []⟩ else none
  | n + 1, o =>
    if 8 ≤ u32 f (o + 4) ∧ u32 f (o + 4) % 4 = 0 ∧ o + u32 f (o + 4) ≤ e then
      match commands f e n (o + u32 f (o + 4)) with
      | some l => command f o l
      | none => none
    else none

/-- an executable for the 80386 -/
def load (f : Bytes) : Option Loaded :=
  if u32 f 0 = 0xFEEDFACE ∧ u32 f 4 = 7 ∧ u32 f 8 = 3 ∧ u32 f 12 = 2 ∧ 28 + u32 f 20 ≤ f.length then commands f (28 + u32 f 20) (u32 f 16) 28
  else none

end Smlr.Mach
