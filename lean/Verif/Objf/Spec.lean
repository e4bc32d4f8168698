import Verif.Objf.Model
set_option autoImplicit false
/-! Object files (System V ABI, chapter 4) and archives (ar(5)), as writers make them. -/
namespace Smlr.Objf
open Smlr.Sect (Bytes)
open Smlr.Link (Name)
open Smlr.Reloc (Sym)
open Smlr.Whole (RawRel MSec Module)

/-- numbers of one, two and four bytes -/
def b8 (x : Nat) : Bytes := [UInt8.ofNat x]
def b16 (x : Nat) : Bytes := [UInt8.ofNat x, UInt8.ofNat (x / 256)]
def b32 (x : Nat) : Bytes := b16 x ++ b16 (x / 65536)

/-- the bytes `b` stand at `o` -/
def At (f : Bytes) (o : Nat) (b : Bytes) : Prop := o + b.length ≤ f.length ∧ (f.drop o).take b.length = b

/-! ### objects -/

/-- a section of an object -/
inductive Sct
  | null
  | bits (name : Name) (alloc write exec : Bool) (align : Nat) (data : Bytes)
  | nobits (name : Name) (alloc write exec : Bool) (align size : Nat)
  | syms
  | strs (tab : Bytes)
  | rels (target : Nat) (l : List RawRel)

structure OSym where
  name : Name
  value : Nat
  size : Nat
  info : Nat
  other : Nat
  shndx : Nat

structure Object where
  scts : List Sct
  syms : List OSym
  nloc : Nat

/-- what a writer is free to choose: the section headers, where they stand, and members of the file header that mean nothing for objects -/
structure Choice where
  pad : Bytes
  version : Nat
  entry : Nat
  phoff : Nat
  shoff : Nat
  flags : Nat
  phentsize : Nat
  phnum : Nat
  shstrndx : Nat
  hdrs : List Shdr
  /-- where the names of the symbols stand in their string table -/
  nameOffs : List Nat

/-- `Elf32_Ehdr`: 32 bits, little-endian, ET_REL, EM_386 -/
def encHeader (c : Choice) : Bytes :=
  [0x7F, 0x45, 0x4C, 0x46, 1, 1, 1] ++ c.pad ++ b16 1 ++ b16 3 ++ b32 c.version ++ b32 c.entry ++ b32 c.phoff ++ b32 c.shoff ++ b32 c.flags ++ b16 52 ++ b16 c.phentsize ++ b16 c.phnum ++
  b16 40 ++ b16 c.hdrs.length ++ b16 c.shstrndx

/-- `Elf32_Shdr` -/
def encShdr (h : Shdr) : Bytes :=
  b32 h.name ++ b32 h.type ++ b32 h.flags ++ b32 h.addr ++ b32 h.off ++ b32 h.size ++ b32 h.link ++ b32 h.info ++ b32 h.align ++ b32 h.entsize

/-- `Elf32_Sym` -/
def encSym (name : Nat) (s : OSym) : Bytes := b32 name ++ b32 s.value ++ b32 s.size ++ b8 s.info ++ b8 s.other ++ b16 s.shndx

/-- `Elf32_Rel` -/
def encRel (r : RawRel) : Bytes := b32 r.off ++ b32 (r.sym * 256 + r.type)

def encSyms : List Nat → List OSym → Bytes
  | o :: os, s :: ss => encSym o s ++ encSyms os ss
  | _, _ => []

/-- members have the widths of the structures -/
structure Shdr.Fits (h : Shdr) : Prop where
  name : h.name < 2 ^ 32
  type : h.type < 2 ^ 32
  flags : h.flags < 2 ^ 32
  addr : h.addr < 2 ^ 32
  off : h.off < 2 ^ 32
  size : h.size < 2 ^ 32
  link : h.link < 2 ^ 32
  info : h.info < 2 ^ 32
  align : h.align < 2 ^ 32
  entsize : h.entsize < 2 ^ 32

def OSym.Fits (s : OSym) : Prop := s.value < 2 ^ 32 ∧ s.info < 256 ∧ s.shndx < 2 ^ 16
def RelFits (r : RawRel) : Prop := r.off < 2 ^ 32 ∧ r.sym < 2 ^ 24 ∧ r.type < 256

/-- the name stands at `k` of a string table, with a NUL -/
def Named (tab : Bytes) (k : Nat) (n : Name) : Prop := (∀ b ∈ n, b ≠ 0) ∧ At tab k (n ++ [0])

/-- the flags of a section: SHF_WRITE 1, SHF_ALLOC 2, SHF_EXECINSTR 4 -/
def Flags (fl : Nat) (alloc write exec : Bool) : Prop := fl % 2 = write.toNat ∧ fl / 2 % 2 = alloc.toNat ∧ fl / 4 % 2 = exec.toNat

/-- the header `h` and the file describe the section; `tab` has the names of sections -/
def Describes (f : Bytes) (ofs : Nat) (o : Object) (c : Choice) (tab : Bytes) (h : Shdr) : Sct → Prop
  | .null => h.type = 0
  | .bits n a w x al d => h.type = 1 ∧ Named tab h.name n ∧ Flags h.flags a w x ∧ h.align = al ∧ h.size = d.length ∧ At f (ofs + h.off) d
  | .nobits n a w x al sz => h.type = 8 ∧ Named tab h.name n ∧ Flags h.flags a w x ∧ h.align = al ∧ h.size = sz
  | .syms => h.type = 2 ∧ h.entsize = 16 ∧ h.size = 16 * o.syms.length ∧ h.info = o.nloc ∧ At f (ofs + h.off) (encSyms c.nameOffs o.syms) ∧
      ∃ t, o.scts[h.link]? = some (.strs t) ∧ ∀ (i : Nat) (s : OSym) (k : Nat), o.syms[i]? = some s → c.nameOffs[i]? = some k → (s.name = [] ∧ k = 0) ∨ (k ≠ 0 ∧ s.name ≠ [] ∧ Named t k s.name)
  | .strs t => h.type = 3 ∧ h.size = t.length ∧ At f (ofs + h.off) t
  | .rels target l => h.type = 9 ∧ h.entsize = 8 ∧ h.size = 8 * l.length ∧ h.info = target ∧ l ≠ [] ∧ At f (ofs + h.off) (l.flatMap encRel) ∧ o.scts[h.link]? = some .syms

/-- the file has the object at offset `ofs`: a symbol table, which is not empty and the only one, and a table of section names that starts with the empty name -/
structure Encodes (f : Bytes) (ofs : Nat) (o : Object) (c : Choice) : Prop where
  short : f.length < 2 ^ 31
  pad : c.pad.length = 9
  header : At f ofs (encHeader c)
  shoff : c.shoff ≠ 0 ∧ c.shoff < 2 ^ 32
  count : c.hdrs.length = o.scts.length
  few : o.scts.length < 2 ^ 16
  first : o.scts[0]? = some .null
  strndx : c.shstrndx ≠ 0 ∧ c.shstrndx < 2 ^ 16
  table : ∀ (k : Nat) (h : Shdr), c.hdrs[k]? = some h → At f (ofs + c.shoff + 40 * k) (encShdr h) ∧ h.Fits
  nloc : o.nloc ≤ o.syms.length
  syms : o.syms ≠ [] ∧ c.nameOffs.length = o.syms.length ∧ (∀ s ∈ o.syms, s.Fits) ∧ ∀ k ∈ c.nameOffs, k < 2 ^ 32
  one : ∃ k : Nat, o.scts[k]? = some Sct.syms ∧ ∀ j : Nat, o.scts[j]? = some Sct.syms → j = k
  rels : ∀ (k t : Nat) (l : List RawRel), o.scts[k]? = some (Sct.rels t l) → ∀ r ∈ l, RelFits r
  each : ∃ tab, o.scts[c.shstrndx]? = some (.strs tab) ∧ tab.head? = some 0 ∧ (∀ h ∈ c.hdrs, h.type ≠ 0 → ∃ n, Named tab h.name n) ∧
    ∀ (k : Nat) (h : Shdr) (t : Sct), c.hdrs[k]? = some h → o.scts[k]? = some t → Describes f ofs o c tab h t

/-- the relocations for section `j` -/
def Object.relsFor (o : Object) (j : Nat) : List RawRel :=
  (o.scts.findSome? (fun t => match t with | .rels k l => if k = j then some l else none | _ => none)).getD []

/-- what the rest of the linker (C54) is to see of a section -/
def Object.sec (o : Object) (j : Nat) : Sct → Option MSec
  | .bits n a w x al d => some ⟨⟨n, a, ⟨w, x, false⟩, al, d.length, d⟩, o.relsFor j⟩
  | .nobits n a w x al sz => some ⟨⟨n, a, ⟨w, x, true⟩, al, sz, []⟩, o.relsFor j⟩
  | _ => none

/-- the module is the object: the same sections with their relocations, and the same symbols with their names -/
structure Reads (m : Module) (o : Object) : Prop where
  length : m.secs.length = o.scts.length
  secs : ∀ (j : Nat) (t : Sct), o.scts[j]? = some t → m.secs[j]? = some (o.sec j t)
  nloc : m.nloc = o.nloc
  count : m.syms.length = o.syms.length
  syms : ∀ (i : Nat) (s : OSym), o.syms[i]? = some s → ∃ r : Sym, m.syms[i]? = some r ∧ r.value = s.value ∧ r.info = s.info ∧ r.shndx = s.shndx ∧
    (s.name = [] → r.name = 0) ∧ (s.name ≠ [] → r.name ≠ 0 ∧ m.strs r.name = s.name)

/-! ### archives -/

/-- a member of an archive -/
inductive Member
  /-- an object; the name field is any 16 bytes, such as "main.o/         " or "/18             " -/
  | file (name : Bytes) (data : Bytes)
  /-- an object with a long name in BSD archives: the name stands before the data -/
  | bsd (long : Bytes) (data : Bytes)
  /-- tables: the symbol tables of GNU and BSD archives and the long names of GNU archives -/
  | table (name : String) (data : Bytes)

/-- decimal number -/
def decimal (n : Nat) : Bytes := if n < 10 then [UInt8.ofNat (0x30 + n)] else decimal (n / 10) ++ [UInt8.ofNat (0x30 + n % 10)]

def padTo (n : Nat) (b : Bytes) : Bytes := b ++ List.replicate (n - b.length) 0x20

def Member.name : Member → Bytes
  | .file n _ => n
  | .bsd l _ => padTo 16 ([0x23, 0x31, 0x2F] ++ decimal l.length)
  | .table n _ => padTo 16 (Sect.str n)

/-- the bytes of the member after its header -/
def Member.body : Member → Bytes
  | .file _ d => d
  | .bsd l d => l ++ d
  | .table _ d => d

/-- a member with its header; `mid` is the date, the owner and the mode (32 bytes).  Members start at even offsets -/
def Member.enc (m : Member) (mid : Bytes) : Bytes :=
  m.name ++ mid ++ padTo 10 (decimal m.body.length) ++ [0x60, 0x0A] ++ m.body ++ (if m.body.length % 2 = 1 then [0x0A] else [])

def Member.Good : Member → Prop
  | .file n d => n.length = 16 ∧ n.take 3 ≠ [0x23, 0x31, 0x2F] ∧ n ≠ padTo 16 (Sect.str "//") ∧ n ≠ padTo 16 (Sect.str "/") ∧ n ≠ padTo 16 (Sect.str "__.SYMDEF") ∧ 52 ≤ d.length
  | .bsd _ d => 52 ≤ d.length
  | .table n _ => n = "/" ∨ n = "//" ∨ n = "__.SYMDEF"

def archive (ms : List (Member × Bytes)) : Bytes := Sect.str "!<arch>\n" ++ ms.flatMap (fun m => m.1.enc m.2)

/-- the object file in a member -/
def Member.object : Member → Option Bytes
  | .file _ d => some d
  | .bsd _ d => some d
  | .table _ _ => none

/-- lists of the same length that are related one by one -/
def Pairs {α β : Type} (R : α → β → Prop) : List α → List β → Prop
  | [], [] => True
  | a :: as, b :: bs => R a b ∧ Pairs R as bs
  | _, _ => False

end Smlr.Objf
