import Verif.Whole.Model
set_option autoImplicit false
/-! Model of how the linker reads object files and archives: `loadElfObj` (smlrl.c:932-1166) and `loadMeta` (1169-1256), and how the tables that it keeps are used
(`Pass`, smlrl.c:2083-2097; `FindSymbolByName`, 1275-1302; `Relocate`, 1669-1716). -/
namespace Smlr.Objf
open Smlr.Sect (Bytes)
open Smlr.Link (Name)
open Smlr.Reloc (Sym)
open Smlr.Whole (RawRel MSec Module)

inductive Err
  /-- "Can't read a file" -/
  | read
  /-- one of the messages about the contents -/
  | format
  /-- access outside an array -/
  | ub
  /-- the model's loop bound -/
  | fuel
  deriving DecidableEq

/-- members of structures as they are in memory, little-endian (as the code assumes of the host) -/
def g16 (b : Bytes) (o : Nat) : Nat := (b.getD o 0).toNat + (b.getD (o + 1) 0).toNat * 256
def g32 (b : Bytes) (o : Nat) : Nat := g16 b o + g16 b (o + 2) * 65536

/-- `Fseek` and `Fread`; offsets are sums of `uint32`.  Files have less than 2 GB, so that an offset is a `long` -/
def rd (f : Bytes) (off n : Nat) : Except Err Bytes :=
  if off % 2 ^ 32 + n ≤ f.length then .ok ((f.drop (off % 2 ^ 32)).take n) else .error .read

/-- `Elf32_Shd` -/
structure Shdr where
  name : Nat
  type : Nat
  flags : Nat
  addr : Nat
  off : Nat
  size : Nat
  link : Nat
  info : Nat
  align : Nat
  entsize : Nat

/-- smlrl.c:1004-1006: headers of type SHT_NULL are cleared -/
def shdrOf (b : Bytes) : Shdr :=
  if g32 b 4 = 0 then ⟨0, 0, 0, 0, 0, 0, 0, 0, 0, 0⟩
  else ⟨g32 b 0, g32 b 4, g32 b 8, g32 b 12, g32 b 16, g32 b 20, g32 b 24, g32 b 28, g32 b 32, g32 b 36⟩

/-- the loop of smlrl.c:983-1041: `n` headers from number `k` on -/
def headers (f : Bytes) (base : Nat) : Nat → Nat → Except Err (List Shdr)
  | 0, _ => .ok []
  | n + 1, k =>
    match rd f (base + k * 40) 40 with
    | .error e => .error e
    | .ok b =>
      match headers f base n (k + 1) with
      | .error e => .error e
      | .ok l => .ok (shdrOf b :: l)

/-- the supported types, smlrl.c:1011-1019 -/
def supported (t : Nat) : Bool := t = 0 || t = 1 || t = 2 || t = 3 || t = 8 || t = 9

/-- what `d` points to -/
inductive Data
  | none
  | syms (l : List Sym)
  | str (b : Bytes)
  | rels (l : List RawRel)

/-- `Elf32_Sym` -/
def symsOf : Nat → Bytes → List Sym
  | 0, _ => []
  | n + 1, b => ⟨g32 b 0, g32 b 4, (b.getD 12 0).toNat, g16 b 14⟩ :: symsOf n (b.drop 16)

/-- `Elf32_Rel`; the parts of `r_info` as `Relocate` takes them (1671-1672) -/
def relsOf : Nat → Bytes → List RawRel
  | 0, _ => []
  | n + 1, b => ⟨g32 b 0, g32 b 4 / 256, g32 b 4 % 256⟩ :: relsOf n (b.drop 8)

/-- the contents of one section, smlrl.c:1050-1126.  The symbols are kept as they are in the file; that local symbols are thrown away (1074-1087) is `Reloc.compact` (C30), and the sorting of
relocations (1124) is in `Whole.patch` (C54) -/
def contents (f : Bytes) (objOfs : Nat) (h : Shdr) : Except Err Data :=
  if h.type = 2 then
    if h.size / 16 = 0 ∨ h.size / 16 < h.info ∨ h.entsize ≠ 16 then .error .format
    else match rd f (objOfs + h.off) (h.size / 16 * 16) with
      | .error e => .error e
      | .ok b => .ok (.syms (symsOf (h.size / 16) b))
  else if h.type = 3 then
    match rd f (objOfs + h.off) h.size with
    | .error e => .error e
    | .ok b => .ok (.str b)
  else if h.type = 9 then
    if h.size = 0 ∨ h.entsize ≠ 8 then .error .format
    else match rd f (objOfs + h.off) h.size with
      | .error e => .error e
      | .ok b => .ok (.rels (relsOf (h.size / 8) b))
  else .ok .none

/-- the loop of smlrl.c:1046-1128 -/
def allContents (f : Bytes) (objOfs : Nat) : List Shdr → Except Err (List (Shdr × Data))
  | [] => .ok []
  | h :: hs =>
    match contents f objOfs h with
    | .error e => .error e
    | .ok d =>
      match allContents f objOfs hs with
      | .error e => .error e
      | .ok l => .ok ((h, d) :: l)

/-- `tElfMeta` -/
structure Meta where
  objOfs : Nat
  names : Bytes
  sects : List (Shdr × Data)

/-- the tests of smlrl.c:950-970 -/
def headerOk (b : Bytes) : Bool :=
  b.take 4 = [0x7F, 0x45, 0x4C, 0x46] && b.getD 6 0 = 1 && g16 b 40 = 52 && g16 b 46 = 40 && b.getD 4 0 = 1 && b.getD 5 0 = 1 && g16 b 16 = 1 && g16 b 18 = 3 &&
  g32 b 32 ≠ 0 && g16 b 50 ≠ 0

/-- `loadElfObj`; the section with number 0 is skipped in the second loop -/
def loadElf (f : Bytes) (objOfs : Nat) : Except Err Meta :=
  match rd f objOfs 52 with
  | .error e => .error e
  | .ok b =>
    if !headerOk b then .error .format
    else match rd f (objOfs + g32 b 32 + g16 b 50 * 40) 40 with
      | .error e => .error e
      | .ok sh =>
        match rd f (objOfs + g32 sh 16) (g32 sh 20) with
        | .error e => .error e
        | .ok names =>
          match headers f (objOfs + g32 b 32) (g16 b 48) 0 with
          | .error e => .error e
          | .ok hs =>
            if hs.any (fun h => !supported h.type) then .error .format
            else match hs with
              | [] => .ok ⟨objOfs, names, []⟩
              | h :: hs =>
                match allContents f objOfs hs with
                | .error e => .error e
                | .ok l => .ok ⟨objOfs, names, (h, .none) :: l⟩

/-! ### use of the tables -/

/-- the string at the start of a block, up to its NUL; `none` if there is no NUL in the block -/
def cstr : Bytes → Option Name
  | [] => none
  | b :: r => if b = 0 then some [] else (cstr r).map (b :: ·)

/-- the relocations of section `j`: those of the first section of type SHT_REL for it (2086-2096).  `sym` is the number of the symbol table, to which they have to refer -/
def relsFor (sects : List (Shdr × Data)) (sym : Option Nat) (j : Nat) : Except Err (List RawRel) :=
  match sects.find? (fun x => x.1.type = 9 && x.1.info = j) with
  | none => .ok []
  | some (h, .rels l) => if sym = some h.link then .ok l else .error .ub
  | some _ => .error .ub

/-- the sections from number `j` on, as the rest of the linker sees them.  Contents are read when they are written (2185-2188), up to the end of the file here -/
def sections (f : Bytes) (m : Meta) (sym : Option Nat) : List (Shdr × Data) → Nat → Except Err (List (Option MSec))
  | [], _ => .ok []
  | (h, _) :: l, j =>
    match cstr (m.names.drop h.name) with
    | none => .error .ub
    | some n =>
      match relsFor m.sects sym j with
      | .error e => .error e
      | .ok rels =>
        match sections f m sym l (j + 1) with
        | .error e => .error e
        | .ok r =>
          if h.type = 1 ∨ h.type = 8 then
            .ok (some ⟨⟨n, h.flags / 2 % 2 = 1, ⟨h.flags % 2 = 1, h.flags / 4 % 2 = 1, h.type = 8⟩, h.align, h.size,
              if h.type = 1 then (f.drop ((m.objOfs + h.off) % 2 ^ 32)).take h.size else []⟩, rels⟩ :: r)
          else .ok (none :: r)

/-- the first symbol table and its number -/
def findSyms : List (Shdr × Data) → Nat → Option (Nat × Shdr × List Sym)
  | [], _ => none
  | (h, .syms l) :: _, k => some (k, h, l)
  | (_, _) :: r, k => findSyms r (k + 1)

/-- the names of the symbols: `pMeta->pSections[pSect->h.sh_link].d.pStr` -/
def strings (m : Meta) (h : Shdr) : Except Err Bytes :=
  match m.sects[h.link]? with
  | some (_, .str b) => .ok b
  | _ => .error .ub

/-- the module as C54 has it.  Names that have no NUL are undefined behaviour as soon as they are compared -/
def module (f : Bytes) (m : Meta) : Except Err Module :=
  match findSyms m.sects 0 with
  | none =>
    match sections f m none m.sects 0 with
    | .error e => .error e
    | .ok secs => .ok ⟨secs, [], 0, fun _ => []⟩
  | some (k, h, l) =>
    match strings m h with
    | .error e => .error e
    | .ok tab =>
      if (l.drop h.info).any (fun s => s.name ≠ 0 && (cstr (tab.drop s.name)).isNone) then .error .ub
      else match sections f m (some k) m.sects 0 with
        | .error e => .error e
        | .ok secs => .ok ⟨secs, l, h.info, fun o => (cstr (tab.drop o)).getD []⟩

/-- an object at an offset of a file -/
def loadObj (f : Bytes) (objOfs : Nat) : Except Err Module :=
  match loadElf f objOfs with
  | .error e => .error e
  | .ok m => module f m

/-! ### archives -/

/-- the loops of smlrl.c:1207-1221: digits at the start of a field -/
def digits : Bytes → Nat → Nat
  | [], n => n
  | c :: r, n => if 0x30 ≤ c ∧ c ≤ 0x39 then digits r ((n * 10 + c.toNat - 0x30) % 2 ^ 32) else n

def spaces (s : String) : Bytes := Sect.str s ++ List.replicate (16 - s.length) 0x20

/-- the loop of `loadMeta` over the members of an archive, from offset `ofs` on -/
def members (f : Bytes) : Nat → Nat → Except Err (List Module)
  | 0, _ => .error .fuel
  | n + 1, ofs =>
    let fh := (f.drop ofs).take 60
    if fh.length ≠ 60 then .ok []
    else if fh.getD 58 0 ≠ 0x60 ∨ fh.getD 59 0 ≠ 0x0A then .error .format
    else
      let nlen := if fh.take 3 = [0x23, 0x31, 0x2F] then digits ((fh.drop 3).take 13) 0 else 0
      let fsz := digits ((fh.drop 48).take 10) 0
      if nlen > fsz then .error .format
      else
        let fofs := (ofs + 60 + nlen) % 2 ^ 32
        let fsz := fsz - nlen
        let e := (fofs + fsz) % 2 ^ 32
        let next := (e + e % 2) % 2 ^ 32
        if fh.take 16 ≠ spaces "//" ∧ fh.take 16 ≠ spaces "/" ∧ fh.take 16 ≠ spaces "__.SYMDEF" then
          if fsz < 52 then .error .format
          else match loadObj f fofs with
            | .error e => .error e
            | .ok m =>
              match members f n next with
              | .error e => .error e
              | .ok l => .ok (m :: l)
        else members f n next

/-- `loadMeta`; `n` is the model's bound for the number of members -/
def loadMeta (f : Bytes) (n : Nat) : Except Err (List Module) :=
  match rd f 0 8 with
  | .error e => .error e
  | .ok magic =>
    if magic = Sect.str "!<arch>\n" then members f n 8
    else match loadObj f 0 with
      | .error e => .error e
      | .ok m => .ok [m]

end Smlr.Objf
