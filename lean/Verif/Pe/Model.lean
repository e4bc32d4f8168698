import Verif.Exe.Model
import Verif.Fixup.Model
set_option autoImplicit false
/-! Model of `RwPe` (smlrl.c:3008-3440): the headers of PE files and where the parts of the file are.  The relocation table is that of `Fixup` (C62).  Which words of the import tables are
made relative to the image (smlrl.c:3217-3256) is not modelled: the writes are any list. -/
namespace Smlr.Pe
open Smlr.Sect (Bytes Name Sec Desc Cfg St str isDll)
open Smlr.Exe (le16 le32 sub32 up down Entry prepare dataFilesz)

inductive Err
  /-- an error that the other formats have as well -/
  | exe (e : Exe.Err)
  /-- `errInternal(3)` -/
  | internal
  deriving DecidableEq

/-! ### the kinds of sections, smlrl.c:3022-3058 -/

def isText (d : Desc) : Bool := !d.attrs.nobits && d.attrs.exec && !d.attrs.write
def isRo (d : Desc) : Bool := !d.attrs.nobits && !d.attrs.exec && !d.attrs.write
def isImp (d : Desc) : Bool := !d.attrs.nobits && !d.attrs.exec && d.attrs.write && isDll d
def isData (d : Desc) : Bool := !d.attrs.nobits && !d.attrs.exec && d.attrs.write
def isBss (d : Desc) : Bool := d.attrs.nobits && !d.attrs.exec && d.attrs.write

/-- `textSectCnt`, `roDataSectCnt`, `impDataSectCnt`, and whether there are others -/
structure Counts where
  text : Nat
  ro : Nat
  imp : Nat
  data : Bool

/-- the loops that count -/
def counts (ds : List Desc) : Except Err Counts :=
  let t := ds.takeWhile isText
  let ds := ds.dropWhile isText
  let r := ds.takeWhile isRo
  let ds := ds.dropWhile isRo
  let i := ds.takeWhile isImp
  let ds := ds.dropWhile isImp
  let w := ds.takeWhile isData
  let ds := ds.dropWhile isData
  let b := ds.takeWhile isBss
  let ds := ds.dropWhile isBss
  if t.length = 0 ∨ ds ≠ [] then .error .internal else .ok ⟨t.length, r.length, i.length, decide (w.length ≠ 0) || decide (b.length ≠ 0)⟩

/-- `hasData` -/
def Counts.hasData (n : Counts) : Bool := decide (n.ro ≠ 0) || decide (n.imp ≠ 0) || n.data

/-! ### headers -/

/-- the members of `tPeImageSectionHeader` that are not constant -/
structure Hdr where
  vsize : Nat
  va : Nat
  raw : Nat
  ptr : Nat

/-- a section header, smlrl.c:1911-1979, with its name and characteristics -/
structure SHdr where
  name : Bytes
  h : Hdr
  flags : Nat

/-- a name of 8 bytes -/
def n8 (s : Bytes) : Bytes := s ++ List.replicate (8 - s.length) 0

def SHdr.bytes (s : SHdr) : Bytes :=
  n8 s.name ++ le32 s.h.vsize ++ le32 s.h.va ++ le32 s.h.raw ++ le32 s.h.ptr ++ le32 0 ++ le32 0 ++ le16 0 ++ le16 0 ++ le32 s.flags

/-- `DosMzExeStub`, smlrl.c:1833-1843: the part after the first 64 bytes is a program for DOS, of no interest here -/
def stub : Bytes :=
  [0x4D, 0x5A, 0x80, 0x00, 0x01, 0x00, 0x00, 0x00, 0x04, 0x00, 0x00, 0x10, 0x00, 0x10, 0x04, 0x00,
   0xFC, 0xFF, 0x00, 0x00, 0x40, 0x00, 0xFC, 0xFF, 0x40, 0x00, 0x00, 0x00, 0x00, 0x00, 0x00, 0x00,
   0x00, 0x00, 0x00, 0x00, 0x00, 0x00, 0x00, 0x00, 0x00, 0x00, 0x00, 0x00, 0x00, 0x00, 0x00, 0x00,
   0x00, 0x00, 0x00, 0x00, 0x00, 0x00, 0x00, 0x00, 0x00, 0x00, 0x00, 0x00, 0x80, 0x00, 0x00, 0x00,
   0x0E, 0x1F, 0xBA, 0x4E, 0x00, 0xB4, 0x09, 0xCD, 0x21, 0xB8, 0x01, 0x4C, 0xCD, 0x21, 0x54, 0x68,
   0x69, 0x73, 0x20, 0x70, 0x72, 0x6F, 0x67, 0x72, 0x61, 0x6D, 0x20, 0x63, 0x61, 0x6E, 0x6E, 0x6F,
   0x74, 0x20, 0x62, 0x65, 0x20, 0x72, 0x75, 0x6E, 0x20, 0x69, 0x6E, 0x20, 0x44, 0x4F, 0x53, 0x20,
   0x6D, 0x6F, 0x64, 0x65, 0x2E, 0x0D, 0x0D, 0x0A, 0x24, 0x00, 0x00, 0x00, 0x00, 0x00, 0x00, 0x00]

/-- `PeFileHeader`, smlrl.c:1845-1854 -/
def fileHdr (sections flags : Nat) : Bytes := le16 0x14C ++ le16 sections ++ le32 0x52C3CB00 ++ le32 0 ++ le32 0 ++ le16 224 ++ le16 flags

/-- the members of `PeOptionalHeader` that are not constant: `SizeOfCode`, `SizeOfInitializedData`, `AddressOfEntryPoint`, `BaseOfCode`, `BaseOfData`, `ImageBase`, `SizeOfImage`,
`DllCharacteristics` and three of the data directories (imports, relocations, import addresses) -/
structure Opt where
  code : Nat
  init : Nat
  entry : Nat
  baseCode : Nat
  baseData : Nat
  base : Nat
  size : Nat
  flags : Nat
  imports : Nat × Nat
  relocs : Nat × Nat
  iats : Nat × Nat

def dir (d : Nat × Nat) : Bytes := le32 d.1 ++ le32 d.2

/-- `PeOptionalHeader`, smlrl.c:1856-1907 -/
def optHdr (o : Opt) : Bytes :=
  le16 0x10B ++ [8, 0] ++ le32 o.code ++ le32 o.init ++ le32 0 ++ le32 o.entry ++ le32 o.baseCode ++ le32 o.baseData ++ le32 o.base ++ le32 4096 ++ le32 512 ++
  le16 4 ++ le16 0 ++ le16 0 ++ le16 0 ++ le16 4 ++ le16 0 ++ le32 0 ++ le32 o.size ++ le32 1024 ++ le32 0 ++ le16 3 ++ le16 o.flags ++
  le32 0x100000 ++ le32 0x10000 ++ le32 0x4000000 ++ le32 0 ++ le32 0 ++ le32 16 ++
  dir (0, 0) ++ dir o.imports ++ dir (0, 0) ++ dir (0, 0) ++ dir (0, 0) ++ dir o.relocs ++ dir (0, 0) ++ dir (0, 0) ++ dir (0, 0) ++ dir (0, 0) ++ dir (0, 0) ++ dir (0, 0) ++
  dir o.iats ++ dir (0, 0) ++ dir (0, 0) ++ dir (0, 0)

/-- `PeSectionHeaderText`, smlrl.c:3094-3102; the header of 1024 bytes precedes -/
def textHdr (base : Nat) (st : St) : Hdr :=
  ⟨sub32 (up st.code.2) (down st.code.1), sub32 (down st.code.1) base, sub32 (up st.code.2) (down st.code.1), 1024⟩

/-- `PeSectionHeaderData` before sections are taken from it, smlrl.c:3109-3129.  `SizeOfRawData` is as `p_filesz` of ELF files -/
def dataHdr (useBss : Bool) (base : Nat) (ds : List Desc) (st : St) : Except Err Hdr :=
  match dataFilesz useBss ds st with
  | .error e => .error (.exe e)
  | .ok fs => .ok ⟨sub32 (up st.data.2) (down st.data.1), sub32 (down st.data.1) base, fs, ((textHdr base st).ptr + (textHdr base st).raw) % 2 ^ 32⟩

/-- a section of `size` bytes taken from the start of another, smlrl.c:3134-3153 and 3159-3179 -/
def carve (d : Hdr) (size : Nat) : Hdr × Hdr := (⟨size, d.va, size, d.ptr⟩, ⟨sub32 d.vsize size, (d.va + size) % 2 ^ 32, sub32 d.raw size, (d.ptr + size) % 2 ^ 32⟩)

/-- `.rdata` -/
def carveRo (n : Counts) (st : St) (d : Hdr) : Except Err (List SHdr × Hdr) :=
  if n.ro ≠ 0 then
    match st.spans[n.text + n.ro - 1]? with
    | none => .error (.exe .ub)
    | some sp =>
      let x := carve d (sub32 (up sp.2) (down st.data.1))
      .ok ([⟨str ".rdata", x.1, 0x40000040⟩], x.2)
  else .ok ([], d)

/-- `.idata` -/
def carveImp (n : Counts) (st : St) (d : Hdr) : Except Err (List SHdr × Hdr) :=
  if n.imp ≠ 0 then
    match st.spans[n.text + n.ro + n.imp - 1]?, st.spans[n.text + n.ro]? with
    | some sp, some sp' =>
      let x := carve d (sub32 (up sp.2) (down sp'.1))
      .ok ([⟨str ".idata", x.1, 0xc0000040⟩], x.2)
    | _, _ => .error (.exe .ub)
  else .ok ([], d)

/-- the section headers, smlrl.c:3094-3204 -/
def sections (useBss : Bool) (base : Nat) (ds : List Desc) (st : St) (n : Counts) : Except Err (List SHdr) :=
  let t : SHdr := ⟨str ".text", textHdr base st, 0x60000020⟩
  if n.hasData then
    match dataHdr useBss base ds st with
    | .error e => .error e
    | .ok d =>
      match carveRo n st d with
      | .error e => .error e
      | .ok (ro, d) =>
        match carveImp n st d with
        | .error e => .error e
        | .ok (imp, d) => .ok ([t] ++ ro ++ imp ++ (if n.data then [⟨str ".data", d, 0xc0000040⟩] else []))
  else .ok [t]

/-- the end of the program: `stop` at smlrl.c:3182 -/
def stop (n : Counts) (st : St) : Nat := if n.hasData then up st.data.2 else up st.code.2

/-- what depends on the import tables: the two directories, and what is written to the file at which positions, smlrl.c:3184-3199 and 3217-3256 -/
structure Imports where
  imports : Nat × Nat
  iats : Nat × Nat
  writes : List (Nat × Bytes)

/-- `PeOptionalHeader` as it is first written -/
def opt (base : Nat) (e : UInt32) (st : St) (n : Counts) (im : Imports) : Opt :=
  ⟨sub32 (up st.code.2) (down st.code.1), if n.hasData then sub32 (up st.data.2) (down st.data.1) else 0, sub32 e.toNat base, sub32 (down st.code.1) base,
   if n.hasData then sub32 (down st.data.1) base else 0, base, sub32 (stop n st) base, 0, im.imports, (0, 0), im.iats⟩

/-- the headers, smlrl.c:3201-3219: five section headers and zeros up to 1024 bytes -/
def header (o : Opt) (flags : Nat) (hs : List SHdr) : Bytes :=
  stub ++ (str "PE" ++ [0, 0] ++ (fileHdr hs.length flags ++ (optHdr o ++ (hs.flatMap SHdr.bytes ++ (List.replicate ((5 - hs.length) * 40) 0 ++ List.replicate (1024 - 576) 0)))))

/-- writing at a position of the file -/
def patch (f : Bytes) (w : Nat × Bytes) : Bytes := ((Fixup.File.mk f w.1).write w.2).bytes

/-- `(x + 0x1FF) & 0xFFFFFE00` -/
def up512 (x : Nat) : Nat := (x + 511) % 2 ^ 32 / 512 * 512

/-- the header of the section .reloc, smlrl.c:3400-3424; `last` is the header before -/
def relocHdr (last : Hdr) (size ptr : Nat) : SHdr := ⟨str ".reloc", ⟨up512 size, (last.va + last.vsize) % 2 ^ 32, up512 size, ptr⟩, 0x42000040⟩

/-- `PeOptionalHeader` as it is written the second time, smlrl.c:3409-3422 -/
def optReloc (o : Opt) (r : Hdr) (size : Nat) : Opt :=
  { o with flags := o.flags ||| 0x40, relocs := (r.va, size), size := up ((o.size + r.vsize) % 2 ^ 32), init := (o.init + r.vsize) % 2 ^ 32 }

/-- smlrl.c:3396-3436: the headers are written again when there is a relocation table.  `f` is the file with the table of `size` bytes at `ptr` -/
def reheader (o : Opt) (hs : List SHdr) (last : Hdr) (f : Bytes) (size ptr : Nat) : Bytes :=
  let r := relocHdr last size ptr
  patch (patch (patch f (132, fileHdr (hs.length + 1) (0x30F &&& (2 ^ 16 - 1 - 1)))) (152, optHdr (optReloc o r.h size))) (376 + hs.length * 40, r.bytes)

/-- smlrl.c:3064-3071; `org` is `Origin` as given by the user or 0xFFFFFFFF -/
def base (org : Nat) : Nat := if org = 0xFFFFFFFF then 0x00400000 else down org

def cfg (useBss : Bool) (org : Nat) : Cfg := ⟨.winPe32, useBss, base org + 4096, 1024, []⟩

/-- `RwPe`; `relocs` are the addresses of fixups (`Fixup.sites`), none if `NoRelocations` -/
def rwPe (useBss : Bool) (org : Nat) (sort : List Desc → List Desc) (ss : List Sec) (entry : Entry) (im : List Desc → St → Imports) (relocs : Option (List Desc → St → List Nat)) : Except Err Bytes :=
  if base org ≥ 0xFFFFF000 then .error (.exe .tooBig)
  else match prepare (cfg useBss org) sort ss entry with
    | .error e => .error (.exe e)
    | .ok (ds, st, e) =>
      match counts ds with
      | .error e => .error e
      | .ok n =>
        match sections useBss (base org) ds st n with
        | .error e => .error e
        | .ok hs =>
          let o := opt (base org) e st n (im ds st)
          let f := (im ds st).writes.foldl patch (header o 0x30F hs ++ st.out)
          match relocs with
          | none => .ok f
          | some l =>
            let x := Fixup.table f (l ds st)
            .ok (reheader o hs (match hs.getLast? with | some s => s.h | none => ⟨0, 0, 0, 0⟩) x.1 x.2.1 x.2.2)

end Smlr.Pe
