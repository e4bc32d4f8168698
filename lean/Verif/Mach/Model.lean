import Verif.Exe.Model
set_option autoImplicit false
/-! Model of `RwMach` (smlrl.c:2776-3006), which writes Mach-O executables.  As in the model of the other writers (C53), what `Pass` writes is the `out` of the layout (C32) and the structures
are written as they lie in the memory of a little-endian host. -/
namespace Smlr.Mach
open Smlr.Sect (Bytes Fmt Sec Desc Cfg St str)
open Smlr.Exe

/-- the members `segname` and `sectname`, arrays of 16 characters -/
def n16 (s : Bytes) : Bytes := s ++ List.replicate (16 - s.length) 0

/-- `MachHeader`, smlrl.c:2025-2034 -/
def header (ncmds sizeofcmds : Nat) : Bytes := le32 0xFEEDFACE ++ le32 7 ++ le32 3 ++ le32 2 ++ le32 ncmds ++ le32 sizeofcmds ++ le32 1

/-- `Mach32_SegmentCmd`, smlrl.c:309-325 -/
def segCmd (name : Bytes) (nsects vmaddr vmsize fileoff filesize maxprot initprot : Nat) : Bytes :=
  le32 1 ++ le32 (56 + 68 * nsects) ++ n16 name ++ le32 vmaddr ++ le32 vmsize ++ le32 fileoff ++ le32 filesize ++ le32 maxprot ++ le32 initprot ++ le32 nsects ++ le32 0

/-- `Mach32_Section`, smlrl.c:327-342 -/
def sectHdr (sect seg : Bytes) (addr size offset flags : Nat) : Bytes :=
  n16 sect ++ n16 seg ++ le32 addr ++ le32 size ++ le32 offset ++ le32 0 ++ le32 0 ++ le32 0 ++ le32 flags ++ le32 0 ++ le32 0

/-- `Mach32_SymtabCmd`, smlrl.c:374-382 -/
def symtabCmd (symoff nsyms stroff strsize : Nat) : Bytes := le32 2 ++ le32 24 ++ le32 symoff ++ le32 nsyms ++ le32 stroff ++ le32 strsize

/-- `unixThreadCmd`, smlrl.c:2791-2798: ten registers, `eip`, five registers -/
def threadCmd (eip : Nat) : Bytes := le32 5 ++ le32 80 ++ le32 1 ++ le32 16 ++ List.replicate 40 0 ++ le32 eip ++ List.replicate 20 0

/-- `Mach32_Nlist`, smlrl.c:384-396 -/
def nlist (strx : Nat) (type sect : UInt8) (desc value : Nat) : Bytes := le32 strx ++ [type, sect] ++ le16 desc ++ le32 value

/-- `predefinedStringTable`, smlrl.c:2815 -/
def strings : Bytes := [0x20, 0] ++ str "__mh_execute_header" ++ [0] ++ str "start" ++ [0]

/-- smlrl.c:2894-2897; `org` is `Origin` as given by the user or 0xFFFFFFFF -/
def base (org : Nat) : Nat := if org = 0xFFFFFFFF then 0x1000 else down org

/-- `sizeofcmds`, smlrl.c:2903-2907 -/
def cmdsSize (pz data : Bool) : Nat := pz.toNat * 56 + (1 + data.toNat) * (56 + 68) + 56 + 24 + 80

def hdrsz (org : Nat) (data : Bool) : Nat := 28 + cmdsSize (base org != 0) data

def cfg (useBss : Bool) (org : Nat) (data : Bool) : Cfg := ⟨.mach32, useBss, base org + hdrsz org data, hdrsz org data, []⟩

/-- the segment __PAGEZERO, smlrl.c:2816-2829 and 2946-2950 -/
def zeroCmd (b : Nat) : Bytes := if b != 0 then segCmd (str "__PAGEZERO") 0 0 b 0 0 0 0 else []

/-- the segment __TEXT, smlrl.c:2916-2922 -/
def textCmd (b origin hdrsz : Nat) (st : St) : Bytes :=
  segCmd (str "__TEXT") 1 b (sub32 (up st.code.2) b) 0 (sub32 (up st.code.2) b) 7 5 ++
  sectHdr (str "__text") (str "__TEXT") origin (sub32 (up st.code.2) origin) hdrsz 0x80000400

/-- the segment __DATA, smlrl.c:2924-2945, with `sections_stop` and `vmaddr_stop`, smlrl.c:2958-2959 -/
def dataCmd (useBss : Bool) (b : Nat) (ds : List Desc) (st : St) : Except Err (Bytes × Nat × Nat) :=
  if hasData ds then
    match dataFilesz useBss ds st with
    | .error e => .error e
    | .ok fs =>
      let start := down st.data.1
      let vmsize := sub32 (up st.data.2) start
      let fileoff := sub32 start b
      .ok (segCmd (str "__DATA") 1 start vmsize fileoff fs 7 3 ++ sectHdr (str "__data") (str "__DATA") start fs fileoff 0,
        (fileoff + fs) % 2 ^ 32, (start + vmsize) % 2 ^ 32)
  else .ok ([], sub32 (up st.code.2) b, (b + sub32 (up st.code.2) b) % 2 ^ 32)

/-- the segment __LINKEDIT and the symbol table, smlrl.c:2961-2984 -/
def linkCmd (sectionsStop vmaddrStop : Nat) : Bytes :=
  segCmd (str "__LINKEDIT") 0 vmaddrStop 0x1000 sectionsStop 52 7 1 ++ symtabCmd sectionsStop 2 (sectionsStop + 2 * 12) 28

/-- `RwMach`; `FindAllSections` has been called before -/
def rwMach (useBss : Bool) (org : Nat) (sort : List Desc → List Desc) (ss : List Sec) (entry : Entry) : Except Err Bytes :=
  match Sect.findAll ⟨.mach32, useBss, 0, 0, []⟩ sort ss with
  | .error e => .error (.sect e)
  | .ok ds0 =>
    if base org ≥ 0xFFFFF000 then .error .tooBig
    else match prepare (cfg useBss org (hasData ds0)) sort ss entry with
      | .error e => .error e
      | .ok (ds, st, e) =>
        match dataCmd useBss (base org) ds st with
        | .error e => .error e
        | .ok (dc, ss, vs) =>
          .ok (header ((base org != 0).toNat + 4 + (hasData ds0).toNat) (cmdsSize (base org != 0) (hasData ds0)) ++ zeroCmd (base org) ++
            textCmd (base org) (cfg useBss org (hasData ds0)).origin (hdrsz org (hasData ds0)) st ++ dc ++ linkCmd ss vs ++ threadCmd e.toNat ++ st.out ++
            nlist 2 3 1 0x10 (base org) ++ nlist 22 15 1 0 e.toNat ++ strings)

end Smlr.Mach
