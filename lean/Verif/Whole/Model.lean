import Verif.Exe.Model
import Verif.Reloc.Model
import Verif.Link.Model
set_option autoImplicit false
/-! Model of the linker from the modules it has read to the ELF file: the calls of `main` (smlrl.c:3957-3999), `FindSymbolAddress` (1615-1667), the search for the symbol of a relocation in
`Relocate` (1669-1730) and what `Pass` (2048-2365) does with each section.  The parts are those of C29-C32, C42 and C53; here they work on the same modules. -/
namespace Smlr.Whole
open Smlr.Sect (Bytes Sec Desc Cfg)
open Smlr.Link (Name)
open Smlr.Reloc (Sym)

/-- `Elf32_Rel`: the offset of the field, and the symbol and the type in `r_info` -/
structure RawRel where
  off : Nat
  sym : Nat
  type : Nat
  deriving DecidableEq

/-- a section of type SHT_PROGBITS or SHT_NOBITS and the entries of the relocation section that refers to it (the first one, smlrl.c:1768-1772; none if there is none) -/
structure MSec where
  sec : Sec
  rels : List RawRel

/-- a module (`tElfMeta`) with one symbol table.  `secs` has an entry for each section header, `none` for sections of other types; `nloc` is `sh_info` of the symbol table;
`strs` gives the name that starts at an offset of its string table -/
structure Module where
  secs : List (Option MSec)
  syms : List Sym
  nloc : Nat
  strs : Nat → Name

inductive Err
  | link (e : Link.Err)
  | sect (e : Sect.Err)
  | exe (e : Exe.Err)
  | reloc (e : Reloc.Err)
  /-- "Common symbols unsupported" -/
  | common
  /-- access outside an array -/
  | ub

/-- the symbols that are searched: those from `sh_addralign` on, smlrl.c:1288, 1420, 1638 -/
def globals (m : Module) : List Sym :=
  let t := Reloc.compact m.nloc m.syms
  t.1.drop t.2

/-- smlrl.c:1289-1292 and 1639-1643 -/
def exported (s : Sym) : Bool := s.isGlobal && s.shndx ≠ 0 && s.name ≠ 0

/-- smlrl.c:1421-1423 -/
def imported (s : Sym) : Bool := s.isGlobal && s.shndx = 0 && s.name ≠ 0

/-- what symbol resolution (C31) sees of a module; addresses are not known yet -/
def toObj (m : Module) : Link.Obj :=
  ⟨((globals m).filter exported).map (fun s => (m.strs s.name, 0)), ((globals m).filter imported).map (fun s => m.strs s.name)⟩

/-- a section of module number `file`, with section header number `idx` -/
structure Item where
  file : Nat
  idx : Nat
  s : MSec

def number (file : Nat) : List (Option MSec) → Nat → List Item
  | [], _ => []
  | none :: l, j => number file l (j + 1)
  | some s :: l, j => ⟨file, j, s⟩ :: number file l (j + 1)

/-- the sections of the needed modules, in the order of the loops of `FindAllSections` and `Pass` -/
def items (needed : Nat → Bool) : List Module → Nat → List Item
  | [], _ => []
  | m :: ms, i => (if needed i then number i m.secs 0 else []) ++ items needed ms (i + 1)

/-- the order in which `Pass` comes to the sections: by description, then by module and section header -/
def order (ds : List Desc) (xs : List Item) : List Item := ds.flatMap (fun d => xs.filter (fun x => x.s.sec.name = d.name))

/-- `pSections[j].OutOffset` of module `i`: the address that `Pass(0)` stored, 0 (smlrl.c:1039, `memset`) in sections that were not placed.  `none` is an access outside of `pSections` -/
def outOffset (mods : List Module) (tab : List (Item × Nat)) (i j : Nat) : Option Nat :=
  match mods[i]? with
  | none => none
  | some m =>
    if j < m.secs.length then
      some (match tab.find? (fun x => x.1.file = i && x.1.idx = j) with | some x => x.2 | none => 0)
    else none

/-- the first symbol of the needed modules with the name, smlrl.c:1629-1646 -/
def symbolIn (needed : Nat → Bool) (n : Name) : List Module → Nat → Option (Nat × Sym)
  | [], _ => none
  | m :: ms, i =>
    if needed i then
      match (globals m).find? (fun s => exported s && m.strs s.name = n) with
      | some s => some (i, s)
      | none => symbolIn needed n ms (i + 1)
    else symbolIn needed n ms (i + 1)

/-- what does not change while sections are written -/
structure Env where
  mods : List Module
  lk : Link.St
  ds : List Desc
  st : Sect.St
  tab : List (Item × Nat)

/-- `FindSymbolAddress` (SHN_COMMON is 0xFFF2) -/
def address (v : Env) (n : Name) : Except Err Nat :=
  if v.lk.deferred.contains n then
    match Sect.boundary v.ds v.st n with
    | .error e => .error (.sect e)
    | .ok a => .ok a
  else
    match symbolIn v.lk.needed n v.mods 0 with
    | none => .ok 0
    | some (i, s) =>
      if s.shndx = 0xFFF2 then .error .common
      else match outOffset v.mods v.tab i s.shndx with
        | none => .error .ub
        | some a => .ok ((a + s.value) % 2 ^ 32)

/-- smlrl.c:1678-1727: the address of symbol number `k` of module `i` -/
def resolve (v : Env) (m : Module) (i k : Nat) : Except Err Nat :=
  if k = 0 then .ok 0
  else match Reloc.lookup m.nloc (Reloc.compact m.nloc m.syms) k with
    | .error e => .error (.reloc e)
    | .ok s =>
      if s.isSection then
        match outOffset v.mods v.tab i s.shndx with
        | none => .error .ub
        | some a => .ok a
      else if s.isGlobal && s.name ≠ 0 then address v (m.strs s.name)
      else .error (.reloc .error)

def resolveAll (v : Env) (m : Module) (i : Nat) : List RawRel → Except Err (List Reloc.Rel)
  | [] => .ok []
  | r :: rs =>
    match resolve v m i r.sym with
    | .error e => .error e
    | .ok a =>
      match resolveAll v m i rs with
      | .error e => .error e
      | .ok l => .ok (⟨r.off, r.type, a⟩ :: l)

/-- what `Pass(1)` writes for a section, smlrl.c:2183-2190: those of type SHT_PROGBITS that have a description are relocated (1756-1817); `sortRel` is the `qsort` of the relocations (1146).
The errors of resolving a symbol do not depend on the place in the loop, so all symbols are resolved first -/
def patch (v : Env) (sortRel : List RawRel → List RawRel) (x : Item) : Except Err Sec :=
  if x.s.sec.attrs.nobits || !(v.ds.any (fun d => d.name = x.s.sec.name)) then .ok x.s.sec
  else
    match v.mods[x.file]?, outOffset v.mods v.tab x.file x.idx with
    | some m, some base =>
      match resolveAll v m x.file (sortRel x.s.rels) with
      | .error e => .error e
      | .ok rels =>
        match Reloc.write base x.s.sec.data x.s.sec.size rels with
        | .error e => .error (.reloc e)
        | .ok (t, _) => .ok { x.s.sec with data := t }
    | _, _ => .error .ub

def patchAll (v : Env) (sortRel : List RawRel → List RawRel) : List Item → Except Err (List Sec)
  | [] => .ok []
  | x :: xs =>
    match patch v sortRel x with
    | .error e => .error e
    | .ok s =>
      match patchAll v sortRel xs with
      | .error e => .error e
      | .ok l => .ok (s :: l)

/-- `main` from symbol resolution on, for the output format ELF.  `FindAllSections` also fails if a deferred name matches no section (1579-1612).  `RwElf` makes `Pass(0)`, which depends on no
contents, and then `Pass(1)` with the addresses found -/
def linkElf (useBss : Bool) (org : Nat) (sort : List Desc → List Desc) (sortRel : List RawRel → List RawRel) (mods : List Module) (entry : Name) : Except Err Bytes :=
  match Link.link (mods.map toObj) entry with
  | .error e => .error (.link e)
  | .ok lk =>
    let xs := items lk.needed mods 0
    match Sect.layout (Exe.elfCfg useBss org) sort (xs.map (·.s.sec)) with
    | .error e => .error (.sect e)
    | .ok (ds, st) =>
      if lk.deferred.any (fun n => match Sect.boundary ds st n with | .ok _ => false | .error _ => true) then .error (.sect .symbol)
      else
        let v : Env := ⟨mods, lk, ds, st, (order ds xs).zip (st.placed.map Sect.Place.addr)⟩
        match patchAll v sortRel xs with
        | .error e => .error e
        | .ok ss =>
          match address v entry with
          | .error e => .error e
          | .ok e =>
            match Exe.rwElf useBss org sort ss (fun _ _ => .ok (UInt32.ofNat e)) with
            | .error e => .error (.exe e)
            | .ok f => .ok f

end Smlr.Whole
