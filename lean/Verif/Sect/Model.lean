set_option autoImplicit false
/-! Model of the section layout in the linker: `AlignTo` (smlrl.c:916-919), `SectDescCmp` (1438-1474), `FindAllSections` (1476-1613) and `Pass` (2048-2365),
and the search for section boundary symbols in `FindSymbolAddress` (1615-1628). -/
namespace Smlr.Sect

abbrev Name := List UInt8
abbrev Bytes := List UInt8

def str (s : String) : Name := s.toList.map (fun c => UInt8.ofNat c.toNat)

/-- `OutputFormat` -/
inductive Fmt
  | dosComTiny | dosExeSmall | dosExeHuge | dosExeUnreal | winPe32 | flat16 | flat32 | elf32 | aout | mach32
  deriving DecidableEq

/-- `Attrs` of a section description: SHF_WRITE, SHF_EXECINSTR and SHT_NOBITS -/
structure Attrs where
  write : Bool
  exec : Bool
  nobits : Bool
  deriving DecidableEq

/-- a section of type SHT_PROGBITS or SHT_NOBITS of a needed module.  `alloc` is SHF_ALLOC; `data` is what `RelocateAndWriteSection` writes for it (C29).
The sections of all needed modules are in one list, in the order of the modules and of the section headers.  Sections of other types (symbols, strings,
relocations) are left out: it is assumed that none of them has the name of an allocatable section -/
structure Sec where
  name : Name
  alloc : Bool
  attrs : Attrs
  align : Nat
  size : Nat
  data : Bytes
  deriving DecidableEq

/-- `tSectDescr` without `Start` and `Stop` -/
structure Desc where
  name : Name
  attrs : Attrs
  deriving DecidableEq

inductive Err
  /-- "Inconsistent section type/flags", "Unexpected section .relod", "Executable section not found" -/
  | section
  /-- "Section alignment …" -/
  | align
  /-- `errSectTooBig` -/
  | tooBig
  /-- "Symbol '%s' not found" -/
  | symbol
  /-- access outside an array -/
  | ub
  deriving DecidableEq

/-- `strcmp`; only the sign of its value is used (and specified by C) where the names differ in length -/
def strcmp : Name → Name → Int
  | [], [] => 0
  | [], _ :: _ => -1
  | _ :: _, [] => 1
  | a :: as, b :: bs => if a = b then strcmp as bs else (a.toNat : Int) - b.toNat

/-- `SectDescCmp` -/
def cmp (p q : Desc) : Int :=
  if p.attrs.nobits ≠ q.attrs.nobits then (if p.attrs.nobits then 8 else 0) - (if q.attrs.nobits then 8 else 0)
  else if p.attrs.exec ≠ q.attrs.exec then - ((if p.attrs.exec then 4 else 0) - (if q.attrs.exec then 4 else 0))
  else if p.attrs.write ≠ q.attrs.write then (if p.attrs.write then 1 else 0) - (if q.attrs.write then 1 else 0)
  else
    let i := strcmp p.name q.name
    if i ≠ 0 ∧ p.attrs.exec ∧ strcmp p.name (str ".text") = 0 then -1
    else if i ≠ 0 ∧ p.attrs.exec ∧ strcmp q.name (str ".text") = 0 then 1
    else
      let i1 : Int := if (str ".dll_").isPrefixOf p.name then 1 else 0
      let i2 : Int := if (str ".dll_").isPrefixOf q.name then 1 else 0
      if i ≠ 0 ∧ p.attrs.write ∧ i1 ≠ i2 then i2 - i1 else i

/-- what is constant during the layout: `OutputFormat`, `UseBss`, `Origin`, `hdrsz` and the contents of the section .relod that the linker makes for the unreal format -/
structure Cfg where
  fmt : Fmt
  useBss : Bool
  origin : Nat
  hdrsz : Nat
  relod : Bytes

/-- the loops of smlrl.c:1479-1540 -/
def collect (c : Cfg) : List Sec → List Desc → Except Err (List Desc)
  | [], ds => .ok ds
  | s :: ss, ds =>
    if !s.alloc then collect c ss ds
    else match ds.find? (fun d => d.name = s.name) with
      | some d => if d.attrs ≠ s.attrs then .error .section else collect c ss ds
      | none =>
        if c.fmt = .dosExeUnreal ∧ s.name = str ".relod" then .error .section
        else collect c ss (ds ++ [⟨s.name, s.attrs⟩])

/-- smlrl.c:1542-1548 -/
def addRelod (c : Cfg) (ds : List Desc) : List Desc :=
  if c.fmt = .dosExeUnreal ∧ c.relod.length ≠ 0 then ds ++ [⟨str ".relod", ⟨false, false, false⟩⟩] else ds

/-- smlrl.c:1561-1567 -/
def checkDescs (ds : List Desc) : Except Err (List Desc) :=
  match ds with
  | [] => .error .ub
  | d :: _ =>
    if !d.attrs.exec then .error .section
    else if ds.any (fun d => d.attrs.exec && (d.attrs.nobits || d.attrs.write)) then .error .section
    else .ok ds

/-- `FindAllSections` up to the sections found; `sort` stands for the call of `qsort` -/
def findAll (c : Cfg) (sort : List Desc → List Desc) (ss : List Sec) : Except Err (List Desc) :=
  match collect c ss [] with
  | .error e => .error e
  | .ok ds => checkDescs (sort (addRelod c ds))

/-- `AlignTo` -/
def alignTo (ofs align : Nat) : Nat := (ofs + align - 1) % 2 ^ 32 / align * align % 2 ^ 32

/-- a section with its `OutOffset` and `OutFileOffset` -/
structure Place where
  sec : Sec
  addr : Nat
  fileOff : Nat

/-- the variables of `Pass`: `out` is what has been written after the header, `span`, `code` and `data` are `Start` and `Stop` of the current section description
and of the two pseudo sections, `spans` those of the descriptions done -/
structure St where
  startOfs : Nat
  ofs : Nat
  written : Nat
  out : Bytes
  placed : List Place
  span : Nat × Nat
  spans : List (Nat × Nat)
  code : Nat × Nat
  data : Nat × Nat

def is16 (f : Fmt) : Bool := f = .dosComTiny || f = .flat16 || f = .dosExeSmall

/-- smlrl.c:2098-2130 -/
def effAlign (f : Fmt) (isData : Bool) (s : Sec) : Except Err Nat :=
  if s.align &&& (s.align - 1) ≠ 0 then .error .align
  else if is16 f then .ok (if !isData && s.align > 4 then 4 else s.align)
  else if f = .dosExeHuge then
    let a := if s.name = str ".relot" ∨ s.name = str ".relod" then 4 else s.align
    if a > 16 then .error .align else .ok a
  else if f = .winPe32 ∨ f = .elf32 ∨ f = .mach32 then
    if s.align > 4096 then .error .align else .ok s.align
  else .ok s.align

/-- fill byte of padding -/
def fillByte (isData : Bool) : UInt8 := if isData then 0 else 0xCC

/-- moving to a multiple of `al`, smlrl.c:2132-2147; `wr` tells if padding is written -/
def pad (wr : Bool) (fill : UInt8) (al : Nat) (st : St) : Except Err St :=
  if al > 1 then
    let newOfs := alignTo st.ofs al
    if newOfs < st.ofs then .error .tooBig
    else .ok { st with ofs := newOfs, out := st.out ++ (if wr then List.replicate (newOfs - st.ofs) fill else []) }
  else .ok st

/-- `Start` and `Stop` are lowered and raised -/
def lower (sp : Nat × Nat) (a : Nat) : Nat × Nat := (if sp.1 > a then a else sp.1, sp.2)
def raise (sp : Nat × Nat) (b : Nat) : Nat × Nat := (sp.1, if sp.2 < b then b else sp.2)

/-- smlrl.c:2164-2172 and 2203-2211 for a section from `a` to `b` -/
def widen (isData : Bool) (a b : Nat) (st : St) : St :=
  let sp := lower st.span a
  let tot := lower (if isData then st.data else st.code) sp.1
  let sp := raise sp b
  let tot := raise tot sp.2
  { st with span := sp, code := if isData then st.code else tot, data := if isData then tot else st.data }

/-- smlrl.c:2149-2211, after alignment -/
def put (c : Cfg) (isData : Bool) (s : Sec) (st : St) : Except Err St :=
  let newOfs := (st.ofs + s.size) % 2 ^ 32
  if newOfs < st.ofs then .error .tooBig
  else if is16 c.fmt && newOfs > 0x10000 then .error .tooBig
  else
    let p : Place := ⟨s, st.ofs, (c.hdrsz + st.written + (st.ofs + 2 ^ 32 - st.startOfs)) % 2 ^ 32⟩
    let bytes := if !s.attrs.nobits then s.data else if !c.useBss then List.replicate s.size 0 else []
    .ok { widen isData st.ofs newOfs st with ofs := newOfs, out := st.out ++ bytes, placed := st.placed ++ [p] }

/-- one section, smlrl.c:2083-2211 -/
def place (c : Cfg) (isData : Bool) (s : Sec) (st : St) : Except Err St :=
  match effAlign c.fmt isData s with
  | .error e => .error e
  | .ok al =>
    match pad (!s.attrs.nobits || !c.useBss) (fillByte isData) al st with
    | .error e => .error e
    | .ok st => put c isData s st

def placeAll (c : Cfg) (isData : Bool) : List Sec → St → Except Err St
  | [], st => .ok st
  | s :: ss, st =>
    match place c isData s st with
    | .error e => .error e
    | .ok st => placeAll c isData ss st

/-- the sections of a description: those with its name, and the one made by the linker (smlrl.c:2215-2280, which does what is done for a section of alignment 4) -/
def members (c : Cfg) (ss : List Sec) (d : Desc) : List Sec :=
  ss.filter (fun s => s.name = d.name) ++
  (if c.fmt = .dosExeUnreal ∧ c.relod.length ≠ 0 ∧ d.name = str ".relod" then [⟨d.name, true, ⟨false, false, false⟩, 4, c.relod.length, c.relod⟩] else [])

def isDll (d : Desc) : Bool := (str ".dll_").isPrefixOf d.name

/-- conditions for padding after a data section, smlrl.c:2331-2348; `next` is the description that follows -/
def padsData (c : Cfg) (d : Desc) (next : Option Desc) : Bool :=
  let lastData := (!c.useBss && next.isNone) || (c.useBss && !d.attrs.nobits && (match next with | none => true | some n => n.attrs.nobits))
  let lastImp := c.fmt = .winPe32 && isDll d && !d.attrs.nobits && d.attrs.write && !d.attrs.exec && (match next with | none => true | some n => !isDll n)
  let lastRo := c.fmt = .winPe32 && !d.attrs.nobits && !d.attrs.write && !d.attrs.exec && (match next with | none => true | some n => n.attrs.write)
  lastRo || lastImp || lastData

/-- is this the last code section? -/
def lastCode (d : Desc) (next : Option Desc) : Bool := d.attrs.exec && (match next with | none => true | some n => !n.attrs.exec)

/-- the small format after the code segment, smlrl.c:2290-2312; `n` tells if data follows -/
def switch (n : Bool) (st : St) : St :=
  let newOfs := alignTo st.ofs 16
  let out := st.out ++ List.replicate ((newOfs + 2 ^ 32 - st.ofs) % 2 ^ 32) 0xCC
  let written := (st.written + newOfs + 2 ^ 32 - st.startOfs) % 2 ^ 32
  if n then { st with startOfs := 0, ofs := 4, written := written, out := out ++ str "NULL" }
  else { st with startOfs := 0, ofs := 0, written := written, out := out }

/-- trailing padding, smlrl.c:2283-2362 -/
def trail (c : Cfg) (d : Desc) (next : Option Desc) (st : St) : Except Err St :=
  if c.fmt = .dosExeSmall then
    if lastCode d next then .ok (switch next.isSome st) else .ok st
  else if c.fmt = .winPe32 ∨ c.fmt = .elf32 ∨ c.fmt = .aout ∨ c.fmt = .mach32 then
    if lastCode d next then pad true 0xCC 4096 st
    else if padsData c d next then pad true 0 4096 st
    else .ok st
  else .ok st

/-- the loop over the section descriptions -/
def loop (c : Cfg) (ss : List Sec) : List Desc → St → Except Err St
  | [], st => .ok st
  | d :: ds, st =>
    match placeAll c (!d.attrs.exec) (members c ss d) { st with span := (2 ^ 32 - 1, 0) } with
    | .error e => .error e
    | .ok st =>
      match trail c d ds.head? { st with spans := st.spans ++ [st.span] } with
      | .error e => .error e
      | .ok st => loop c ss ds st

/-- `Pass` -/
def pass (c : Cfg) (ss : List Sec) (ds : List Desc) : Except Err St :=
  loop c ss ds ⟨c.origin, c.origin, 0, [], [], (2 ^ 32 - 1, 0), [], (2 ^ 32 - 1, 0), (2 ^ 32 - 1, 0)⟩

/-- `FindAllSections` and `Pass`: the section descriptions and the layout -/
def layout (c : Cfg) (sort : List Desc → List Desc) (ss : List Sec) : Except Err (List Desc × St) :=
  match findAll c sort ss with
  | .error e => .error e
  | .ok ds =>
    match pass c ss ds with
    | .error e => .error e
    | .ok st => .ok (ds, st)

/-! ### section boundary symbols -/

/-- smlrl.c:1590-1599 -/
def nameMatch : Name → Name → Bool
  | [], [] => true
  | a :: as, b :: bs => (a = b || (a = 0x5F && b = 0x2E)) && nameMatch as bs
  | _, _ => false

/-- index of the first match -/
def findName (n : Name) : List Name → Nat → Option Nat
  | [], _ => none
  | m :: ms, i => if nameMatch n m then some i else findName n ms (i + 1)

/-- the names of the section descriptions and of the pseudo sections, smlrl.c:1569-1577.  The third pseudo section (the stack) is left out -/
def allNames (ds : List Desc) : List Name :=
  ds.map Desc.name ++ [str "allcode__", match ds.getLast? with | some d => if d.attrs.exec then [] else str "alldata__" | none => []]

/-- smlrl.c:1579-1612 and 1621-1628: the address of the deferred symbol `n`.  A name of length 0 after the prefix does not occur (C31) -/
def boundary (ds : List Desc) (st : St) (n : Name) : Except Err Nat :=
  let isStop := !(str "__start_").isPrefixOf n
  let x := n.drop (if isStop then 7 else 8)
  match findName x (allNames ds) 0 with
  | none => .error .symbol
  | some i =>
    match (st.spans ++ [st.code, st.data])[i]? with
    | none => .error .ub
    | some sp => .ok (if isStop then sp.2 else sp.1)

end Smlr.Sect
