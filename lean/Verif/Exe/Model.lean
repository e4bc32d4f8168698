import Verif.Sect.Model
set_option autoImplicit false
/-! Model of the writers of executable files in the linker: `RwFlat` (smlrl.c:2367-2437), `RwAout` (2439-2606), `RwDosExe` (2643-2774) and `RwElf` (3442-3512).
What `Pass` writes is the `out` of the layout (C32); the second call of `Pass`, which writes, finds the same layout as the first.  Multi-byte fields are written by
`fwrite` from the host's memory: the host is taken to be little-endian, with the structures packed as their comments say. -/
namespace Smlr.Exe
open Smlr.Sect (Bytes Fmt Sec Desc Cfg St Attrs)

inductive Err
  /-- an error of the layout or of the search for the entry point -/
  | sect (e : Sect.Err)
  /-- `errSectTooBig`, "Executable too big" -/
  | tooBig
  /-- `errStackTooSmall`, `errStackTooBig` -/
  | stack
  /-- access outside an array -/
  | ub
  deriving DecidableEq

def le16 (x : Nat) : Bytes := [UInt8.ofNat x, UInt8.ofNat (x / 256)]
def le32 (x : Nat) : Bytes := [UInt8.ofNat x, UInt8.ofNat (x / 256), UInt8.ofNat (x / 65536), UInt8.ofNat (x / 16777216)]

/-- subtraction of `uint32` -/
def sub32 (a b : Nat) : Nat := (a + 2 ^ 32 - b) % 2 ^ 32
/-- `x & 0xFFFFF000` -/
def down (x : Nat) : Nat := x / 4096 * 4096
/-- `(x + 0xFFF) & 0xFFFFF000` -/
def up (x : Nat) : Nat := down ((x + 4095) % 2 ^ 32)

/-- `hasData` -/
def hasData (ds : List Desc) : Bool := match ds.getLast? with | some d => !d.attrs.exec | none => false
/-- `(pSectDescrs[SectCnt - 1].Attrs & SHT_NOBITS) && UseBss` -/
def bssLast (useBss : Bool) (ds : List Desc) : Bool := match ds.getLast? with | some d => d.attrs.nobits && useBss | none => false
/-- the loop `while (pSectDescrs[i].Attrs & SHT_NOBITS) i--` from the last description, with the `Stop` of the description where it ends -/
def lastBits (ds : List Desc) (st : St) : Option (Desc × Nat) :=
  ((ds.zip st.spans).reverse.find? (fun x => !x.1.attrs.nobits)).map (fun x => (x.1, x.2.2))

/-- the search for the entry point, `FindSymbolAddress(EntryPoint)`: any function of the layout -/
abbrev Entry := List Desc → St → Except Sect.Err UInt32

/-- `Pass(0)` and `FindSymbolAddress(EntryPoint)` -/
def prepare (c : Cfg) (sort : List Desc → List Desc) (ss : List Sec) (entry : Entry) : Except Err (List Desc × St × UInt32) :=
  match Sect.layout c sort ss with
  | .error e => .error (.sect e)
  | .ok (ds, st) =>
    match entry ds st with
    | .error e => .error (.sect e)
    | .ok e => .ok (ds, st, e)

/-! ### ELF -/

/-- `ElfHeader`, smlrl.c:1981-1997 -/
def elfHeader (entry phnum : Nat) : Bytes :=
  [0x7F, 0x45, 0x4C, 0x46, 1, 1, 1, 0, 0, 0, 0, 0, 0, 0, 0, 0] ++ le16 2 ++ le16 3 ++ le32 1 ++ le32 entry ++ le32 52 ++ le32 0 ++ le32 0 ++
  le16 52 ++ le16 32 ++ le16 phnum ++ le16 0 ++ le16 0 ++ le16 0

/-- `Elf32_Phdr` -/
def phdr (type off addr filesz memsz flags align : Nat) : Bytes :=
  le32 type ++ le32 off ++ le32 addr ++ le32 addr ++ le32 filesz ++ le32 memsz ++ le32 flags ++ le32 align

/-- the program header of the code, smlrl.c:3475-3479 -/
def codePhdr (base : Nat) (st : St) : Bytes :=
  phdr 1 (sub32 (down st.code.1) base) (down st.code.1) (sub32 (up st.code.2) (down st.code.1)) (sub32 (up st.code.2) (down st.code.1)) 5 4096

/-- `p_filesz` of the data, smlrl.c:3489-3500 -/
def dataFilesz (useBss : Bool) (ds : List Desc) (st : St) : Except Err Nat :=
  if bssLast useBss ds then
    match lastBits ds st with
    | none => .error .ub
    | some (_, stop) => .ok (sub32 (up stop) (down st.data.1))
  else .ok (sub32 (up st.data.2) (down st.data.1))

/-- the program header of the data, smlrl.c:3481-3505 -/
def dataPhdr (useBss : Bool) (base : Nat) (ds : List Desc) (st : St) : Except Err Bytes :=
  if hasData ds then
    match dataFilesz useBss ds st with
    | .error e => .error e
    | .ok fs => .ok (phdr 1 (sub32 (down st.data.1) base) (down st.data.1) fs (sub32 (up st.data.2) (down st.data.1)) 6 4096)
  else .ok (List.replicate 32 0)

/-- smlrl.c:3453-3458; `org` is `Origin` as given by the user or 0xFFFFFFFF -/
def elfBase (org : Nat) : Nat := if org = 0xFFFFFFFF then 0x08048000 else down org

def elfCfg (useBss : Bool) (org : Nat) : Cfg := ⟨.elf32, useBss, elfBase org + 4096, 4096, []⟩

/-- `RwElf` -/
def rwElf (useBss : Bool) (org : Nat) (sort : List Desc → List Desc) (ss : List Sec) (entry : Entry) : Except Err Bytes :=
  if elfBase org ≥ 0xFFFFF000 then .error .tooBig
  else match prepare (elfCfg useBss org) sort ss entry with
    | .error e => .error e
    | .ok (ds, st, e) =>
      match dataPhdr useBss (elfBase org) ds st with
      | .error e => .error e
      | .ok ph => .ok (elfHeader e.toNat (1 + (if hasData ds then 1 else 0)) ++ codePhdr (elfBase org) st ++ ph ++ List.replicate (4096 - 116) 0 ++ st.out)

/-! ### a.out -/

/-- `tAout` with the magic of `AoutHeader`, smlrl.c:2036-2046 -/
def aoutHeader (text data bss entry trsize drsize : Nat) : Bytes :=
  le32 0x640107 ++ le32 text ++ le32 data ++ le32 bss ++ le32 0 ++ le32 entry ++ le32 trsize ++ le32 drsize

/-- `data` and `bss` of the header, smlrl.c:2514-2529 -/
def aoutData (useBss : Bool) (ds : List Desc) (st : St) : Except Err (Nat × Nat) :=
  if hasData ds then
    let data := sub32 (up st.data.2) (down st.data.1)
    if bssLast useBss ds then
      match lastBits ds st with
      | none => .error .ub
      | some (d, stop) =>
        let datasz := if !d.attrs.exec then sub32 (up stop) (down st.data.1) else 0
        .ok (datasz, sub32 data datasz)
    else .ok (data, 0)
  else .ok (0, 0)

def aoutCfg (useBss : Bool) : Cfg := ⟨.aout, useBss, 0, 32, []⟩

/-- `RwAout` without a stub.  The relocation tables are the bytes that `rels` gives for the code and for the data -/
def rwAout (useBss : Bool) (sort : List Desc → List Desc) (ss : List Sec) (entry : Entry) (rels : St → Bytes × Bytes) : Except Err Bytes :=
  match prepare (aoutCfg useBss) sort ss entry with
  | .error e => .error e
  | .ok (ds, st, e) =>
    match aoutData useBss ds st with
    | .error e => .error e
    | .ok (data, bss) =>
      .ok (aoutHeader (sub32 (up st.code.2) (down st.code.1)) data bss e.toNat (rels st).1.length (rels st).2.length ++ st.out ++ (rels st).1 ++ (rels st).2)

/-! ### flat binaries and .COM -/

/-- smlrl.c:2378-2400: the origin, and for .COM the start of the stack -/
def flatSetup (fmt : Fmt) (org stack : Nat) : Except Err (Nat × Nat) :=
  if fmt = .dosComTiny then
    let s := if stack = 0xFFFFFFFF then 8192 else stack
    if s < 4096 then .error .stack
    else if s > 0xFFFC then .error .stack
    else .ok (0x100, 0xFFFC - s)
  else
    let o := if org = 0xFFFFFFFF then 0 else org
    if fmt = .flat16 ∧ o > 0xFFFF then .error .tooBig else .ok (o, 0)

/-- smlrl.c:2429-2432 -/
def collides (fmt : Fmt) (ds : List Desc) (st : St) (stackStart : Nat) : Bool :=
  fmt = .dosComTiny && decide ((if hasData ds then st.data.2 else st.code.2) > stackStart)

/-- size of the jump instruction -/
def jumpSize (fmt : Fmt) : Nat := if fmt = .flat32 then 5 else 3

/-- the file that starts with a jump, smlrl.c:2408-2434 -/
def flatJump (fmt : Fmt) (useBss : Bool) (origin stackStart : Nat) (sort : List Desc → List Desc) (ss : List Sec) (entry : Entry) : Except Err Bytes :=
  let newOrigin := (origin + jumpSize fmt) % 2 ^ 32
  if newOrigin < origin then .error .tooBig
  else if fmt = .flat16 ∧ newOrigin > 0xFFFF then .error .tooBig
  else match prepare ⟨fmt, useBss, newOrigin, jumpSize fmt, []⟩ sort ss entry with
    | .error e => .error e
    | .ok (ds, st, e) =>
      if collides fmt ds st stackStart then .error .stack
      else .ok (0xE9 :: (le32 (sub32 e.toNat newOrigin)).take (jumpSize fmt - 1) ++ st.out)

/-- `RwFlat` -/
def rwFlat (fmt : Fmt) (useBss : Bool) (org stack : Nat) (sort : List Desc → List Desc) (ss : List Sec) (entry : Entry) : Except Err Bytes :=
  match flatSetup fmt org stack with
  | .error e => .error e
  | .ok (origin, stackStart) =>
    match prepare ⟨fmt, useBss, origin, 0, []⟩ sort ss entry with
    | .error e => .error e
    | .ok (ds, st, e) =>
      if e.toNat ≠ origin then flatJump fmt useBss origin stackStart sort ss entry
      else if collides fmt ds st stackStart then .error .stack
      else .ok st.out

/-! ### DOS .EXE -/

/-- `tDosExeHeader`, smlrl.c:1813-1832 -/
def mzHeader (partPage pageCnt minAlloc maxAlloc initSs initSp initIp initCs : Nat) : Bytes :=
  [0x4D, 0x5A] ++ le16 partPage ++ le16 pageCnt ++ le16 0 ++ le16 4 ++ le16 minAlloc ++ le16 maxAlloc ++ le16 initSs ++ le16 initSp ++ le16 0 ++
  le16 initIp ++ le16 initCs ++ le16 28 ++ le16 0 ++ List.replicate 32 0 ++ le32 0

/-- smlrl.c:2706-2729: size of the file and of the data in it -/
def smallSizes (useBss : Bool) (ds : List Desc) (st : St) : Except Err (Nat × Nat) :=
  let dsz := if hasData ds then st.data.2 else 0
  let fsz := (st.code.2 + 15) / 16 * 16
  if bssLast useBss ds then
    match lastBits ds st with
    | none => .error .ub
    | some (d, stop) => if !d.attrs.exec then .ok (fsz + stop, stop) else .ok (fsz + 4, 4)
  else .ok (fsz + dsz, dsz)

/-- `RwDosExe` for the small format -/
def rwSmall (useBss : Bool) (stack : Nat) (sort : List Desc → List Desc) (ss : List Sec) (entry : Entry) : Except Err Bytes :=
  let s := if stack = 0xFFFFFFFF then 8192 else stack
  if s < 4096 then .error .stack
  else if s > 0xFFFC then .error .stack
  else match prepare ⟨.dosExeSmall, useBss, 64, 64, []⟩ sort ss entry with
    | .error e => .error e
    | .ok (ds, st, e) =>
      if (if hasData ds then st.data.2 else st.code.2) > 0xFFFC - s then .error .stack
      else match smallSizes useBss ds st with
        | .error e => .error e
        | .ok (fsz, dsz) =>
          .ok (mzHeader (fsz % 512) ((fsz + 511) / 512) (sub32 4096 (dsz / 16)) (sub32 4096 (dsz / 16)) (sub32 ((st.code.2 + 15) / 16) 4) 0xFFFC e.toNat (0xFFFF - 4 + 1) ++ st.out)

/-- smlrl.c:2752-2762 -/
def hugeFile (useBss : Bool) (ds : List Desc) (st : St) (sz : Nat) : Except Err Nat :=
  if bssLast useBss ds then
    match lastBits ds st with
    | none => .error .ub
    | some (_, stop) => .ok stop
  else .ok sz

/-- `MinAlloc` and `MaxAlloc`, smlrl.c:2769-2771 -/
def hugeAlloc (sz fsz s : Nat) : Nat := (sub32 sz fsz + 15) % 2 ^ 32 / 16 + (s + 15) / 16 + 1

/-- `RwDosExe` for the huge and unreal formats -/
def rwHuge (unreal : Bool) (useBss : Bool) (relod : Bytes) (stack : Nat) (sort : List Desc → List Desc) (ss : List Sec) (entry : Entry) : Except Err Bytes :=
  let s := if stack = 0xFFFFFFFF then 32768 else stack
  if s < 8192 then .error .stack
  else if s > 0xFFFC then .error .stack
  else match prepare ⟨if unreal then .dosExeUnreal else .dosExeHuge, useBss, 64, 64, relod⟩ sort ss entry with
    | .error e => .error e
    | .ok (ds, st, e) =>
      let sz := if hasData ds then st.data.2 else st.code.2
      if sz > 524288 then .error .tooBig
      else match hugeFile useBss ds st sz with
        | .error e => .error e
        | .ok fsz =>
          .ok (mzHeader (fsz % 512) ((fsz + 511) / 512) (hugeAlloc sz fsz s) (hugeAlloc sz fsz s)
            (sub32 ((sz + 15) / 16) 4) s (e.toNat % 16) (sub32 (e.toNat / 16) 4) ++ st.out)

end Smlr.Exe
