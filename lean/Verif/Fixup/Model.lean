import Verif.Whole.Model
set_option autoImplicit false
/-! Model of the part of `RwPe` that writes the table of base relocations of PE files (smlrl.c:3259-3396). -/
namespace Smlr.Fixup
open Smlr.Sect (Bytes Name str)
open Smlr.Exe (le16 le32)
open Smlr.Whole (RawRel Item)

/-- an open file: its bytes and the position.  Positions are never past the end here -/
structure File where
  bytes : Bytes
  pos : Nat

/-- `Fwrite` -/
def File.write (f : File) (b : Bytes) : File := ⟨f.bytes.take f.pos ++ b ++ f.bytes.drop (f.pos + b.length), f.pos + b.length⟩

/-- `Fseek(…, SEEK_SET)` -/
def File.seek (f : File) (p : Nat) : File := ⟨f.bytes, p⟩

/-- the variables `lastPage`, `blockSize`, `totalFixupsSize`, `blockPos`; `uint32` -/
structure St where
  f : File
  lastPage : Nat
  blockSize : Nat
  total : Nat
  blockPos : Nat

/-- "finish off fixups for the last page, if any", smlrl.c:3329-3350 and 3370-3389 -/
def finish (t : St) : St :=
  if t.blockSize ≠ 0 then
    let f := if t.blockSize / 2 % 2 = 1 then t.f.write (le16 0) else t.f
    let bs := (if t.blockSize / 2 % 2 = 1 then t.blockSize + 2 else t.blockSize) % 2 ^ 32
    let bs := (bs + 8) % 2 ^ 32
    let f := ((f.seek t.blockPos).write (le32 (t.lastPage * 4096 % 2 ^ 32))).write (le32 bs)
    let bp := (t.blockPos + bs) % 2 ^ 32
    ⟨f.seek bp, t.lastPage * 4096 % 2 ^ 32, bs, (t.total + bs) % 2 ^ 32, bp⟩
  else t

/-- smlrl.c:3326-3364: a fixup at `addr` (relative to the image) -/
def add (t : St) (addr : Nat) : St :=
  let page := addr / 4096
  let t := if page ≠ t.lastPage then
      let t := finish t
      { t with lastPage := page, blockSize := 0, f := (t.f.write (le32 page)).write (le32 0) }
    else t
  { t with f := t.f.write (le16 (addr % 4096 ||| 3 <<< 12)), blockSize := (t.blockSize + 2) % 2 ^ 32 }

/-- smlrl.c:3265-3267: `pos` is the end of what `Pass` wrote -/
def start (f0 : Bytes) : St := ⟨⟨f0, f0.length⟩, 0xFFFFFFFF, 0, 0, f0.length⟩

/-- smlrl.c:3369-3400: the bytes of the file, `DataDirectory[5].Size` and `PointerToRawData` of the section .reloc -/
def close (t : St) : Bytes × Nat × Nat :=
  let t := finish t
  let t := if t.total = 0 then { t with f := t.f.write (le32 0 ++ le32 12 ++ le32 0), total := 12, blockPos := (t.blockPos + 12) % 2 ^ 32 } else t
  ((t.f.write (List.replicate ((512 + 2 ^ 32 - t.total) % 512) 0)).bytes, t.total, Exe.sub32 t.blockPos t.total)

/-- the table for the addresses `l`, written behind `f0` -/
def table (f0 : Bytes) (l : List Nat) : Bytes × Nat × Nat := close (l.foldl add (start f0))

/-! ### which relocations are in the table -/

inductive Err
  /-- "Unsupported relocation type in PE" -/
  | type
  /-- "Unsupported relocation size in PE" -/
  | size
  deriving DecidableEq

/-- smlrl.c:3299-3303: nothing is relocated in sections with these names -/
def isImport (n : Name) : Bool := (str ".dll_import").isPrefixOf n || (str ".dll_iat").isPrefixOf n

/-- the loop over the relocations of a section at `base`, smlrl.c:3306-3324 -/
def ofSection (imageBase base : Nat) : List RawRel → Except Err (List Nat)
  | [] => .ok []
  | r :: rs =>
    if r.sym = 0 then .error .type
    else if r.type = 21 ∨ r.type = 2 then ofSection imageBase base rs
    else if r.type ≠ 1 then .error .size
    else match ofSection imageBase base rs with
      | .error e => .error e
      | .ok l => .ok (Exe.sub32 (r.off + base) imageBase :: l)

/-- the loops of smlrl.c:3269-3305.  The sections are those that `Pass` has placed, in its order, with their addresses; only sections of type SHT_PROGBITS are looked at -/
def sites (imageBase : Nat) : List (Item × Nat) → Except Err (List Nat)
  | [] => .ok []
  | x :: xs =>
    if x.1.s.sec.attrs.nobits || isImport x.1.s.sec.name then sites imageBase xs
    else match ofSection imageBase x.2 x.1.s.rels with
      | .error e => .error e
      | .ok a =>
        match sites imageBase xs with
        | .error e => .error e
        | .ok b => .ok (a ++ b)

/-- smlrl.c:3258-3400 behind the file `f0` -/
def fixups (imageBase : Nat) (f0 : Bytes) (tab : List (Item × Nat)) : Except Err (Bytes × Nat × Nat) :=
  match sites imageBase tab with
  | .error e => .error e
  | .ok l => .ok (table f0 l)

end Smlr.Fixup
