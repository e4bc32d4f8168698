import Verif.Pe.Model
import Verif.Exe.Spec
import Verif.Fixup.Spec
set_option autoImplicit false
/-! What Windows does with a program: Microsoft's "PE Format", for 80386 images with the usual alignments. -/
namespace Smlr.Pe
open Smlr.Sect (Bytes)
open Smlr.Exe (u16 u32 Seg)

/-- a size in whole pages -/
def pages (x : Nat) : Nat := (x + 4095) / 4096 * 4096

/-- the image of a program -/
structure Img where
  base : Nat
  entry : Nat
  segs : List Seg
  /-- IMAGE_FILE_RELOCS_STRIPPED: it must be loaded at `base` -/
  fixed : Bool
  /-- IMAGE_DLLCHARACTERISTICS_DYNAMIC_BASE: it may be loaded elsewhere -/
  dynamic : Bool
  /-- where the relocation table is, relative to `base`, and its size -/
  relocs : Nat × Nat
  imports : Nat × Nat
  iats : Nat × Nat

/-- the `n` sections whose headers are at `o`, with what their number ends at.  They must follow each other in memory without gaps, starting at `va` (relative to `base`).
What is in the file must lie in it, at a multiple of 512, and fit; zeros follow up to the end of the page -/
def segments (f : Bytes) (base : Nat) : Nat → Nat → Nat → Option (List Seg × Nat)
  | _, 0, va => some ([], va)
  | o, n + 1, va =>
    let vsize := u32 f (o + 8)
    let raw := u32 f (o + 16)
    let ptr := u32 f (o + 20)
    let flags := u32 f (o + 36)
    if u32 f (o + 12) = va ∧ raw % 512 = 0 ∧ ptr % 512 = 0 ∧ ptr + raw ≤ f.length ∧ raw ≤ pages vsize then
      match segments f base (o + 40) n (va + pages vsize) with
      | none => none
      | some (l, e) =>
        some (⟨base + va, (f.drop ptr).take raw ++ List.replicate (pages vsize - raw) 0, flags / 2 ^ 30 % 2 = 1, flags / 2 ^ 31 % 2 = 1, flags / 2 ^ 29 % 2 = 1⟩ :: l, e)
    else none

/-- loading a file.  `o` is where the signature is, `u32 f (o + 84)` the size of the headers, which are loaded at `base`; `u32 f (o + 80)` is the size of the image -/
def load (f : Bytes) : Option Img :=
  let o := u32 f 60
  let n := u16 f (o + 6)
  let flags := u16 f (o + 22)
  let base := u32 f (o + 52)
  let hdrs := u32 f (o + 84)
  if u16 f 0 = 0x5A4D ∧ u32 f o = 0x4550 ∧ u16 f (o + 4) = 0x14C ∧ u16 f (o + 20) = 224 ∧ flags / 2 % 2 = 1 ∧ flags / 2 ^ 13 % 2 = 0 ∧ u16 f (o + 24) = 0x10B ∧ base % 65536 = 0 ∧
      u32 f (o + 56) = 4096 ∧ u32 f (o + 60) = 512 ∧ hdrs % 512 = 0 ∧ o + 248 + 40 * n ≤ hdrs ∧ hdrs ≤ f.length ∧ u16 f (o + 92) = 3 ∧ u32 f (o + 116) = 16 then
    match segments f base (o + 248) n (pages hdrs) with
    | none => none
    | some (l, e) =>
      if u32 f (o + 80) = e ∧ base + e ≤ 2 ^ 32 then
        some ⟨base, (base + u32 f (o + 40)) % 2 ^ 32, l, flags % 2 = 1, u16 f (o + 94) / 64 % 2 = 1, (u32 f (o + 160), u32 f (o + 164)), (u32 f (o + 128), u32 f (o + 132)),
          (u32 f (o + 216), u32 f (o + 220))⟩
      else none
  else none

end Smlr.Pe
