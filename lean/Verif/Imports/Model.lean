import Verif.Pe.Model
set_option autoImplicit false
/-! Model of what `RwPe` does to the import tables (smlrl.c:3174-3190 and 3217-3256): addresses in them are made relative to the image. -/
namespace Smlr.Imports
open Smlr.Sect (Bytes Name str)
open Smlr.Exe (le32 sub32)
open Smlr.Pe (patch)

/-- the word at a position of the file, as `Fread` has it -/
def word (f : Bytes) (p : Nat) : Nat :=
  (f.getD p 0).toNat + 256 * (f.getD (p + 1) 0).toNat + 65536 * (f.getD (p + 2) 0).toNat + 16777216 * (f.getD (p + 3) 0).toNat

/-- a loop whose body gives the file and the next offset, or no offset where the loop ends.  No result means that `Fread` failed, which ends the linker; so it does when the first number
(the length of the file) reaches 0, as the offset has passed the end of the file by then -/
def loop (step : Nat → Bytes → Option (Bytes × Option Nat)) : Nat → Nat → Bytes → Option Bytes
  | 0, _, _ => none
  | n + 1, ofs, f =>
    match step ofs f with
    | none => none
    | some (f, none) => some f
    | some (f, some ofs) => loop step n ofs f

/-- the body of the loops over the entries of a table, for the entry at `ofs`, relative to the image; smlrl.c:3234-3243 and 3245-3254 -/
def thunk (base ofs : Nat) (f : Bytes) : Option (Bytes × Option Nat) :=
  let p := (sub32 ofs 4096 + 1024) % 2 ^ 32
  if p + 4 ≤ f.length then
    let v := word f p
    if v = 0 then some (f, none) else some (patch f (p, le32 (sub32 v base)), some ((ofs + 4) % 2 ^ 32))
  else none

def thunks (base n ofs : Nat) (f : Bytes) : Option Bytes := loop (thunk base) n ofs f

/-- the body of the loop over the import descriptors, for the one at the address `iofs`; smlrl.c:3222-3254.  `Origin` is `base + 4096`, `hdrsz` is 1024 -/
def desc (base iofs : Nat) (f : Bytes) : Option (Bytes × Option Nat) :=
  let p := (sub32 iofs (base + 4096) + 1024) % 2 ^ 32
  if p + 20 ≤ f.length then
    let a := word f p
    let b := word f (p + 12)
    let c := word f (p + 16)
    if a = 0 ∨ b = 0 ∨ c = 0 then some (f, none)
    else
      let a := sub32 a base
      let b := sub32 b base
      let c := sub32 c base
      let f := patch f (p, le32 a ++ le32 (word f (p + 4)) ++ le32 (word f (p + 8)) ++ le32 b ++ le32 c)
      match thunks base f.length a f with
      | none => none
      | some f =>
        match thunks base f.length c f with
        | none => none
        | some f => some (f, some ((iofs + 20) % 2 ^ 32))
  else none

/-- the loop over the import descriptors, smlrl.c:3220-3255 -/
def descs (base n iofs : Nat) (f : Bytes) : Option Bytes := loop (desc base) n iofs f

/-- smlrl.c:3217; `start` is the address of `__dll_imports`, 0 if there is none -/
def relative (base start : Nat) (f : Bytes) : Option Bytes := if start ≠ 0 then descs base f.length start f else some f

/-- `DataDirectory[1]` and `DataDirectory[12]`, smlrl.c:3174-3190; `sym` is `FindSymbolAddress` -/
def dirs (sym : Name → Nat) (base : Nat) : (Nat × Nat) × (Nat × Nat) :=
  let start := sym (str "__dll_imports")
  if start ≠ 0 then
    let stop := sym (str "__dll_imports_end")
    let istart := sym (str "__dll_iats")
    let istop := sym (str "__dll_iats_end")
    ((sub32 start base, if stop ≠ 0 then sub32 stop start else 0),
     if istart ≠ 0 then (sub32 istart base, if istop ≠ 0 then sub32 istop istart else 0) else (0, 0))
  else ((0, 0), (0, 0))

end Smlr.Imports
