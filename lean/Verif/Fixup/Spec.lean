import Verif.Fixup.Model
import Verif.Whole.Spec
set_option autoImplicit false
/-! What Windows does with the table of base relocations (Microsoft's "PE Format", the .reloc section): it consists of blocks, each for a page; when the image is not loaded at its preferred
address, the difference is added to the 32-bit words at the addresses listed. -/
namespace Smlr.Fixup
open Smlr.Sect (Bytes)
open Smlr.Exe (u32)
open Smlr.Whole (RawRel Item)

/-- the entries of a block: 4 bits type, 12 bits offset.  IMAGE_REL_BASED_ABSOLUTE (0) is skipped, IMAGE_REL_BASED_HIGHLOW (3) is a word; there are no others on the 80386 -/
def entries (page : Nat) : Bytes → Option (List Nat)
  | [] => some []
  | [_] => none
  | a :: b :: rest =>
    let e := a.toNat + 256 * b.toNat
    match entries page rest with
    | none => none
    | some l => if e / 4096 = 0 then some l else if e / 4096 = 3 then some ((page + e % 4096) :: l) else none

/-- at most `n` blocks: the address of the page, the size of the block, the entries.  Blocks start at multiples of 4 -/
def blocks : Nat → Bytes → Option (List Nat)
  | n, t =>
    if t = [] then some []
    else match n with
      | 0 => none
      | n + 1 =>
        if 8 ≤ u32 t 4 ∧ u32 t 4 % 4 = 0 ∧ u32 t 4 ≤ t.length ∧ u32 t 0 % 4096 = 0 then
          match entries (u32 t 0) ((t.take (u32 t 4)).drop 8), blocks n (t.drop (u32 t 4)) with
          | some a, some b => some (a ++ b)
          | _, _ => none
        else none

/-- the words that the table lists -/
def listed (t : Bytes) : Option (List Nat) := blocks t.length t

/-- memory, by the distance from where the image starts -/
abbrev Mem := Nat → UInt8

def word (m : Mem) (a : Nat) : Nat := (m a).toNat + 256 * (m (a + 1)).toNat + 65536 * (m (a + 2)).toNat + 16777216 * (m (a + 3)).toNat

/-- `d` is added to the word at `a` -/
def addTo (d : Nat) (m : Mem) (a : Nat) : Mem := fun k => if a ≤ k ∧ k < a + 4 then UInt8.ofNat ((word m a + d) / 256 ^ (k - a)) else m k

/-- loading the image `by d` from its preferred address -/
def rebase (d : Nat) (l : List Nat) (m : Mem) : Mem := l.foldl (addTo d) m

def bytesAt (m : Mem) (a n : Nat) : Bytes := (List.range n).map (fun k => m (a + k))

/-- sections as the linker has placed them: in the image and apart from each other, with relocations that lie in them and do not overlap -/
structure Placed (imageBase : Nat) (tab : List (Item × Nat)) : Prop where
  range : ∀ x ∈ tab, imageBase ≤ x.2 ∧ x.2 + x.1.s.sec.size ≤ 2 ^ 32
  apart : tab.Pairwise (fun x y => x.2 + x.1.s.sec.size ≤ y.2 ∨ y.2 + y.1.s.sec.size ≤ x.2)
  inside : ∀ x ∈ tab, ∀ r ∈ x.1.s.rels, ∃ w, Reloc.width r.type = some w ∧ r.off + w ≤ x.1.s.sec.size
  clear : ∀ x ∈ tab, x.1.s.rels.Pairwise Whole.Clear

end Smlr.Fixup
