import Verif.Reloc.Model
set_option autoImplicit false
namespace Smlr.Reloc

/-- little endian number -/
def le : Bytes → Nat
  | [] => 0
  | b :: bs => b.toNat + 256 * le bs

/-- width of the field of a relocation -/
def width (type : Nat) : Option Nat :=
  if type ∈ [1, 2] then some 4 else if type ∈ [20, 21] then some 2 else none

/-- pc-relative types -/
def pcRel (type : Nat) : Prop := type = 2 ∨ type = 21

/-- `new` is what `old` is to become in a field at address `place`: same length; an absolute field grows by the symbol's address;
a pc-relative field plus its place is the symbol's address plus what the field held -/
structure Fixed (r : Rel) (place : Nat) (old new : Bytes) : Prop where
  length : new.length = old.length
  absolute : ¬ pcRel r.type → le new % 256 ^ old.length = (r.addr + le old) % 256 ^ old.length
  relative : pcRel r.type → (le new + place) % 256 ^ old.length = (r.addr + le old) % 256 ^ old.length

/-- the bytes of a field in a section -/
def fieldOf (s : Bytes) (r : Rel) (w : Nat) : Bytes := (s.drop r.off).take w

/-- `t` is the section `s` at address `base` with all relocations applied: fields are fixed, bytes outside of fields are unchanged -/
structure Patched (base : Nat) (rels : List Rel) (s t : Bytes) : Prop where
  length : t.length = s.length
  fields : ∀ r ∈ rels, ∀ w, width r.type = some w → Fixed r (r.off + base) (fieldOf s r w) (fieldOf t r w)
  others : ∀ i, (∀ r ∈ rels, ∀ w, width r.type = some w → ¬ (r.off ≤ i ∧ i < r.off + w)) → t[i]? = s[i]?

/-- the relocation has a known type and its field lies in a section of `n` bytes -/
def Inside (n : Nat) (r : Rel) : Prop := ∃ w, width r.type = some w ∧ r.off + w ≤ n

/-- fields do not overlap (and are in order of their offsets) -/
def Apart (r r' : Rel) : Prop := ∀ w, width r.type = some w → r.off + w ≤ r'.off

/-- the whole section patched in memory, one relocation after the other -/
def whole (base : Nat) : List Rel → Bytes → Except Err Bytes
  | [], s => .ok s
  | r :: rs, s => match relocate r (r.off + base) r.off s with
    | .error e => .error e
    | .ok s => whole base rs s

end Smlr.Reloc
