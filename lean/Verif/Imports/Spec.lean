import Verif.Imports.Model
set_option autoImplicit false
/-! The import tables of PE files ("PE Format": The .idata Section).  With `k` = 0 this is what Windows reads; with `k` the address of the image this is what assemblers make, which know addresses only.
`f` is the file, with what is at 4096 and up in the image at 1024 and up. -/
namespace Smlr.Imports
open Smlr.Sect (Bytes)

/-- the position in the file of what is at `r`, relative to the image -/
def pos (r : Nat) : Nat := r - 4096 + 1024

/-- the word at `r` -/
def at_ (f : Bytes) (r : Nat) : Nat :=
  (f.getD (pos r) 0).toNat + 256 * (f.getD (pos r + 1) 0).toNat + 256 ^ 2 * (f.getD (pos r + 2) 0).toNat + 256 ^ 3 * (f.getD (pos r + 3) 0).toNat

/-- a function that is imported: by its name, which is at `r`, or by a number -/
inductive Fn
  | name (r : Nat)
  | ord (n : Nat)
  deriving DecidableEq

/-- the word `w` stands for a function; the highest bit tells numbers -/
def Fn.Is (k w : Nat) : Fn → Prop
  | .name r => w = k + r ∧ 4096 ≤ r ∧ w < 2 ^ 31
  | .ord n => w = 2 ^ 31 + n ∧ n < 65536

/-- the table at `r` lists functions; 0 ends it -/
def Thunks (k : Nat) (f : Bytes) : Nat → List Fn → Prop
  | r, [] => at_ f r = 0
  | r, x :: l => x.Is k (at_ f r) ∧ Thunks k f (r + 4) l

/-- a library: where the name is, the import lookup table and the import address table -/
structure Dll where
  name : Nat
  ilt : Nat
  lookup : List Fn
  iat : Nat
  slots : List Fn

/-- the descriptors at `r`; an empty one ends them -/
def Table (k : Nat) (f : Bytes) : Nat → List Dll → Prop
  | r, [] => at_ f r = 0 ∧ at_ f (r + 12) = 0 ∧ at_ f (r + 16) = 0
  | r, d :: l => (at_ f r = k + d.ilt ∧ 4096 ≤ d.ilt) ∧ (at_ f (r + 12) = k + d.name ∧ 4096 ≤ d.name) ∧ (at_ f (r + 16) = k + d.iat ∧ 4096 ≤ d.iat) ∧
      Thunks k f d.ilt d.lookup ∧ Thunks k f d.iat d.slots ∧ Table k f (r + 20) l

/-- the words of a table of `n` entries with the 0 at its end -/
def words (r : Nat) : Nat → List Nat
  | 0 => [r]
  | n + 1 => r :: words (r + 4) n

/-- the words that hold addresses or end something -/
def cells : Nat → List Dll → List Nat
  | r, [] => [r, r + 12, r + 16]
  | r, d :: l => [r, r + 12, r + 16] ++ words d.ilt d.lookup.length ++ words d.iat d.slots.length ++ cells (r + 20) l

/-- two words that have no byte in common -/
def Apart (a b : Nat) : Prop := a + 4 ≤ b ∨ b + 4 ≤ a

/-- nothing but the words at `C` differs in the two files -/
def Same (f f' : Bytes) (C : List Nat) : Prop := ∀ i, (∀ c ∈ C, i < pos c ∨ pos c + 4 ≤ i) → f'.getD i 0 = f.getD i 0

/-- all functions of the list are imported by name -/
def Named (l : List Fn) : Prop := ∀ x ∈ l, ∃ r, x = .name r

end Smlr.Imports
