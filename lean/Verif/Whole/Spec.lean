import Verif.Whole.Model
import Verif.Link.Spec
import Verif.Reloc.Spec
import Verif.Exe.Spec
set_option autoImplicit false
/-! What linking means: which modules the program consists of, what the value of a symbol is, and what stands in memory after the executable file has been loaded. -/
namespace Smlr.Whole
open Smlr.Sect (Bytes)
open Smlr.Link (Name)
open Smlr.Reloc (Sym)

/-- a global symbol with a name: binding STB_GLOBAL -/
def Global (s : Sym) : Prop := s.info / 16 = 1 ∧ s.name ≠ 0

instance (s : Sym) : Decidable (Global s) := inferInstanceAs (Decidable (_ ∧ _))

/-- the names that a module defines and those it wants: global symbols stand from index `sh_info` on, and have section number 0 (SHN_UNDEF) if they are not defined -/
def interface (m : Module) : Link.Obj :=
  ⟨((m.syms.drop m.nloc).filter (fun s => Global s ∧ s.shndx ≠ 0)).map (fun s => (m.strs s.name, 0)),
   ((m.syms.drop m.nloc).filter (fun s => Global s ∧ s.shndx = 0)).map (fun s => m.strs s.name)⟩

/-- module `i` is part of the program -/
def Needed (mods : List Module) (entry : Name) (i : Nat) : Prop := Link.Needs (mods.map interface) entry i

/-- section `j` of module `i` -/
def Has (mods : List Module) (i j : Nat) (s : MSec) : Prop := ∃ m, mods[i]? = some m ∧ m.secs[j]? = some (some s)

/-- a section of the program -/
def Part (mods : List Module) (entry : Name) (i j : Nat) (s : MSec) : Prop := Needed mods entry i ∧ Has mods i j s ∧ s.sec.alloc = true

/-- fields of two relocations do not overlap -/
def Clear (r r' : RawRel) : Prop := ∀ w w', Reloc.width r.type = some w → Reloc.width r'.type = some w' → r.off + w ≤ r'.off ∨ r'.off + w' ≤ r.off

/-- modules as assemblers write them -/
structure Inputs (mods : List Module) (entry : Name) : Prop where
  nloc : ∀ m ∈ mods, m.nloc ≤ m.syms.length
  sizes : ∀ i j s, Has mods i j s → s.sec.size < 2 ^ 32 ∧ s.sec.align < 2 ^ 32
  data : ∀ i j s, Has mods i j s → s.sec.attrs.nobits = false → s.sec.data.length = s.sec.size ∧ s.sec.size ≤ 2 ^ 32 - 1024
  /-- a section with the name of one that is part of the program is part of the program -/
  alloc : ∀ i j s i' j' s', Needed mods entry i → Has mods i j s → Needed mods entry i' → Has mods i' j' s' → s.sec.name = s'.sec.name → s.sec.alloc = true → s'.sec.alloc = true
  /-- relocations refer to symbols and lie in their section -/
  rels : ∀ i m j s, mods[i]? = some m → Has mods i j s → ∀ r ∈ s.rels, r.sym < m.syms.length ∧ ∃ w, Reloc.width r.type = some w ∧ r.off + w ≤ s.sec.size
  clear : ∀ i j s, Has mods i j s → s.rels.Pairwise Clear

/-- what C guarantees of `qsort` with `RelCmp` -/
def SortsRel (sortRel : List RawRel → List RawRel) : Prop := ∀ l, (sortRel l).Perm l ∧ (sortRel l).Pairwise (fun r r' => r.off ≤ r'.off)

section
variable (mods : List Module) (entry : Name) (place : Nat → Nat → Nat)

/-- `x` in `__start_x` and `__stop_x` stands for the sections `P`: those of one name that it matches, or all code, or all data -/
def Stands (x : Name) (P : MSec → Prop) : Prop :=
  (∃ n, Sect.Matches x n ∧ ∀ s, P s ↔ s.sec.name = n) ∨
  ((∀ i j s, Part mods entry i j s → ¬ Sect.Matches x s.sec.name) ∧
    ((x = Sect.str "allcode__" ∧ ∀ s, P s ↔ s.sec.attrs.exec = true) ∨ (x = Sect.str "alldata__" ∧ ∀ s, P s ↔ s.sec.attrs.exec = false)))

/-- `a` is the value of the name `__start_x` or `__stop_x`: the least address or the greatest end of the sections it stands for -/
def Marks (n : Name) (a : Nat) : Prop :=
  ∃ x P, x ≠ [] ∧ Stands mods entry x P ∧
    ((n = Sect.str "__start_" ++ x ∧ (∀ i j s, Part mods entry i j s → P s → a ≤ place i j) ∧ ∃ i j s, Part mods entry i j s ∧ P s ∧ place i j = a) ∨
     (n = Sect.str "__stop_" ++ x ∧ (∀ i j s, Part mods entry i j s → P s → place i j + s.sec.size ≤ a) ∧ ∃ i j s, Part mods entry i j s ∧ P s ∧ place i j + s.sec.size = a))

/-- `a` is the value of the name `n`: the address of the section plus the value of the symbol, in the module of the program that defines it, or the boundary of sections -/
inductive Names (n : Name) : Nat → Prop
  | defined (i : Nat) (m : Module) (s : Sym) : Needed mods entry i → mods[i]? = some m → s ∈ m.syms.drop m.nloc → Global s → s.shndx ≠ 0 → m.strs s.name = n →
      Names n ((place i s.shndx + s.value) % 2 ^ 32)
  | marks (a : Nat) : ¬ Link.Defined (mods.map interface) n → Marks mods entry place n a → Names n a

/-- `a` is the value of symbol number `k` of module `i`: 0 without a symbol, the address of the section of a section symbol (STT_SECTION), the value of the name of a global symbol -/
inductive Value (i : Nat) (m : Module) : Nat → Nat → Prop
  | none : Value i m 0 0
  | sect (k : Nat) (s : Sym) : m.syms[k]? = some s → s.info % 16 = 3 → Value i m k (place i s.shndx)
  | name (k : Nat) (s : Sym) (a : Nat) : m.syms[k]? = some s → s.info % 16 ≠ 3 → Global s → Names mods entry place (m.strs s.name) a → Value i m k a

/-- `t` is what the section `s` of module `i` must be at address `base`: zeros if it has no contents; else its contents, with each field fixed by the value of its symbol -/
structure Final (i : Nat) (m : Module) (base : Nat) (s : MSec) (t : Bytes) : Prop where
  length : t.length = s.sec.size
  zero : s.sec.attrs.nobits = true → ∀ b ∈ t, b = 0
  fields : s.sec.attrs.nobits = false → ∀ r ∈ s.rels, ∀ w, Reloc.width r.type = some w → ∃ a, Value mods entry place i m r.sym a ∧
    Reloc.Fixed ⟨r.off, r.type, a⟩ (r.off + base) ((s.sec.data.drop r.off).take w) ((t.drop r.off).take w)
  others : s.sec.attrs.nobits = false → ∀ k, (∀ r ∈ s.rels, ∀ w, Reloc.width r.type = some w → ¬ (r.off ≤ k ∧ k < r.off + w)) → t[k]? = s.sec.data[k]?

end

end Smlr.Whole
