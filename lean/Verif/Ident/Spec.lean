import Verif.Ident.Model
import Verif.Macro.Spec
set_option autoImplicit false
/-! Interning as it should be: a list of different spellings, and a list of labels. -/
namespace Smlr.Ident
open Smlr.Macro (Str NoNul Tab rd)

/-- a label: spelling, number, whether defined and used -/
structure ALab where
  name : Str
  num : Nat
  defd : Bool
  used : Bool

/-- the identifiers known, oldest first; the labels of the function, oldest first; how many identifiers were known at the
start of each open block, innermost first; the number of the next label -/
structure A where
  ids : List Str
  labs : List ALab
  marks : List Nat
  cnt : Nat

def A.addId (a : A) (n : Str) : A := { a with ids := if n ∈ a.ids then a.ids else a.ids ++ [n] }

def A.labNames (a : A) : List Str := a.labs.map (·.name)

/-- labels that are not among the first `m` identifiers -/
def A.newer (a : A) (m : Nat) : List Str := a.labNames.filter fun n => n ∉ a.ids.take m

def A.step (a : A) : Op → A
  | .add n => a.addId n
  | .label n d =>
    if n ∈ a.labNames then
      { a with labs := a.labs.map fun l => if l.name = n then { l with defd := l.defd || d, used := l.used || !d } else l }
    else { a.addId n with labs := a.labs ++ [{ name := n, num := a.cnt, defd := d, used := !d }], cnt := a.cnt + 1 }
  | .enter => { a with marks := a.ids.length :: a.marks }
  | .leave => match a.marks with
    | [] => a
    | m :: ms => { a with ids := a.ids.take m ++ a.newer m, marks := ms }
  | .cut => match a.marks with
    | [] => a
    | m :: ms => { a with ids := a.ids.take m, marks := ms }
  | .start => { a with labs := [] }

/-- bytes taken by a spelling: itself, the NUL, the length -/
def size (n : Str) : Nat := n.length + 2

def total (ids : List Str) : Nat := (ids.map size).sum

/-- where a spelling is -/
def offset : List Str → Str → Nat
  | [], _ => 0
  | e :: es, n => if e = n then 0 else size e + offset es n

/-- the C string at a handle is `n` -/
def Denotes (t : Tab) (h : Nat) (n : Str) : Prop := ∀ i, i ≤ n.length → rd t (h + i) = .ok ((n ++ [0])[i]?.getD 0)

/-- a block may be left: its new labels stand in the table in the order in which they were first mentioned as labels -/
def A.Ordered (a : A) : Prop := ∀ m ms, a.marks = m :: ms → a.newer m = (a.ids.drop m).filter fun n => n ∈ a.labNames

/-- no label is thrown away with the identifiers of an expression -/
def A.NoLabels (a : A) : Prop := ∀ m ms, a.marks = m :: ms → a.newer m = []

/-- the conditions, at every end of a block or expression of a history -/
def OrderedRun (a : A) : List Op → Prop
  | [] => True
  | o :: os => (o = .leave → a.Ordered) ∧ (o = .cut → a.NoLabels) ∧ OrderedRun (a.step o) os

/-- a history that ends no block or expression it did not begin; `d` are open already -/
def Within : Nat → List Op → Prop
  | _, [] => True
  | d, o :: os => match o with
    | .enter => Within (d + 1) os
    | .leave | .cut => ∃ d', d = d' + 1 ∧ Within d' os
    | _ => Within d os

def A.run (a : A) : List Op → A
  | [] => a
  | o :: os => (a.step o).run os

def A.init : A := { ids := [], labs := [], marks := [], cnt := 0 }

/-- spellings are C strings -/
def Op.Ok : Op → Prop
  | .add n => NoNul n
  | .label n _ => NoNul n
  | _ => True

end Smlr.Ident
