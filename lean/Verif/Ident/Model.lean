import Verif.Macro.Model
set_option autoImplicit false
/-! Model of the identifier table (smlrc.c:566, 841-925).

`IdentTable` is an array of `MAX_IDENT_TABLE_LEN` bytes (`Tab`, with the byte accesses of `Verif/Macro/Model.lean`; an
access outside it is the outcome `oob`).  Handles are byte offsets. -/
namespace Smlr.Ident
open Smlr.Macro (Str Tab Err rd wr wrs strEq move)

/-- `MAX_IDENT_TABLE_LEN`, smlrc.c:117 -/
def maxLen : Nat := 5632

/-- `MAX_GOTO_LABELS`, smlrc.c:170 -/
def maxLabels : Nat := 16

/-- `FindIdent`, smlrc.c:841-852, the loop from `i` on; `none` is -1 -/
def find (t : Tab) (name : Str) (i : Nat) : Except Err (Option Nat) :=
  if h : i = 0 then .ok none
  else
    match rd t (i - 1) with
    | .error e => .error e
    | .ok b =>
      if i < 1 + b.toNat then .error .oob
      else
        match strEq t (i - (1 + b.toNat)) name with
        | .error e => .error e
        | .ok true => .ok (some (i - (1 + b.toNat)))
        | .ok false => find t name (i - (1 + b.toNat))
termination_by i
decreasing_by omega

/-- `AddIdent`, smlrc.c:854-876: the table and the handle -/
def add (t : Tab) (name : Str) : Except Err (Tab × Nat) :=
  match find t name t.len with
  | .error e => .error e
  | .ok (some i) => .ok (t, i)
  | .ok none =>
    let len := name.length
    if len ≥ 127 then .error .nameTooLong
    else if maxLen - t.len < len + 2 then .error .full
    else
      match wrs t t.len (name ++ [0]) with
      | .error e => .error e
      | .ok t1 =>
        match wr t1 (t1.len + (len + 1)) (UInt8.ofNat (len + 1)) with
        | .error e => .error e
        | .ok t2 => .ok ({ t2 with len := t2.len + (len + 1) + 1 }, t.len)

/-- an element of `gotoLabels` and `gotoLabStat`: handle, label number, status (1: defined, 2: used) -/
structure Lab where
  h : Nat
  num : Nat
  stat : Nat

/-- table, goto labels, `LabelCnt` -/
structure St where
  tab : Tab
  labs : List Lab
  cnt : Nat

inductive LErr
  | tab (e : Err) | redefinition | labelsFull

/-- the search loop of `AddGotoLabel`, smlrc.c:891-900: labels before the one found, it, and those after it -/
def findLab (t : Tab) (name : Str) : List Lab → Except Err (Option (List Lab × Lab × List Lab))
  | [] => .ok none
  | l :: ls => match strEq t l.h name with
    | .error e => .error e
    | .ok true => .ok (some ([], l, ls))
    | .ok false => match findLab t name ls with
      | .error e => .error e
      | .ok none => .ok none
      | .ok (some (a, x, b)) => .ok (some (l :: a, x, b))

/-- `AddGotoLabel`, smlrc.c:888-907: state and label number; `label` tells definition from use -/
def addLabel (s : St) (name : Str) (label : Bool) : Except LErr (St × Nat) :=
  let bit := if label then 1 else 2
  match findLab s.tab name s.labs with
  | .error e => .error (.tab e)
  | .ok (some (a, l, b)) =>
    if label = true ∧ l.stat % 2 = 1 then .error .redefinition
    else .ok ({ s with labs := a ++ { l with stat := l.stat ||| bit } :: b }, l.num)
  | .ok none =>
    if s.labs.length ≥ maxLabels then .error .labelsFull
    else match add s.tab name with
      | .error e => .error (.tab e)
      | .ok (t, h) => .ok ({ tab := t, labs := s.labs ++ [{ h := h, num := s.cnt, stat := bit }], cnt := s.cnt + 1 }, s.cnt)

/-- `strlen(IdentTable + i)` -/
def strlen (t : Tab) (i : Nat) : Except Err Nat :=
  let s := (t.mem.drop i).takeWhile (· ≠ 0)
  if i + s.length < t.mem.length then .ok s.length else .error .oob

/-- the loop of `UndoNonLabelIdents`, smlrc.c:914-924 -/
def undoLoop (len : Nat) (t : Tab) : List Lab → Except Err (Tab × List Lab)
  | [] => .ok (t, [])
  | l :: ls =>
    if l.h ≥ len then
      match strlen t l.h with
      | .error e => .error e
      | .ok n =>
        match move t t.len l.h (n + 2) with
        | .error e => .error e
        | .ok t1 =>
          match undoLoop len { t1 with len := t.len + (n + 2) } ls with
          | .error e => .error e
          | .ok (t2, ls) => .ok (t2, { l with h := t.len } :: ls)
    else
      match undoLoop len t ls with
      | .error e => .error e
      | .ok (t2, ls) => .ok (t2, l :: ls)

/-- `UndoNonLabelIdents`, smlrc.c:910-925 -/
def undo (s : St) (len : Nat) : Except Err St :=
  match undoLoop len { s.tab with len := len } s.labs with
  | .error e => .error e
  | .ok (t, ls) => .ok { s with tab := t, labs := ls }

/-- what the parser does with the table inside a function body: mention an identifier, mention or define a label, enter a
block (smlrc.c:8785, 9286), leave it (smlrc.c:8795, 9435), throw away what was added since `IdentTableLen` was saved
(`cut`, smlrc.c:6680, 6917, 7332, 7434 after an expression, 8474 at the end of a function), forget the labels (`start`,
smlrc.c:8371).  The code forgets the labels of a function at the start of the next one; as nothing looks at them between
functions, a function body is `enter … start cut` here -/
inductive Op
  | add (name : Str)
  | label (name : Str) (define : Bool)
  | enter
  | leave
  | cut
  | start

/-- state of the table and the saved values of `IdentTableLen`, innermost first -/
structure M where
  s : St
  marks : List Nat

/-- one operation, and the handle or label number it gives -/
def step (m : M) : Op → Except LErr (M × Option Nat)
  | .add n => match add m.s.tab n with
    | .error e => .error (.tab e)
    | .ok (t, h) => .ok ({ m with s := { m.s with tab := t } }, some h)
  | .label n d => match addLabel m.s n d with
    | .error e => .error e
    | .ok (s, k) => .ok ({ m with s := s }, some k)
  | .enter => .ok ({ m with marks := m.s.tab.len :: m.marks }, none)
  | .leave => match m.marks with
    | [] => .ok (m, none)
    | k :: ks => match undo m.s k with
      | .error e => .error (.tab e)
      | .ok s => .ok ({ s := s, marks := ks }, none)
  | .cut => match m.marks with
    | [] => .ok (m, none)
    | k :: ks => .ok ({ s := { m.s with tab := { m.s.tab with len := k } }, marks := ks }, none)
  | .start => .ok ({ m with s := { m.s with labs := [] } }, none)

def run (m : M) : List Op → Except LErr M
  | [] => .ok m
  | o :: os => match step m o with
    | .error e => .error e
    | .ok (m, _) => run m os

/-- an empty table, at the start of a function -/
def init : M := { s := { tab := { mem := List.replicate maxLen 0, len := 0 }, labs := [], cnt := 0 }, marks := [] }

end Smlr.Ident
