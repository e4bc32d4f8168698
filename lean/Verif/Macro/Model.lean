set_option autoImplicit false
/-! Model of the macro table (smlrc.c:557, 722-816, 2213-2264).

`MacroTable` is an array of `MAX_MACRO_TABLE_LEN` bytes; any access outside it is the outcome `oob`.  The elements are C
`char`s; those used as lengths are read as unsigned (they never exceed 127, part of the proved invariant).  `strlen`,
`strcpy`, `memmove` are taken as specified (they are verified in `Verif/Mem`). -/
namespace Smlr.Macro

abbrev Str := List UInt8

inductive Err
  | oob | nameTooLong | full | bodyTooLong | redefinition
  deriving DecidableEq

/-- `MAX_MACRO_TABLE_LEN`, smlrc.c:122 -/
def maxLen : Nat := 5120

structure Tab where
  mem : Str
  len : Nat

/-- `MacroTable[i]` -/
def rd (t : Tab) (i : Nat) : Except Err UInt8 :=
  match t.mem[i]? with
  | some c => .ok c
  | none => .error .oob

/-- `MacroTable[i] = c` -/
def wr (t : Tab) (i : Nat) (c : UInt8) : Except Err Tab :=
  if i < t.mem.length then .ok { t with mem := t.mem.set i c } else .error .oob

/-- `!strcmp(MacroTable + i, name)` -/
def strEq (t : Tab) : Nat → Str → Except Err Bool
  | i, [] => match rd t i with
    | .error e => .error e
    | .ok c => .ok (c = 0)
  | i, x :: xs => match rd t i with
    | .error e => .error e
    | .ok c => if c = x then strEq t (i + 1) xs else .ok false

/-- `FindMacro`, smlrc.c:722-737, from index `i` on; `none` is -1 -/
def find (t : Tab) (name : Str) (i : Nat) : Except Err (Option Nat) :=
  if i < t.len then
    match strEq t (i + 1) name with
    | .error e => .error e
    | .ok same =>
      match rd t i with
      | .error e => .error e
      | .ok a =>
        if same then .ok (some (i + 1 + a.toNat))
        else
          match rd t (i + 1 + a.toNat) with
          | .error e => .error e
          | .ok b => find t name (i + 1 + a.toNat + 1 + b.toNat)
  else .ok none
termination_by t.len - i
decreasing_by omega

/-- `memmove(MacroTable + d, MacroTable + s, n)` -/
def move (t : Tab) (d s n : Nat) : Except Err Tab :=
  if d + n ≤ t.mem.length ∧ s + n ≤ t.mem.length then
    .ok { t with mem := t.mem.take d ++ (t.mem.drop s).take n ++ t.mem.drop (d + n) }
  else .error .oob

/-- `UndefineMacro`, smlrc.c:739-764, from index `i` on -/
def undefine (t : Tab) (name : Str) (i : Nat) : Except Err Tab :=
  if i < t.len then
    match strEq t (i + 1) name with
    | .error e => .error e
    | .ok same =>
      match rd t i with
      | .error e => .error e
      | .ok a =>
        match rd t (i + (1 + a.toNat)) with
        | .error e => .error e
        | .ok b =>
          if same then
            let len := 1 + a.toNat + 1 + b.toNat
            match move t i (i + len) (t.len - i - len) with
            | .error e => .error e
            | .ok t => .ok { t with len := t.len - len }
          else undefine t name (i + 1 + a.toNat + 1 + b.toNat)
  else .ok t
termination_by t.len - i
decreasing_by omega

/-- consecutive stores, as `strcpy` does them -/
def wrs (t : Tab) : Nat → Str → Except Err Tab
  | _, [] => .ok t
  | i, c :: cs => match wr t i c with
    | .error e => .error e
    | .ok t => wrs t (i + 1) cs

/-- `AddMacroIdent`, smlrc.c:766-782 -/
def addIdent (t : Tab) (name : Str) : Except Err Tab :=
  let l := name.length
  if l ≥ 127 then .error .nameTooLong
  else if maxLen - t.len < l + 3 then .error .full
  else
    match wr t t.len (UInt8.ofNat (l + 1)) with
    | .error e => .error e
    | .ok t =>
      match wrs t (t.len + 1) (name ++ [0]) with
      | .error e => .error e
      | .ok t => wr { t with len := t.len + 1 + (l + 1) } (t.len + 1 + (l + 1)) 0

/-- `strchr(" \t", c)`, which also finds the NUL -/
def blank (c : UInt8) : Bool := c = 0x20 || c = 9 || c = 0

/-- the loop at smlrc.c:791-793; `n` is `MacroTable[MacroTableLen]` -/
def trim (t : Tab) : Nat → Except Err Nat
  | 0 => .ok 0
  | n + 1 => match rd t (t.len + (n + 1)) with
    | .error e => .error e
    | .ok c => if blank c then trim t n else .ok (n + 1)

/-- `AddMacroExpansionChar('\0')`, smlrc.c:786-796 -/
def finish (t : Tab) : Except Err Tab :=
  match rd t t.len with
  | .error e => .error e
  | .ok n =>
    match trim t n.toNat with
    | .error e => .error e
    | .ok n =>
      match wr t t.len (UInt8.ofNat n) with
      | .error e => .error e
      | .ok t => .ok { t with len := t.len + 1 + n }

/-- `AddMacroExpansionChar(e)`, smlrc.c:798-805, `e` not NUL -/
def addChar (t : Tab) (e : UInt8) : Except Err Tab :=
  match rd t t.len with
  | .error e => .error e
  | .ok n =>
    if t.len + 1 + n.toNat ≥ maxLen then .error .full
    else if n.toNat ≥ 127 then .error .bodyTooLong
    else
      match wr t (t.len + 1 + n.toNat) e with
      | .error e => .error e
      | .ok t => wr t t.len (UInt8.ofNat (n.toNat + 1))

def addChars (t : Tab) : Str → Except Err Tab
  | [] => finish t
  | c :: cs => match addChar t c with
    | .error e => .error e
    | .ok t => addChars t cs

/-- `DefineMacro`, smlrc.c:808-816, used for `-D` and for predefined macros -/
def defineMacro (t : Tab) (name body : Str) : Except Err Tab :=
  match addIdent t name with
  | .error e => .error e
  | .ok t => addChars t body

/-- `#define name body`, smlrc.c:2230-2251; `body` is the text after white space was collapsed -/
def define (t : Tab) (name body : Str) : Except Err Tab :=
  match find t name 0 with
  | .error e => .error e
  | .ok (some _) => .error .redefinition
  | .ok none => defineMacro t name body

/-- reading the expansion, smlrc.c:2039-2042 -/
def rds (t : Tab) : Nat → Nat → Except Err Str
  | _, 0 => .ok []
  | i, n + 1 => match rd t i with
    | .error e => .error e
    | .ok c => match rds t (i + 1) n with
      | .error e => .error e
      | .ok cs => .ok (c :: cs)

/-- expansion of `name`, smlrc.c:2037-2042 -/
def expand (t : Tab) (name : Str) : Except Err (Option Str) :=
  match find t name 0 with
  | .error e => .error e
  | .ok none => .ok none
  | .ok (some i) =>
    match rd t i with
    | .error e => .error e
    | .ok n => match rds t (i + 1) n.toNat with
      | .error e => .error e
      | .ok s => .ok (some s)

/-- directives -/
inductive Op
  | define (name body : Str)
  | undef (name : Str)

def step (t : Tab) : Op → Except Err Tab
  | .define n b => define t n b
  | .undef n => undefine t n 0

def run (t : Tab) : List Op → Except Err Tab
  | [] => .ok t
  | o :: os => match step t o with
    | .error e => .error e
    | .ok t => run t os

/-- definitions given on the command line, and predefined ones -/
def runDefs (t : Tab) : List (Str × Str) → Except Err Tab
  | [] => .ok t
  | (n, b) :: ds => match defineMacro t n b with
    | .error e => .error e
    | .ok t => runDefs t ds

/-- the table at the start -/
def empty : Tab := { mem := List.replicate maxLen 0, len := 0 }

end Smlr.Macro
