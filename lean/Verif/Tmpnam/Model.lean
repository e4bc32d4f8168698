import Init
set_option autoImplicit false
/-! Model of `tmpnam` (srclib/tmpnam.c:115-186, 215-311).  Texts are lists without their final 0; a text that does not fit the
buffer of `L_tmpnam` bytes with its 0, and an access outside the text, is the outcome `none`. -/
namespace Smlr.Tmpnam

abbrev Str := List UInt8

/-- `static unsigned num; static char name[L_tmpnam]; static size_t plen;` -/
structure St where
  num : Nat := 0
  name : Str := []
  plen : Nat := 0
  deriving DecidableEq

/-- what the system says about a file: it exists, it does not, or another error -/
inductive Ans | present | absent | error
  deriving DecidableEq

/-- `TMP_MAX`, include/stdio.h:56, 63, 70, 77 -/
def tmpMax : Nat := 10000

/-- a text written into `name` -/
def fit (L : Nat) (s : Str) : Option Str := if s.length + 1 ≤ L then some s else none

def slash (c : UInt8) : Bool := c = 0x5C || c = 0x2F

/-- tmpnam.c:132-150: `name`, `plen` and `trailingSlash`, for a path that is not empty (tmpnam.c:182) -/
def adjust (L : Nat) (path : Str) : Option (Str × Nat × UInt8) :=
  let plen := path.length
  match path[plen - 1]? with
  | none => none
  | some last =>
    if slash last then
      if plen > 1 ∧ path[plen - 2]? ≠ some 0x3A then some (path.take (plen - 1), plen - 1, last)
      else some (path, plen, 0)
    else if last = 0x3A then (fit L (path ++ [0x5C])).map fun s => (s, plen + 1, 0)
    else some (path, plen, 0x5C)

/-- `TryPath`, tmpnam.c:122-169; `dir` tells whether there is such a directory -/
def tryPath (L : Nat) (dir : Str → Bool) (path : Str) (s : St) : Option St :=
  if path.length ≥ L - (1 + 8 + 1 + 3) then some { s with plen := path.length }
  else
    match fit L path with
    | none => none
    | some path =>
      match adjust L path with
      | none => none
      | some (name, plen, tr) =>
        if ¬ dir name then some { s with name := [], plen := plen }
        else if tr ≠ 0 then (fit L (name ++ [tr])).map fun n => { s with name := n, plen := plen + 1 }
        else some { s with name := name, plen := plen }

/-- `TryEnvPath`, tmpnam.c:172-186, `v` being the value of the variable -/
def tryEnv (L : Nat) (dir : Str → Bool) (v : Option Str) (s : St) : Option St :=
  match v with
  | none => some s
  | some path => if path = [] then some s else tryPath L dir path s

/-- `TMP00000.$$$` -/
def dosFile : Str := [0x54, 0x4D, 0x50, 0x30, 0x30, 0x30, 0x30, 0x30, 0x2E, 0x24, 0x24, 0x24]
/-- `tmp00000.tmp` -/
def unixFile : Str := [0x74, 0x6D, 0x70, 0x30, 0x30, 0x30, 0x30, 0x30, 0x2E, 0x74, 0x6D, 0x70]

/-- tmpnam.c:220-237 for DOS and Windows -/
def setupDos (L : Nat) (dir : Str → Bool) (temp tmp : Option Str) (s : St) : Option St :=
  if s.name ≠ [] then some s
  else
    match tryEnv L dir temp s with
    | none => none
    | some s =>
      match if s.name = [] then tryEnv L dir tmp s else some s with
      | none => none
      | some s =>
        match if s.name = [] then tryPath L dir [0x43, 0x3A, 0x5C] s else some s with
        | none => none
        | some s =>
          let s := if s.name = [] then { s with name := [0x2E, 0x5C], plen := 2 } else s
          (fit L (s.name ++ dosFile)).map fun n => { s with name := n }

/-- tmpnam.c:220, 239-250; `access` tells whether `/tmp` is there -/
def setupUnix (L : Nat) (access : Bool) (s : St) : Option St :=
  if s.name ≠ [] then some s
  else
    let s := if access then { s with name := [0x2F, 0x74, 0x6D, 0x70, 0x2F], plen := 5 } else { s with name := [0x2E, 0x2F], plen := 2 }
    (fit L (s.name ++ unixFile)).map fun n => { s with name := n }

/-- `while (j--) { *--p = '0' + n % 10; n /= 10; }` tmpnam.c:268-272 -/
def digits : Nat → Str → Nat → Nat → Option Str
  | 0, buf, _, _ => some buf
  | j + 1, buf, p, n =>
    if p = 0 ∨ p - 1 ≥ buf.length then none
    else digits j (buf.set (p - 1) (UInt8.ofNat (0x30 + n % 10))) (p - 1) (n / 10)

/-- tmpnam.c:264-266: the new `num` -/
def next (num : Nat) : Nat := if num + 1 ≥ tmpMax then 0 else num + 1

/-- tmpnam.c:259-305: `num`, the buffer, and whether it is the result (NULL otherwise).  `fs t` is the file system at the `t`-th
question: others may change it meanwhile. -/
def loop (fs : Nat → Str → Ans) (plen : Nat) : Nat → Nat → Nat → Str → Option (Nat × Str × Bool)
  | 0, _, num, buf => some (num, buf, false)
  | k + 1, t, num, buf =>
    match digits 5 buf (plen + 8) num with
    | none => none
    | some buf =>
      match fs t buf with
      | .absent => some (next num, buf, true)
      | .error => some (next num, buf, false)
      | .present => loop fs plen k (t + 1) (next num) buf

/-- tmpnam.c:254-305 after the directory is known; `own` tells whether the caller gave a buffer -/
def tmpnam (fs : Nat → Str → Ans) (own : Bool) (iterations : Nat) (s : St) : Option (St × Option Str) :=
  match loop fs s.plen iterations 0 s.num s.name with
  | none => none
  | some (num, buf, ok) => some ({ s with num := num, name := if own then s.name else buf }, if ok then some buf else none)

end Smlr.Tmpnam
