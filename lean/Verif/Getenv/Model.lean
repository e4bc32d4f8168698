import Init
set_option autoImplicit false
/-! Model of `getenv`, srclib/getenv.c: DOS (84-195; the two versions there differ only in how a byte is fetched) and Unix
(246-267). -/
namespace Smlr.Getenv

abbrev Str := List UInt8

/-- what became of a call: `null`, the bytes of the result (without the final 0), or a read past the end of the memory at
hand, which must not happen; `fuel`: the loop has not come to its end -/
inductive Res
  | null
  | found (v : Str)
  | past
  | fuel
  deriving DecidableEq

/-- getenv.c:106-113 and 165-172: `for (j = 0; j < nlen; j++)`, with an early end; `none`: a read past the end -/
def compare (env : Str) : Nat → Str → Option Bool
  | _, [] => some true
  | p, c :: name =>
    match env[p]? with
    | none => none
    | some b => if b ≠ c then some false else compare env (p + 1) name

/-- getenv.c:116-117 and 175-176, and the copy in 127 and 186: the bytes from here to the next 0 -/
def value : Str → Option Str
  | [] => none
  | c :: s => if c = 0 then some [] else (value s).map (c :: ·)

/-- getenv.c:94-141 and 155-194: `for (start = i = 0; ; i++)`.  `alloc` tells whether `malloc` gives memory.  The indices
are unbounded: the environment is shorter than 64 KB. -/
def scan (alloc : Bool) (env name : Str) : Nat → Nat → Nat → Res
  | 0, _, _ => .fuel
  | k + 1, start, i =>
    match env[i]? with
    | none => .past
    | some c =>
      if c = 0x3D then
        match if i - start = name.length then compare env start name else some false with
        | none => .past
        | some m =>
          match value (env.drop (i + 1)) with
          | none => .past
          | some v =>
            if m then (if alloc then .found v else .null)
            else
              match env[i + 1 + v.length + 1]? with
              | none => .past
              | some d => if d = 0 then .null else scan alloc env name k (i + 1 + v.length + 1) (i + 1 + v.length + 1)
      else if c = 0 then
        match env[i + 1]? with
        | none => .past
        | some d => if d = 0 then .null else scan alloc env name k (i + 1) (i + 1)
      else scan alloc env name k start (i + 1)

/-- DOS, getenv.c:85-142 and 146-195: `env` is the memory from the environment block on, `name` has no 0 (`strlen`) -/
def dos (alloc : Bool) (env name : Str) : Res :=
  match env[0]? with
  | none => .past
  | some c => if c = 0 then .null else scan alloc env name (env.length + 1) 0 0

/-- `!strncmp(p, name, l)` for a name of `l` bytes (strncmp is C03; here on strings, whose end is a 0) -/
def same : Str → Str → Bool
  | _, [] => true
  | [], _ :: _ => false
  | a :: p, b :: name => if a ≠ b then false else same p name

/-- Unix, getenv.c:250-263: `environ` is the list of strings up to the null pointer -/
def unix : List Str → Str → Res
  | [], _ => .null
  | p :: ps, name =>
    if p.length > name.length ∧ same p name = true ∧ p[name.length]? = some 0x3D then .found (p.drop (name.length + 1))
    else unix ps name

end Smlr.Getenv
