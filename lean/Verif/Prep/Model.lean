set_option autoImplicit false
/-! Model of the conditional directives of the built-in preprocessor (smlrc.c:1505-1523, 2213-2366).

A source file is a list of lines: directives and text (`Line.text` stands for everything that is not a directive; its
tokens are passed on exactly if `PrepDontSkipTokens` is nonzero, smlrc.c:1990, 2010).  Names are numbers; which names are
defined is a function (`Verif/Macro` shows that the table implements it).  Malformed directives, `#include`, `#line` and
`#pragma` are left out. -/
namespace Smlr.Prep

inductive Err
  | tooMany | unbalanced | redefinition | directive
  deriving DecidableEq

/-- `PREP_STACK_SIZE`, smlrc.c:180 -/
def stackSize : Nat := 8

/-- `PrepDontSkipTokens` and `PrepStack`, top first -/
structure St where
  live : Nat
  stack : List (Nat × Nat)
  deriving DecidableEq

inductive Line
  | ifdef (n : Nat)
  | ifndef (n : Nat)
  | els
  | endif
  /-- `#if`, not supported -/
  | ifExpr
  /-- `#elif`, not supported -/
  | elif
  /-- `#error` or an unknown directive -/
  | other
  | define (n : Nat)
  | undef (n : Nat)
  | text (t : Nat)
  deriving DecidableEq

/-- `pushPrep`, smlrc.c:1507-1515 -/
def push (s : St) (noSkip : Nat) : Except Err St :=
  if s.stack.length ≥ stackSize then .error .tooMany
  else .ok { live := s.live &&& noSkip, stack := (s.live, noSkip) :: s.stack }

/-- `popPrep`, smlrc.c:1517-1523 -/
def pop (s : St) : Except Err (St × Nat) :=
  match s.stack with
  | [] => .error .unbalanced
  | (a, b) :: st => .ok ({ live := a, stack := st }, b)

abbrev Env := Nat → Bool

def Env.set (e : Env) (n : Nat) (b : Bool) : Env := fun m => if m = n then b else e m

def b2n (b : Bool) : Nat := if b then 1 else 0

/-- one line, smlrc.c:2213-2366: new state, macros, and the text passed on -/
def step (s : St) (env : Env) : Line → Except Err (St × Env × List Nat)
  | .ifdef n => match push s (b2n (env n)) with
    | .error e => .error e
    | .ok s => .ok (s, env, [])
  | .ifndef n => match push s (b2n (!env n)) with
    | .error e => .error e
    | .ok s => .ok (s, env, [])
  | .els => match pop s with
    | .error e => .error e
    | .ok (s, d) =>
      if d ≥ 2 then .error .unbalanced
      else match push s (2 + b2n (d = 0)) with
        | .error e => .error e
        | .ok s => .ok (s, env, [])
  | .endif => match pop s with
    | .error e => .error e
    | .ok (s, _) => .ok (s, env, [])
  | .ifExpr =>
    if s.live = 0 then
      match push s 0 with
      | .error e => .error e
      | .ok s => .ok (s, env, [])
    else .error .directive
  | .elif =>
    if s.live = 0 then
      match pop s with
      | .error e => .error e
      | .ok (s, _) =>
        match push s 0 with
        | .error e => .error e
        | .ok s => .ok (s, env, [])
    else .error .directive
  | .other => if s.live = 0 then .ok (s, env, []) else .error .directive
  | .define n =>
    if s.live = 0 then .ok (s, env, [])
    else if env n then .error .redefinition
    else .ok (s, env.set n true, [])
  | .undef n => if s.live = 0 then .ok (s, env, []) else .ok (s, env.set n false, [])
  | .text t => .ok (s, env, if s.live = 0 then [] else [t])

def run (s : St) (env : Env) : List Line → Except Err (St × Env × List Nat)
  | [] => .ok (s, env, [])
  | l :: ls => match step s env l with
    | .error e => .error e
    | .ok (s, env, out) => match run s env ls with
      | .error e => .error e
      | .ok (s, env, out') => .ok (s, env, out ++ out')

/-- smlrc.c:598-600 -/
def init : St := { live := 1, stack := [] }

end Smlr.Prep
