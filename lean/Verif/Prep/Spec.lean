import Verif.Prep.Model
set_option autoImplicit false
/-! Conditional inclusion by the structure of the text: groups nested in `#ifdef … #else … #endif`. -/
namespace Smlr.Prep

/-- how a conditional begins -/
inductive Cond
  | ifdef (n : Nat)
  | ifndef (n : Nat)
  | ifExpr

/-- lines that are not part of a conditional -/
inductive Plain
  | define (n : Nat) | undef (n : Nat) | text (t : Nat) | other

mutual
/-- a sequence of lines with balanced conditionals -/
inductive Group
  | nil
  | plain (l : Plain) (rest : Group)
  | cond (c : Cond) (body : Group) (tail : Tail) (rest : Group)
/-- the end of a conditional -/
inductive Tail
  | endif
  | els (body : Group)
  | elif (body : Group) (tail : Tail)
end

def Cond.line : Cond → Line
  | .ifdef n => .ifdef n
  | .ifndef n => .ifndef n
  | .ifExpr => .ifExpr

def Plain.line : Plain → Line
  | .define n => .define n
  | .undef n => .undef n
  | .text t => .text t
  | .other => .other

mutual
/-- the lines of a group -/
def Group.lines : Group → List Line
  | .nil => []
  | .plain l r => l.line :: r.lines
  | .cond c b t r => c.line :: (b.lines ++ (t.lines ++ r.lines))
def Tail.lines : Tail → List Line
  | .endif => [.endif]
  | .els b => .els :: (b.lines ++ [.endif])
  | .elif b t => .elif :: (b.lines ++ t.lines)
end

mutual
/-- nesting depth -/
def Group.depth : Group → Nat
  | .nil => 0
  | .plain _ r => r.depth
  | .cond _ b t r => max (max b.depth t.depth + 1) r.depth
def Tail.depth : Tail → Nat
  | .endif => 0
  | .els b => b.depth
  | .elif b t => max b.depth t.depth
end

/-- is the first branch taken?  `none`: not supported -/
def Cond.holds (env : Env) : Cond → Option Bool
  | .ifdef n => some (env n)
  | .ifndef n => some (!env n)
  | .ifExpr => none

mutual
/-- what a live group yields: macros afterwards and the text passed on.  `none`: the group contains, in a place that is
not skipped, something unsupported or erroneous (`#if`, `#elif`, an unknown directive, a redefinition).  Groups that are
skipped have no effect at all -/
def Group.sem (env : Env) : Group → Option (Env × List Nat)
  | .nil => some (env, [])
  | .plain (.text t) r => match r.sem env with
    | none => none
    | some (env, out) => some (env, t :: out)
  | .plain (.define n) r => if env n then none else r.sem (env.set n true)
  | .plain (.undef n) r => r.sem (env.set n false)
  | .plain .other _ => none
  | .cond c b t r => match c.holds env with
    | none => none
    | some taken => match (if taken then (if t.plainEnd then b.sem env else none) else t.sem env) with
      | none => none
      | some (env, out) => match r.sem env with
        | none => none
        | some (env, out') => some (env, out ++ out')
/-- what follows a branch that was not taken -/
def Tail.sem (env : Env) : Tail → Option (Env × List Nat)
  | .endif => some (env, [])
  | .els b => b.sem env
  | .elif _ _ => none
/-- no `#elif` -/
def Tail.plainEnd : Tail → Bool
  | .endif => true
  | .els _ => true
  | .elif _ _ => false
end

end Smlr.Prep
