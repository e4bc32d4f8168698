import Verif.Stmt.Model
set_option autoImplicit false
/-! C statements: trees, how they are written, which are allowed, what they do (C99 6.8). -/
namespace Smlr.Stmt.Spec

inductive Init (L : Lang)
  | none
  | expr (e : L.E)
  | decl (es : List (List L.X))

/-- `nil` and `cons` are the contents of a block; `decl` is a declaration in it -/
inductive Stmt (L : Lang)
  | nil
  | cons (s ss : Stmt L)
  | decl (es : List (List L.X))
  | empty
  | expr (e : L.E)
  | block (ss : Stmt L)
  | ret (e : Option L.E)
  | whl (c : L.E) (b : Stmt L)
  | dow (b : Stmt L) (c : L.E)
  | ift (c : L.E) (a : Stmt L)
  | ife (c : L.E) (a b : Stmt L)
  | for (i : Init L) (c e : Option L.E) (b : Stmt L)
  | brk
  | cont
  | switch (e : L.E) (b : Stmt L)
  | case (e : L.E) (s : Stmt L)
  | default (s : Stmt L)
  | goto (n : Nat)
  | label (n : Nat) (s : Stmt L)

section
variable {L : Lang}

/-! ### writing -/

def optToks : Option L.E → List (Tok L)
  | none => []
  | some e => [.expr e]

def Init.toks : Init L → List (Tok L)
  | .none => [.k .semi]
  | .expr e => [.expr e, .k .semi]
  | .decl es => [.decl es]

def Stmt.toks : Stmt L → List (Tok L)
  | .nil => []
  | .cons s ss => s.toks ++ ss.toks
  | .decl es => [.decl es]
  | .empty => [.k .semi]
  | .expr e => [.expr e, .k .semi]
  | .block ss => .k .lbrace :: (ss.toks ++ [.k .rbrace])
  | .ret e => .k .return_ :: (optToks e ++ [.k .semi])
  | .whl c b => .k .while_ :: .k .lpar :: .expr c :: .k .rpar :: b.toks
  | .dow b c => .k .do_ :: (b.toks ++ [.k .while_, .k .lpar, .expr c, .k .rpar, .k .semi])
  | .ift c a => .k .if_ :: .k .lpar :: .expr c :: .k .rpar :: a.toks
  | .ife c a b => .k .if_ :: .k .lpar :: .expr c :: .k .rpar :: (a.toks ++ .k .else_ :: b.toks)
  | .for i c e b => .k .for_ :: .k .lpar :: (i.toks ++ (optToks c ++ .k .semi :: (optToks e ++ .k .rpar :: b.toks)))
  | .brk => [.k .break_, .k .semi]
  | .cont => [.k .continue_, .k .semi]
  | .switch e b => .k .switch_ :: .k .lpar :: .expr e :: .k .rpar :: b.toks
  | .case e s => .k .case_ :: .expr e :: .k .colon :: s.toks
  | .default s => .k .default_ :: .k .colon :: s.toks
  | .goto n => [.k .goto_, .ident n, .k .semi]
  | .label n s => .label n :: s.toks

/-- ends with an `if` that a following `else` would belong to -/
def Stmt.opens : Stmt L → Bool
  | .ift _ _ => true
  | .ife _ _ b => b.opens
  | .whl _ b => b.opens
  | .for _ _ _ b => b.opens
  | .switch _ b => b.opens
  | .case _ s => s.opens
  | .default s => s.opens
  | .label _ s => s.opens
  | _ => false

/-- the sorts are right (`true`: the contents of a block, `false`: a statement), and an `else` belongs to the nearest `if` -/
def Stmt.wf : Stmt L → Bool → Prop
  | .nil, b => b = true
  | .cons (.decl _) ss, b => b = true ∧ ss.wf true
  | .cons s ss, b => b = true ∧ s.wf false ∧ ss.wf true
  | .decl _, _ => False
  | .block ss, b => b = false ∧ ss.wf true
  | .whl _ s, b => b = false ∧ s.wf false
  | .dow s _, b => b = false ∧ s.wf false
  | .ift _ s, b => b = false ∧ s.wf false
  | .ife _ s s', b => b = false ∧ s.wf false ∧ s'.wf false ∧ s.opens = false
  | .for _ _ _ s, b => b = false ∧ s.wf false
  | .switch _ s, b => b = false ∧ s.wf false
  | .case _ s, b => b = false ∧ s.wf false
  | .default s, b => b = false ∧ s.wf false
  | .label _ s, b => b = false ∧ s.wf false
  | _, b => b = false

/-! ### constraints -/

/-- the values of the `case` labels of the innermost `switch` -/
def Stmt.cases : Stmt L → List Int
  | .cons s ss => s.cases ++ ss.cases
  | .block ss => ss.cases
  | .whl _ b => b.cases
  | .dow b _ => b.cases
  | .ift _ a => a.cases
  | .ife _ a b => a.cases ++ b.cases
  | .for _ _ _ b => b.cases
  | .case e s => ((L.const e).map L.trunc).toList ++ s.cases
  | .default s => s.cases
  | .label _ s => s.cases
  | _ => []

/-- the number of `default` labels of the innermost `switch` -/
def Stmt.defs : Stmt L → Nat
  | .cons s ss => s.defs + ss.defs
  | .block ss => ss.defs
  | .whl _ b => b.defs
  | .dow b _ => b.defs
  | .ift _ a => a.defs
  | .ife _ a b => a.defs + b.defs
  | .for _ _ _ b => b.defs
  | .case _ s => s.defs
  | .default s => s.defs + 1
  | .label _ s => s.defs
  | _ => 0

/-- the labels, in order -/
def Stmt.labels : Stmt L → List Nat
  | .cons s ss => s.labels ++ ss.labels
  | .block ss => ss.labels
  | .whl _ b => b.labels
  | .dow b _ => b.labels
  | .ift _ a => a.labels
  | .ife _ a b => a.labels ++ b.labels
  | .for _ _ _ b => b.labels
  | .switch _ b => b.labels
  | .case _ s => s.labels
  | .default s => s.labels
  | .label n s => n :: s.labels
  | _ => []

/-- the labels that `goto` names -/
def Stmt.gotos : Stmt L → List Nat
  | .cons s ss => s.gotos ++ ss.gotos
  | .block ss => ss.gotos
  | .whl _ b => b.gotos
  | .dow b _ => b.gotos
  | .ift _ a => a.gotos
  | .ife _ a b => a.gotos ++ b.gotos
  | .for _ _ _ b => b.gotos
  | .switch _ b => b.gotos
  | .case _ s => s.gotos
  | .default s => s.gotos
  | .label _ s => s.gotos
  | .goto n => [n]
  | _ => []

/-- `break`, `continue`, `case` and `default` are in their places, `case` has a constant, no value of a `switch` is twice there and `default` neither, `return` has an expression if the
function has a value, and only then; `b`, `c`, `w` tell whether there is a statement for `break`, a loop, a `switch` around -/
def Stmt.ok (void : Bool) : Stmt L → Bool → Bool → Bool → Prop
  | .cons s ss, b, c, w => s.ok void b c w ∧ ss.ok void b c w
  | .block ss, b, c, w => ss.ok void b c w
  | .ret e, _, _, _ => e.isSome = !void
  | .whl _ s, _, _, w => s.ok void true true w
  | .dow s _, _, _, w => s.ok void true true w
  | .ift _ s, b, c, w => s.ok void b c w
  | .ife _ s s', b, c, w => s.ok void b c w ∧ s'.ok void b c w
  | .for _ _ _ s, _, _, w => s.ok void true true w
  | .brk, b, _, _ => b = true
  | .cont, _, c, _ => c = true
  | .switch _ s, _, c, _ => s.ok void true c true ∧ s.cases.Nodup ∧ s.defs ≤ 1
  | .case e s, b, c, w => w = true ∧ (L.const e).isSome ∧ s.ok void b c w
  | .default s, b, c, w => w = true ∧ s.ok void b c w
  | .label _ s, b, c, w => s.ok void b c w
  | _, _, _, _ => True

/-- the constraints on the body of a function -/
def Valid (void : Bool) (s : Stmt L) : Prop := s.ok void false false false ∧ s.labels.Nodup ∧ ∀ n ∈ s.gotos, n ∈ s.labels

/-- how many entries of the table of cases are needed: one for each `case`, and for each `switch` one more; they are given back at the end of the `switch` -/
def Stmt.need : Stmt L → Nat
  | .cons s ss => max s.need (s.cases.length + ss.need)
  | .block ss => ss.need
  | .whl _ b => b.need
  | .dow b _ => b.need
  | .ift _ a => a.need
  | .ife _ a b => max a.need (a.cases.length + b.need)
  | .for _ _ _ b => b.need
  | .switch _ b => 1 + b.need
  | .case _ s => 1 + s.need
  | .default s => s.need
  | .label _ s => s.need
  | _ => 0

/-- the names of labels fit into a table of this size -/
def NamesFit (s : Stmt L) (max : Nat) : Prop := ∃ N : List Nat, N.length ≤ max ∧ ∀ n, n ∈ s.labels ∨ n ∈ s.gotos → n ∈ N

/-! ### meaning -/

/-- what is to be done behind a statement.  `loop c e b k`: `e`, then `while (c) { b e }`, then `k` -/
inductive Cont (L : Lang)
  | stop
  | seq (ss : Stmt L) (k : Cont L)
  | loop (c e : Option L.E) (b : Stmt L) (k : Cont L)
  | dow (b : Stmt L) (c : L.E) (k : Cont L)
  | switch (k : Cont L)

/-- a place to go to -/
inductive Target
  | case (v : Int)
  | default
  | label (n : Nat)
  deriving DecidableEq

/-- the statement behind the label, and what is behind it; labels of an inner `switch` do not count -/
def Stmt.seek (t : Target) : Stmt L → Cont L → Option (Stmt L × Cont L)
  | .cons s ss, k => (s.seek t (.seq ss k)).or (ss.seek t k)
  | .block ss, k => ss.seek t k
  | .whl c b, k => b.seek t (.loop (some c) none b k)
  | .dow b c, k => b.seek t (.dow b c k)
  | .ift _ a, k => a.seek t k
  | .ife _ a b, k => (a.seek t k).or (b.seek t k)
  | .for _ c e b, k => b.seek t (.loop c e b k)
  | .switch _ b, k => match t with | .label _ => b.seek t (.switch k) | _ => none
  | .case e s, k => if (L.const e).map (fun v => Target.case (L.trunc v)) = some t then some (s, k) else s.seek t k
  | .default s, k => if t = .default then some (s, k) else s.seek t k
  | .label n s, k => if t = .label n then some (s, k) else s.seek t k
  | _, _ => none

/-- `run s k`: do `s`, then `k`; `test c e b k`: test the condition of the loop; `done r`: the function has returned, with value `r` -/
inductive Conf (L : Lang) (σ : Type)
  | run (s : Stmt L) (k : Cont L) (st : σ)
  | test (c e : Option L.E) (b : Stmt L) (k : Cont L) (st : σ)
  | done (r : Option Int) (st : σ)

variable {σ : Type} (sem : List L.X → σ → Option (Int × σ)) (isMain : Bool) (body : Stmt L)

/-- evaluate for the effect -/
def eff (e : List L.X) (st : σ) (f : σ → Conf L σ) : Option (Conf L σ) := (sem e st).map fun r => f r.2

/-- evaluate and choose -/
def choose (e : L.E) (st : σ) (f g : σ → Conf L σ) : Option (Conf L σ) := (sem (L.rpn e) st).map fun r => if r.1 = 0 then g r.2 else f r.2

/-- the `switch` on the value `v` -/
def select (b : Stmt L) (k : Cont L) (v : Int) (st : σ) : Conf L σ :=
  match (b.seek (.case v) (.switch k)).or (b.seek .default (.switch k)) with
  | some x => .run x.1 x.2 st
  | none => .run .nil k st

/-- one step; `none` if it never comes to an end (or if there is no such step: `break` outside a loop) -/
def step : Conf L σ → Option (Conf L σ)
  | .done _ _ => none
  | .test none e b k st => some (.run b (.loop none e b k) st)
  | .test (some c) e b k st => choose sem c st (.run b (.loop (some c) e b k)) (.run .nil k)
  | .run s k st =>
    match s with
    | .nil =>
      match k with
      | .stop => some (.done (if isMain then some 0 else none) st)
      | .seq ss k => some (.run ss k st)
      | .loop c none b k => some (.test c none b k st)
      | .loop c (some e) b k => eff sem (L.rpn e) st (.test c (some e) b k)
      | .dow b c k => choose sem c st (.run b (.dow b c k)) (.run .nil k)
      | .switch k => some (.run .nil k st)
    | .cons s ss => some (.run s (.seq ss k) st)
    | .decl [] => some (.run .nil k st)
    | .decl (e :: es) => eff sem e st (.run (.decl es) k)
    | .empty => some (.run .nil k st)
    | .expr e => eff sem (L.rpn e) st (.run .nil k)
    | .block ss => some (.run ss k st)
    | .ret none => some (.done none st)
    | .ret (some e) => (sem (L.rpn e) st).map fun r => .done (some r.1) r.2
    | .whl c b => some (.test (some c) none b k st)
    | .dow b c => some (.run b (.dow b c k) st)
    | .ift c a => choose sem c st (.run a k) (.run .nil k)
    | .ife c a b => choose sem c st (.run a k) (.run b k)
    | .for .none c e b => some (.test c e b k st)
    | .for (.expr i) c e b => eff sem (L.rpn i) st (.run (.for .none c e b) k)
    | .for (.decl []) c e b => some (.run (.for .none c e b) k st)
    | .for (.decl (i :: is)) c e b => eff sem i st (.run (.for (.decl is) c e b) k)
    | .brk =>
      match k with
      | .stop => none
      | .seq _ k => some (.run .brk k st)
      | .loop _ _ _ k | .dow _ _ k | .switch k => some (.run .nil k st)
    | .cont =>
      match k with
      | .stop => none
      | .seq _ k | .switch k => some (.run .cont k st)
      | .loop c e b k => some (.run .nil (.loop c e b k) st)
      | .dow b c k => some (.run .nil (.dow b c k) st)
    | .switch e b => (sem (L.rpn e) st).map fun r => select b k r.1 r.2
    | .case _ s => some (.run s k st)
    | .default s => some (.run s k st)
    | .goto n => (body.seek (.label n) .stop).map fun x => .run x.1 x.2 st
    | .label _ s => some (.run s k st)

/-- the configuration after `n` steps; `none` if there are not as many -/
def after : Nat → Conf L σ → Option (Conf L σ)
  | 0, c => some c
  | n + 1, c => (step sem isMain body c).bind (after n)

def Conf.st : Conf L σ → σ
  | .run _ _ s | .test _ _ _ _ s | .done _ s => s

end

/-- the machine after `n` steps -/
def mafter {X σ : Type} (sem : List X → σ → Option (Int × σ)) (code : List (I X)) : Nat → Mc σ → Option (Mc σ)
  | 0, m => some m
  | n + 1, m => (mstep sem code m).bind (mafter sem code n)

end Smlr.Stmt.Spec
