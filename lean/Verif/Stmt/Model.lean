set_option autoImplicit false
/-! Model of `ParseStatement`, `ParseBlock` (smlrc.c:8737-9719), `AddCase` (926-934), `AddGotoLabel` (887-907) and of the part of `ParseDecl` that compiles the body of a function
(8350-8436): from tokens to code with labels and jumps.  `ParseExpr` and `ParseDecl` in a block are one token each, which carries the expression as it stands on the stack when
`GenExpr` is called. The checks of types and the conversion of the returned value are left out. -/
namespace Smlr.Stmt

/-- What the compiler knows of expressions.  `E` are the expressions of a program, `rpn` is `stack` after `ParseExpr`, `const` is `exprVal` if `constExpr`, `isRel` tells the comparison tokens
(smlrc.c:9013-9022), `trunc` is `truncInt` -/
structure Lang where
  E : Type
  X : Type
  rpn : E → List X
  const : E → Option Int
  isRel : X → Bool
  trunc : Int → Int
  /-- `sp = 0; push(tokNumInt)`, smlrc.c:8430-8431 -/
  zero : List X

/-- kinds of tokens -/
inductive K
  | eof | semi | colon | lpar | rpar | lbrace | rbrace | comma | rbrk
  | return_ | while_ | do_ | if_ | else_ | for_ | break_ | continue_ | switch_ | case_ | default_ | goto_
  | ident | label | expr | decl | other
  deriving DecidableEq

/-- `label n` is an identifier with the colon behind it; `expr e` is an expression; `decl es` is a declaration with its semicolon, `es` are the assignments made of its initialisers -/
inductive Tok (L : Lang)
  | k (k : K)
  | ident (n : Nat)
  | label (n : Nat)
  | expr (e : L.E)
  | decl (es : List (List L.X))

def Tok.kind {L : Lang} : Tok L → K
  | .k .ident | .k .label | .k .expr | .k .decl => .other
  | .k x => x
  | .ident _ => .ident
  | .label _ => .label
  | .expr _ => .expr
  | .decl _ => .decl

/-- What is emitted: `GenNumLabel`, `GenJumpUncond`, `GenJumpIfZero`, `GenJumpIfNotZero`, `GenExpr` with `tokIfNot` or `tokIf` or nothing or `tokReturn` on the top of the stack,
`GenJumpIfEqual` -/
inductive I (X : Type)
  | lab (l : Nat)
  | jmp (l : Nat)
  | jz (l : Nat)
  | jnz (l : Nat)
  | ifNot (e : List X) (l : Nat)
  | ifYes (e : List X) (l : Nat)
  | eval (e : List X)
  | evalR (e : List X)
  | je (v : Int) (l : Nat)

inductive Err
  | unexpected
  /-- `errorCtrlOutOfScope` -/
  | scope
  /-- `errorNotConst` -/
  | notConst
  /-- "Duplicate case value" -/
  | dupCase
  /-- "Redefinition of label" -/
  | dupLabel
  /-- "Undeclared label" -/
  | noLabel
  /-- "Case table exhausted", "Goto table exhausted" -/
  | table
  | fuel
  deriving DecidableEq

/-- an entry of `gotoLabels` and `gotoLabStat` -/
structure Goto where
  name : Nat
  lab : Nat
  used : Bool
  defd : Bool

/-- `inp` is what `GetToken` will return, `code` is the output, `lab` is `LabelCnt`, `cases` is `Cases[0]` to `Cases[CasesCnt - 1]`, `stash` is `expr3Stack[0]` to `expr3Stack[expr3Sp - 1]`,
`level` is `ParseLevel` -/
structure St (L : Lang) where
  inp : List (Tok L)
  code : List (I L.X)
  lab : Nat
  cases : List (Int × Nat)
  gotos : List Goto
  stash : List L.X
  level : Nat

/-- `isMain` is `IsMain`, `retVoid` is `retVoid`, `epi` is `CurFxnEpilogLabel`; `MAX_CASES` (128), `MAX_GOTO_LABELS` (16) -/
structure Fx where
  isMain : Bool
  retVoid : Bool
  epi : Nat
  maxCases : Nat
  maxGotos : Nat

abbrev M (L : Lang) (α : Type) := St L → Except Err (α × St L)

def M.pure {L : Lang} {α : Type} (a : α) : M L α := fun s => .ok (a, s)
def M.bind {L : Lang} {α β : Type} (x : M L α) (f : α → M L β) : M L β := fun s =>
  match x s with
  | .error e => .error e
  | .ok (a, s') => f a s'

instance (L : Lang) : Monad (M L) where
  pure := M.pure
  bind := M.bind

section
variable {L : Lang}

def fail {α : Type} (e : Err) : M L α := fun _ => .error e
def failIf (b : Bool) (e : Err) : M L Unit := fun s => if b then .error e else .ok ((), s)

def getToken : M L (Tok L) := fun s =>
  match s.inp with
  | [] => .ok (.k .eof, s)
  | x :: xs => .ok (x, { s with inp := xs })

def emit (i : I L.X) : M L Unit := fun s => .ok ((), { s with code := s.code ++ [i] })

def emits (is : List (I L.X)) : M L Unit := fun s => .ok ((), { s with code := s.code ++ is })

/-- `LabelCnt++` -/
def newLab : M L Nat := fun s => .ok (s.lab, { s with lab := s.lab + 1 })

def getCases : M L (List (Int × Nat)) := fun s => .ok (s.cases, s)
def setCases (cs : List (Int × Nat)) : M L Unit := fun s => .ok ((), { s with cases := cs })
def getLevel : M L Nat := fun s => .ok (s.level, s)
def setLevel (n : Nat) : M L Unit := fun s => .ok ((), { s with level := n })
def getStash : M L (List L.X) := fun s => .ok (s.stash, s)
def setStash (x : List L.X) : M L Unit := fun s => .ok ((), { s with stash := x })

/-- `AddCase` -/
def addCase (F : Fx) (v : Int) (l : Nat) : M L Unit := fun s => if s.cases.length ≥ F.maxCases then .error .table else .ok ((), { s with cases := s.cases ++ [(v, l)] })

/-- the loop of `AddGotoLabel`, from entry `i` on -/
def findGoto (n : Nat) : List Goto → Option Nat
  | [] => none
  | g :: gs => if g.name = n then some 0 else (findGoto n gs).map (· + 1)

/-- `AddGotoLabel`; `d` is `label` -/
def addGoto (F : Fx) (n : Nat) (d : Bool) : M L Nat := fun s =>
  match findGoto n s.gotos with
  | some i =>
    match s.gotos[i]? with
    | some g =>
      if g.defd && d then .error .dupLabel
      else .ok (g.lab, { s with gotos := s.gotos.set i { g with used := g.used || !d, defd := g.defd || d } })
    | none => .error .unexpected
  | none =>
    if s.gotos.length ≥ F.maxGotos then .error .table
    else .ok (s.lab, { s with gotos := s.gotos ++ [⟨n, s.lab, !d, d⟩], lab := s.lab + 1 })

/-- `strchr(",;:)]}", tok)`, smlrc.c:5618 -/
def isStop : K → Bool
  | .comma | .semi | .colon | .rpar | .rbrk | .rbrace => true
  | _ => false

/-- `ParseExpr`: the expression, if there is one (`gotUnary`), and the token behind it -/
def parseExpr (t : Tok L) : M L (Option L.E × Tok L) :=
  match t with
  | .expr e => do
    let t ← getToken
    failIf (!isStop t.kind) .unexpected
    pure (some e, t)
  | t => do
    failIf (!isStop t.kind) .unexpected
    pure (none, t)

/-- the last token of the expression is a comparison -/
def rel (e : L.E) : Bool :=
  match (L.rpn e).getLast? with
  | some x => L.isRel x
  | none => false

/-- `if`, `while`, `for`: go to `l` if the expression is 0 (smlrc.c:8996-9046, 9172-9220, 9299-9342) -/
def jumpNot (e : L.E) (l : Nat) : M L Unit :=
  match L.const e with
  | some v => if L.trunc v = 0 then emit (.jmp l) else pure ()
  | none => if rel e then emit (.ifNot (L.rpn e) l) else emits [.evalR (L.rpn e), .jz l]

/-- `do`-`while`: go to `l` if the expression is not 0 (smlrc.c:9107-9153) -/
def jumpYes (e : L.E) (l : Nat) : M L Unit :=
  match L.const e with
  | some v => if L.trunc v = 0 then pure () else emit (.jmp l)
  | none => if rel e then emit (.ifYes (L.rpn e) l) else emits [.evalR (L.rpn e), .jnz l]

/-- `cond` of `for` (smlrc.c:9253, 9308, 9348): 0 only if the expression is the constant 0 -/
def condZero (c : Option L.E) : Bool :=
  match c with
  | none => false
  | some e =>
    match L.const e with
    | none => false
    | some v => L.trunc v = 0

/-- `(` expression `)`; the token behind `(` is read -/
def parenExpr (t : Tok L) : M L L.E := do
  failIf (t.kind != .lpar) .unexpected
  let t ← getToken
  let r ← parseExpr t
  failIf (r.2.kind != .rpar) .unexpected
  match r.1 with
  | none => fail .unexpected
  | some e => pure e

/-- the duplicate check, smlrc.c:9564-9567 -/
def hasCase (cs : List (Int × Nat)) (v : Int) : Bool := cs.any (fun c => c.1 == v)

/-- `Cases[ci - 1][1]` -/
def defOf (cs : List (Int × Nat)) (ci : Nat) : Nat :=
  match cs[ci - 1]? with
  | some c => c.2
  | none => 0

/-- `Cases[ci - 1][1] = l` -/
def setDef (cs : List (Int × Nat)) (ci l : Nat) : List (Int × Nat) :=
  match cs[ci - 1]? with
  | some c => cs.set (ci - 1) (c.1, l)
  | none => cs

/-- first part of `for`, smlrc.c:9266-9294 -/
def forInit : M L (Tok L) := do
  let t ← getToken
  match t with
  | .decl es => do
    emits (es.map .eval)
    getToken
  | t => do
    let r ← parseExpr t
    failIf (r.2.kind != .semi) .unexpected
    (match r.1 with
    | some e => emit (.eval (L.rpn e))
    | none => pure ())
    getToken

/-- `continue` target of `switch`, smlrc.c:9500-9506 -/
def cntTarget (bc : Option (Nat × Nat)) : Nat :=
  match bc with
  | some x => x.2
  | none => 0

/-- the code behind the body of `switch`, smlrc.c:9516-9529; `u` is `undoCases` -/
def switchEnd (u brk lbl : Nat) (cs : List (Int × Nat)) : List (I L.X) :=
  let d := if defOf cs (u + 1) = 0 then brk else defOf cs (u + 1)
  [.jmp brk, .lab lbl] ++ (cs.drop (u + 1)).map (fun c => .je c.1 c.2) ++ (if d = brk then [] else [.jmp d]) ++ [.lab brk]

variable (F : Fx)

mutual
/-- `ParseStatement(tok, BrkCntTarget, casesIdx)`; it returns the token behind the statement.  A statement behind a label or `case` is parsed by a recursive call here, by another round of
the loop in the code -/
def stmt : Nat → Tok L → Option (Nat × Nat) → Nat → M L (Tok L)
  | 0, _, _, _ => fail .fuel
  | n + 1, tok, bc, ci =>
    match tok with
    | .k .semi => getToken
    | .k .lbrace => do
      let lv ← getLevel
      setLevel (lv + 1)
      let t ← block n bc ci
      let lv ← getLevel
      setLevel (lv - 1)
      failIf (t.kind != .rbrace) .unexpected
      getToken
    | .k .return_ => do
      let t ← getToken
      (match t with
      | .k .semi => failIf (!F.retVoid) .unexpected
      | t => do
        failIf F.retVoid .unexpected
        let r ← parseExpr t
        failIf (r.2.kind != .semi) .unexpected
        (match r.1 with
        | some e => emit (.evalR (L.rpn e))
        | none => pure ()))
      let t ← getToken
      let lv ← getLevel
      (if t.kind == .rbrace && lv == 1 && !F.isMain then pure () else emit (.jmp F.epi))
      pure t
    | .k .while_ => do
      let before ← newLab
      let after ← newLab
      let t ← getToken
      let e ← parenExpr t
      emit (.lab before)
      jumpNot e after
      let t ← getToken
      let t ← stmt n t (some (after, before)) ci
      (if condZero (some e) then pure () else emit (.jmp before))
      emit (.lab after)
      pure t
    | .k .do_ => do
      let before ← newLab
      let wh ← newLab
      let after ← newLab
      emit (.lab before)
      let t ← getToken
      let t ← stmt n t (some (after, wh)) ci
      failIf (t.kind != .while_) .unexpected
      let t ← getToken
      let e ← parenExpr t
      let t ← getToken
      failIf (t.kind != .semi) .unexpected
      emit (.lab wh)
      jumpYes e before
      emit (.lab after)
      getToken
    | .k .if_ => do
      let afterIf ← newLab
      let afterElse ← newLab
      let t ← getToken
      let e ← parenExpr t
      jumpNot e afterIf
      let t ← getToken
      let t ← stmt n t bc ci
      (if t.kind == .else_ then do
        emit (.jmp afterElse)
        emit (.lab afterIf)
        let t ← getToken
        let t ← stmt n t bc ci
        emit (.lab afterElse)
        pure t
      else do
        emit (.lab afterIf)
        pure t)
    | .k .for_ => do
      let before ← newLab
      let expr3 ← newLab
      let body ← newLab
      let after ← newLab
      let t ← getToken
      failIf (t.kind != .lpar) .unexpected
      let t ← forInit
      emit (.lab before)
      let r ← parseExpr t
      failIf (r.2.kind != .semi) .unexpected
      (match r.1 with
      | some e => jumpNot e after
      | none => pure ())
      let t ← getToken
      let r3 ← parseExpr t
      failIf (r3.2.kind != .rpar) .unexpected
      let st ← getStash
      let t ← (match r3.1 with
        | some e3 =>
          if (L.rpn e3).length ≤ 16 && (L.rpn e3).length ≤ 64 - st.length then do
            setStash (st ++ L.rpn e3)
            let t ← getToken
            let t ← stmt n t (some (after, expr3)) ci
            let st' ← getStash
            setStash (st'.take (st'.length - (L.rpn e3).length))
            emit (.lab expr3)
            emit (.eval (st'.drop (st'.length - (L.rpn e3).length)))
            (if condZero r.1 then pure () else emit (.jmp before))
            pure t
          else do
            emits [.jmp body, .lab expr3, .eval (L.rpn e3), .jmp before, .lab body]
            let t ← getToken
            let t ← stmt n t (some (after, expr3)) ci
            emit (.jmp expr3)
            pure t
        | none =>
          if condZero r.1 then do
            let t ← getToken
            stmt n t (some (after, after)) ci
          else do
            let t ← getToken
            let t ← stmt n t (some (after, before)) ci
            emit (.jmp before)
            pure t : M L (Tok L))
      emit (.lab after)
      pure t
    | .k .break_ => do
      let t ← getToken
      failIf (t.kind != .semi) .unexpected
      let t ← getToken
      (match bc with
      | none => fail .scope
      | some (b, _) => emit (.jmp b))
      pure t
    | .k .continue_ => do
      let t ← getToken
      failIf (t.kind != .semi) .unexpected
      let t ← getToken
      (match bc with
      | none => fail .scope
      | some (_, c) => if c = 0 then fail .scope else emit (.jmp c))
      pure t
    | .k .switch_ => do
      let cs ← getCases
      let brk ← newLab
      let lbl ← newLab
      let t ← getToken
      let e ← parenExpr t
      emit (.evalR (L.rpn e))
      let t ← getToken
      emit (.jmp lbl)
      addCase F 0 0
      let t ← stmt n t (some (brk, cntTarget bc)) (cs.length + 1)
      let cs' ← getCases
      emits (switchEnd cs.length brk lbl cs')
      setCases (cs'.take cs.length)
      pure t
    | .k .case_ => do
      failIf (ci == 0) .scope
      let t ← getToken
      let r ← parseExpr t
      failIf (r.2.kind != .colon) .unexpected
      (match r.1 with
      | none => fail .unexpected
      | some e =>
        match L.const e with
        | none => fail .notConst
        | some v => do
          let cs ← getCases
          failIf (hasCase (cs.drop ci) (L.trunc v)) .dupCase
          let l ← newLab
          addCase F (L.trunc v) l
          emit (.lab l))
      let t ← getToken
      stmt n t bc ci
    | .k .default_ => do
      failIf (ci == 0) .scope
      let cs ← getCases
      failIf (defOf cs ci != 0) .unexpected
      let t ← getToken
      failIf (t.kind != .colon) .unexpected
      let t ← getToken
      let l ← newLab
      setCases (setDef cs ci l)
      emit (.lab l)
      stmt n t bc ci
    | .k .goto_ => do
      let t ← getToken
      (match t with
      | .ident m => do
        let l ← addGoto F m false
        emit (.jmp l)
      | _ => fail .unexpected)
      let t ← getToken
      failIf (t.kind != .semi) .unexpected
      getToken
    | .label m => do
      let l ← addGoto F m true
      emit (.lab l)
      let t ← getToken
      stmt n t bc ci
    | t => do
      let r ← parseExpr t
      failIf (r.2.kind != .semi) .unexpected
      (match r.1 with
      | some e => emit (.eval (L.rpn e))
      | none => pure ())
      getToken

/-- `ParseBlock` within a function -/
def block : Nat → Option (Nat × Nat) → Nat → M L (Tok L)
  | 0, _, _ => fail .fuel
  | n + 1, bc, ci => do
    let t ← getToken
    blockLoop n t bc ci

/-- the loop of `ParseBlock` -/
def blockLoop : Nat → Tok L → Option (Nat × Nat) → Nat → M L (Tok L)
  | 0, _, _, _ => fail .fuel
  | n + 1, tok, bc, ci =>
    match tok with
    | .k .eof => pure tok
    | .k .rbrace => pure tok
    | .decl es => do
      emits (es.map .eval)
      let t ← getToken
      blockLoop n t bc ci
    | tok => do
      let t ← stmt n tok bc ci
      blockLoop n t bc ci
end

end

/-- compile the body of a function (smlrc.c:8371-8436): the tokens behind `{`, the value of `LabelCnt`; the result is the code from the prologue to the label of the epilogue -/
def fxn {L : Lang} (isMain retVoid : Bool) (maxCases maxGotos n lab0 : Nat) (ts : List (Tok L)) : Except Err (List (I L.X)) :=
  let F : Fx := ⟨isMain, retVoid, lab0, maxCases, maxGotos⟩
  match block F n none 0 ⟨ts, [], lab0 + 2, [], [], [], 1⟩ with
  | .error e => .error e
  | .ok (t, s) =>
    if t.kind != .rbrace then .error .unexpected
    else if s.gotos.any (fun g => g.used && !g.defd) then .error .noLabel
    else .ok (s.code ++ (if isMain then [.evalR L.zero] else []) ++ [.lab lab0])

/-! ### the machine -/

/-- program counter, accumulator (`none`: nothing of use in it), the rest of the state -/
structure Mc (σ : Type) where
  pc : Nat
  acc : Option Int
  st : σ

/-- the place of a label -/
def find {X : Type} (code : List (I X)) (l : Nat) : Option Nat := code.findIdx? (fun i => match i with | .lab m => m == l | _ => false)

/-- one instruction; `sem` is what an expression evaluates to and does to the state, `none` if it never comes to an end -/
def mstep {X σ : Type} (sem : List X → σ → Option (Int × σ)) (code : List (I X)) (m : Mc σ) : Option (Mc σ) :=
  match code[m.pc]? with
  | none => none
  | some (.lab _) => some { m with pc := m.pc + 1 }
  | some (.jmp l) => (find code l).map fun p => { m with pc := p }
  | some (.jz l) => m.acc.bind fun v => if v = 0 then (find code l).map fun p => { m with pc := p } else some { m with pc := m.pc + 1 }
  | some (.jnz l) => m.acc.bind fun v => if v = 0 then some { m with pc := m.pc + 1 } else (find code l).map fun p => { m with pc := p }
  | some (.ifNot e l) => (sem e m.st).bind fun r => if r.1 = 0 then (find code l).map fun p => ⟨p, none, r.2⟩ else some ⟨m.pc + 1, none, r.2⟩
  | some (.ifYes e l) => (sem e m.st).bind fun r => if r.1 = 0 then some ⟨m.pc + 1, none, r.2⟩ else (find code l).map fun p => ⟨p, none, r.2⟩
  | some (.eval e) => (sem e m.st).map fun r => ⟨m.pc + 1, none, r.2⟩
  | some (.evalR e) => (sem e m.st).map fun r => ⟨m.pc + 1, some r.1, r.2⟩
  | some (.je v l) => m.acc.bind fun a => if a = v then (find code l).map fun p => { m with pc := p } else some { m with pc := m.pc + 1 }

end Smlr.Stmt
