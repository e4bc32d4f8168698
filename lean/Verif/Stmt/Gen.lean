import Verif.Stmt.Spec
set_option autoImplicit false
/-! The code for a statement, computed from the tree; it is what the parser makes of the tokens. -/
namespace Smlr.Stmt
open Spec

section
variable {L : Lang}

/-- the part of the state that matters: labels, cases of the innermost `switch`, label of its `default` (0: none), table of labels -/
structure GS where
  lab : Nat
  cs : List (Int × Nat)
  d : Nat
  gotos : List Goto

def addG (F : Fx) (n : Nat) (d : Bool) (g : GS) : Except Err (Nat × GS) :=
  match findGoto n g.gotos with
  | some i =>
    match g.gotos[i]? with
    | some x =>
      if x.defd && d then .error .dupLabel
      else .ok (x.lab, { g with gotos := g.gotos.set i { x with used := x.used || !d, defd := x.defd || d } })
    | none => .error .unexpected
  | none =>
    if g.gotos.length ≥ F.maxGotos then .error .table
    else .ok (g.lab, { g with gotos := g.gotos ++ [⟨n, g.lab, !d, d⟩], lab := g.lab + 1 })

def jn (e : L.E) (l : Nat) : List (I L.X) :=
  match L.const e with
  | some v => if L.trunc v = 0 then [.jmp l] else []
  | none => if rel e then [.ifNot (L.rpn e) l] else [.evalR (L.rpn e), .jz l]

def jy (e : L.E) (l : Nat) : List (I L.X) :=
  match L.const e with
  | some v => if L.trunc v = 0 then [] else [.jmp l]
  | none => if rel e then [.ifYes (L.rpn e) l] else [.evalR (L.rpn e), .jnz l]

def initCode : Init L → List (I L.X)
  | .none => []
  | .expr e => [.eval (L.rpn e)]
  | .decl es => es.map .eval

def jnOpt (c : Option L.E) (l : Nat) : List (I L.X) :=
  match c with
  | none => []
  | some e => jn e l

/-- how `for` is laid out: the label for `continue`, what is put on the stash, the code before the body, the code behind it -/
structure Plan (X : Type) where
  cnt : Nat
  inc : Nat
  pre : List (I X)
  post : List (I X)

def plan (c e : Option L.E) (sl l : Nat) : Plan L.X :=
  match e with
  | some e3 =>
    if (L.rpn e3).length ≤ 16 && (L.rpn e3).length ≤ 64 - sl then
      ⟨l + 1, (L.rpn e3).length, [], [.lab (l + 1), .eval (L.rpn e3)] ++ (if condZero c then [] else [.jmp l])⟩
    else ⟨l + 1, 0, [.jmp (l + 2), .lab (l + 1), .eval (L.rpn e3), .jmp l, .lab (l + 2)], [.jmp (l + 1)]⟩
  | none => if condZero c then ⟨l + 3, 0, [], []⟩ else ⟨l, 0, [], [.jmp l]⟩

def swEnd (brk lbl d : Nat) (cs : List (Int × Nat)) : List (I L.X) :=
  let d := if d = 0 then brk else d
  [.jmp brk, .lab lbl] ++ cs.map (fun c => .je c.1 c.2) ++ (if d = brk then [] else [.jmp d]) ++ [.lab brk]

def isNil : Stmt L → Bool
  | .nil => true
  | _ => false

def retCode (F : Fx) (tl : Bool) (e : Option L.E) : List (I L.X) :=
  (match e with
  | some e => [.evalR (L.rpn e)]
  | none => []) ++ (if tl then [] else [.jmp F.epi])

/-- then -/
def Except.and {α β : Type} (x : Except Err α) (f : α → Except Err β) : Except Err β :=
  match x with
  | .error e => .error e
  | .ok a => f a

/-- `tl` tells that the next token is the `}` of the function, `sl` is the size of the stash -/
def gen (F : Fx) : Stmt L → Bool → Nat → Option (Nat × Nat) → Nat → GS → Except Err (List (I L.X) × GS)
  | .nil, _, _, _, _, g => .ok ([], g)
  | .cons s ss, tl, sl, bc, ci, g => Except.and (gen F s (tl && isNil ss) sl bc ci g) fun a => Except.and (gen F ss tl sl bc ci a.2) fun b => .ok (a.1 ++ b.1, b.2)
  | .decl es, _, _, _, _, g => .ok (es.map .eval, g)
  | .empty, _, _, _, _, g => .ok ([], g)
  | .expr e, _, _, _, _, g => .ok ([.eval (L.rpn e)], g)
  | .block ss, _, sl, bc, ci, g => gen F ss false sl bc ci g
  | .ret e, tl, _, _, _, g => if e.isSome = F.retVoid then .error .unexpected else .ok (retCode F tl e, g)
  | .whl c b, tl, sl, _, ci, g => Except.and (gen F b tl sl (some (g.lab + 1, g.lab)) ci { g with lab := g.lab + 2 }) fun a =>
      .ok (.lab g.lab :: (jn c (g.lab + 1) ++ (a.1 ++ ((if condZero (some c) then [] else [.jmp g.lab]) ++ [.lab (g.lab + 1)]))), a.2)
  | .dow b c, _, sl, _, ci, g => Except.and (gen F b false sl (some (g.lab + 2, g.lab + 1)) ci { g with lab := g.lab + 3 }) fun a =>
      .ok (.lab g.lab :: (a.1 ++ (.lab (g.lab + 1) :: (jy c g.lab ++ [.lab (g.lab + 2)]))), a.2)
  | .ift c s, tl, sl, bc, ci, g => Except.and (gen F s tl sl bc ci { g with lab := g.lab + 2 }) fun a => .ok (jn c g.lab ++ (a.1 ++ [.lab g.lab]), a.2)
  | .ife c s s', tl, sl, bc, ci, g => Except.and (gen F s false sl bc ci { g with lab := g.lab + 2 }) fun a => Except.and (gen F s' tl sl bc ci a.2) fun b =>
      .ok (jn c g.lab ++ (a.1 ++ (.jmp (g.lab + 1) :: .lab g.lab :: (b.1 ++ [.lab (g.lab + 1)]))), b.2)
  | .for i c e b, tl, sl, _, ci, g =>
      Except.and (gen F b tl (sl + (plan c e sl g.lab).inc) (some (g.lab + 3, (plan c e sl g.lab).cnt)) ci { g with lab := g.lab + 4 }) fun a =>
      .ok (initCode i ++ (.lab g.lab :: (jnOpt c (g.lab + 3) ++ ((plan c e sl g.lab).pre ++ (a.1 ++ ((plan c e sl g.lab).post ++ [.lab (g.lab + 3)]))))), a.2)
  | .brk, _, _, bc, _, g =>
    match bc with
    | none => .error .scope
    | some x => .ok ([.jmp x.1], g)
  | .cont, _, _, bc, _, g =>
    match bc with
    | none => .error .scope
    | some x => if x.2 = 0 then .error .scope else .ok ([.jmp x.2], g)
  | .switch e b, tl, sl, bc, ci, g =>
    if ci + g.cs.length ≥ F.maxCases then .error .table
    else Except.and (gen F b tl sl (some (g.lab, cntTarget bc)) (ci + g.cs.length + 1) { g with lab := g.lab + 2, cs := [], d := 0 }) fun a =>
      .ok (.evalR (L.rpn e) :: .jmp (g.lab + 1) :: (a.1 ++ swEnd g.lab (g.lab + 1) a.2.d a.2.cs), { a.2 with cs := g.cs, d := g.d })
  | .case e s, tl, sl, bc, ci, g =>
    if ci = 0 then .error .scope
    else
      match L.const e with
      | none => .error .notConst
      | some v =>
        if hasCase g.cs (L.trunc v) then .error .dupCase
        else if ci + g.cs.length ≥ F.maxCases then .error .table
        else Except.and (gen F s tl sl bc ci { g with lab := g.lab + 1, cs := g.cs ++ [(L.trunc v, g.lab)] }) fun a => .ok (.lab g.lab :: a.1, a.2)
  | .default s, tl, sl, bc, ci, g =>
    if ci = 0 then .error .scope
    else if g.d ≠ 0 then .error .unexpected
    else Except.and (gen F s tl sl bc ci { g with lab := g.lab + 1, d := g.lab }) fun a => .ok (.lab g.lab :: a.1, a.2)
  | .goto n, _, _, _, _, g => Except.and (addG F n false g) fun a => .ok ([.jmp a.1], a.2)
  | .label n s, tl, sl, bc, ci, g => Except.and (addG F n true g) fun a => Except.and (gen F s tl sl bc ci a.2) fun b => .ok (.lab a.1 :: b.1, b.2)

/-! ### running the parser -/

def eb {α β : Type} (x : Except Err (α × St L)) (f : α → M L β) : Except Err (β × St L) :=
  match x with
  | .error e => .error e
  | .ok r => f r.1 r.2

theorem bind_run {α β : Type} (x : M L α) (f : α → M L β) (s : St L) : (x >>= f) s = eb (x s) f := by
  show M.bind x f s = _
  unfold M.bind eb
  cases x s <;> rfl
theorem eb_ok {α β : Type} (a : α) (s : St L) (f : α → M L β) : eb (.ok (a, s)) f = f a s := rfl
theorem eb_error {α β : Type} (e : Err) (f : α → M L β) : eb (.error e) f = .error e := rfl
theorem pure_run {α : Type} (a : α) (s : St L) : (pure a : M L α) s = .ok (a, s) := rfl
theorem fail_run {α : Type} (e : Err) (s : St L) : (fail e : M L α) s = .error e := rfl
theorem failIf_false (e : Err) (s : St L) : failIf false e s = .ok ((), s) := rfl
theorem failIf_true (e : Err) (s : St L) : failIf true e s = .error e := rfl

/-- the state of the parser -/
def mk (inp : List (Tok L)) (code : List (I L.X)) (g : GS) (pre : Option (List (Int × Nat))) (stash : List L.X) (level : Nat) : St L :=
  ⟨inp, code, g.lab, (match pre with | none => g.cs | some p => p ++ (0, g.d) :: g.cs), g.gotos, stash, level⟩

def ciOf : Option (List (Int × Nat)) → Nat
  | none => 0
  | some p => p.length + 1

theorem getToken_run (t : Tok L) (ts : List (Tok L)) (c : List (I L.X)) (g : GS) (pre : Option (List (Int × Nat))) (st : List L.X) (lv : Nat) :
    getToken (mk (t :: ts) c g pre st lv) = .ok (t, mk ts c g pre st lv) := rfl
theorem emit_run (i : I L.X) (ts : List (Tok L)) (c : List (I L.X)) (g : GS) (pre : Option (List (Int × Nat))) (st : List L.X) (lv : Nat) :
    emit i (mk ts c g pre st lv) = .ok ((), mk ts (c ++ [i]) g pre st lv) := rfl
theorem emits_run (i : List (I L.X)) (ts : List (Tok L)) (c : List (I L.X)) (g : GS) (pre : Option (List (Int × Nat))) (st : List L.X) (lv : Nat) :
    emits i (mk ts c g pre st lv) = .ok ((), mk ts (c ++ i) g pre st lv) := rfl
theorem newLab_run (ts : List (Tok L)) (c : List (I L.X)) (g : GS) (pre : Option (List (Int × Nat))) (st : List L.X) (lv : Nat) :
    newLab (mk ts c g pre st lv) = .ok (g.lab, mk ts c { g with lab := g.lab + 1 } pre st lv) := rfl
theorem getLevel_run (ts : List (Tok L)) (c : List (I L.X)) (g : GS) (pre : Option (List (Int × Nat))) (st : List L.X) (lv : Nat) :
    getLevel (mk ts c g pre st lv) = .ok (lv, mk ts c g pre st lv) := rfl
theorem setLevel_run (n : Nat) (ts : List (Tok L)) (c : List (I L.X)) (g : GS) (pre : Option (List (Int × Nat))) (st : List L.X) (lv : Nat) :
    setLevel n (mk ts c g pre st lv) = .ok ((), mk ts c g pre st n) := rfl
theorem getStash_run (ts : List (Tok L)) (c : List (I L.X)) (g : GS) (pre : Option (List (Int × Nat))) (st : List L.X) (lv : Nat) :
    getStash (mk ts c g pre st lv) = .ok (st, mk ts c g pre st lv) := rfl
theorem setStash_run (n : List L.X) (ts : List (Tok L)) (c : List (I L.X)) (g : GS) (pre : Option (List (Int × Nat))) (st : List L.X) (lv : Nat) :
    setStash n (mk ts c g pre st lv) = .ok ((), mk ts c g pre n lv) := rfl

theorem parseExpr_run (e : L.E) (x : K) (hx : isStop x = true) (ts : List (Tok L)) (c : List (I L.X)) (g : GS) (pre : Option (List (Int × Nat))) (st : List L.X) (lv : Nat) :
    parseExpr (.expr e) (mk (.k x :: ts) c g pre st lv) = .ok ((some e, .k x), mk ts c g pre st lv) := by
  have h : isStop (Tok.k (L := L) x).kind = true := by cases x <;> first | rfl | cases hx
  simp only [parseExpr, bind_run, getToken_run, eb_ok, h]
  rfl

theorem parseExpr_none (x : K) (hx : isStop x = true) (s : St L) : parseExpr (.k x) s = .ok ((none, .k x), s) := by
  have h : isStop (Tok.k (L := L) x).kind = true := by cases x <;> first | rfl | cases hx
  simp only [parseExpr, bind_run, h]
  rfl

theorem paren_run (e : L.E) (ts : List (Tok L)) (c : List (I L.X)) (g : GS) (pre : Option (List (Int × Nat))) (st : List L.X) (lv : Nat) :
    parenExpr (.k .lpar) (mk (.expr e :: .k .rpar :: ts) c g pre st lv) = .ok (e, mk ts c g pre st lv) := by
  simp only [parenExpr, bind_run, getToken_run, eb_ok, parseExpr_run e .rpar rfl]
  rfl

theorem jumpNot_run (e : L.E) (l : Nat) (ts : List (Tok L)) (c : List (I L.X)) (g : GS) (pre : Option (List (Int × Nat))) (st : List L.X) (lv : Nat) :
    jumpNot e l (mk ts c g pre st lv) = .ok ((), mk ts (c ++ jn e l) g pre st lv) := by
  unfold jumpNot jn
  cases L.const e with
  | none => simp only; split <;> simp [emit_run, emits_run]
  | some v => simp only; split <;> simp [emit_run, pure_run]

theorem jumpYes_run (e : L.E) (l : Nat) (ts : List (Tok L)) (c : List (I L.X)) (g : GS) (pre : Option (List (Int × Nat))) (st : List L.X) (lv : Nat) :
    jumpYes e l (mk ts c g pre st lv) = .ok ((), mk ts (c ++ jy e l) g pre st lv) := by
  unfold jumpYes jy
  cases L.const e with
  | none => simp only; split <;> simp [emit_run, emits_run]
  | some v => simp only; split <;> simp [emit_run, pure_run]

theorem forInit_run (i : Init L) (t : Tok L) (ts : List (Tok L)) (c : List (I L.X)) (g : GS) (pre : Option (List (Int × Nat))) (st : List L.X) (lv : Nat) :
    forInit (mk (i.toks ++ t :: ts) c g pre st lv) = .ok (t, mk ts (c ++ initCode i) g pre st lv) := by
  cases i with
  | none =>
    simp only [forInit, Init.toks, bind_run, List.cons_append, List.nil_append, getToken_run, eb_ok, parseExpr_none .semi rfl, initCode, List.append_nil]
    rfl
  | expr e =>
    simp only [forInit, Init.toks, bind_run, List.cons_append, List.nil_append, getToken_run, eb_ok, parseExpr_run e .semi rfl, initCode]
    rfl
  | decl es =>
    simp only [forInit, Init.toks, bind_run, List.cons_append, List.nil_append, getToken_run, eb_ok, initCode]
    rfl

theorem addGoto_run (F : Fx) (n : Nat) (d : Bool) (ts : List (Tok L)) (c : List (I L.X)) (g : GS) (pre : Option (List (Int × Nat))) (st : List L.X) (lv : Nat) :
    addGoto F n d (mk ts c g pre st lv) = Except.and (addG F n d g) fun a => .ok (a.1, mk ts c a.2 pre st lv) := by
  unfold addGoto addG mk
  simp only
  cases findGoto n g.gotos with
  | none => simp only; split <;> rfl
  | some i =>
    simp only
    cases g.gotos[i]? with
    | none => rfl
    | some x => simp only; split <;> rfl

/-- a token that begins a statement -/
def Starts : Tok L → Bool
  | .k .semi | .k .lbrace | .k .return_ | .k .while_ | .k .do_ | .k .if_ | .k .for_ | .k .break_ | .k .continue_ | .k .switch_ | .k .case_ | .k .default_ | .k .goto_ => true
  | .label _ | .expr _ => true
  | _ => false

theorem wf_starts {s : Stmt L} (h : s.wf false) : ∃ t ts, s.toks = t :: ts ∧ Starts t = true := by
  cases s with
  | nil => cases h
  | cons s ss => cases s <;> simp [Stmt.wf] at h
  | decl es => exact h.elim
  | _ => exact ⟨_, _, rfl, rfl⟩

theorem starts_kind {t : Tok L} (h : Starts t = true) : (t.kind == .rbrace) = false ∧ t.kind ≠ .else_ := by
  unfold Starts at h
  split at h <;> first | exact ⟨rfl, by simp [Tok.kind]⟩ | cases h

theorem blockLoop_starts (F : Fx) (n : Nat) {t : Tok L} (h : Starts t = true) (bc : Option (Nat × Nat)) (ci : Nat) :
    blockLoop F (n + 1) t bc ci = stmt F n t bc ci >>= fun t => blockLoop F n t bc ci := by
  unfold Starts at h
  split at h <;> first | (cases h; done) | (rw [blockLoop] <;> simp)

end

end Smlr.Stmt
