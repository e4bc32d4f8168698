set_option autoImplicit false
/-! Model of the expression parser: `push2` to `popop` (smlrc.c:2387-2520), `isop`, `isunary`, `preced`, `precedGEQ` (2522-2605), `exprUnary` (2621-2934), `expr` (2937-3031).
A type name in parentheses, which the code hands to `ParseDecl`, is one token here; the bytes of string literals are left out (they are the subject of `Lit`). -/
namespace Smlr.Parse

/-- tokens (smlrc.c:216-310).  `ident` with the names "(something<n>)" and "<something<n>>", which stand for a type, are `castName` and `sizeName` here -/
inductive Tk
  | eof | numInt | numUint | numFloat | numWide | litStr | ident | tname | castName | sizeName
  | lpar | rpar | lbrk | rbrk | rbrace | semi | colon | comma | dot | arrow
  | inc | dec | sizeof | tilde | excl
  | amp | star | plus | minus | slash | percent | shl | shr | lt | gt | le | ge | eq | ne | xor | or | land | lor | quest
  | assign | aMul | aDiv | aMod | aAdd | aSub | aShl | aShr | aAnd | aXor | aOr
  | commaOp | uAnd | uStar | uPlus | uMinus | postInc | postDec
  | other
  deriving DecidableEq

/-- a token with its value: `TokenValueInt`, the place of an identifier in the table, or a type -/
abbrev Lx := Tk × Nat

inductive Err
  /-- `errorLongExpr` -/
  | long
  /-- `errorUnexpectedToken` -/
  | unexpected
  /-- `errorInternal` -/
  | internal
  /-- the recursion is cut off; the code has no such limit -/
  | fuel
  deriving DecidableEq

/-- the tokens that `GetToken` will return, `stack` with its top at the end, `opstack` with its top first -/
structure PS where
  inp : List Lx
  stk : List Lx
  ops : List Lx

/-- `STACK_SIZE` and `OPERATOR_STACK_SIZE` -/
structure Cap where
  S : Nat
  P : Nat

abbrev P (α : Type) := PS → Except Err (α × PS)

def P.pure {α : Type} (a : α) : P α := fun s => .ok (a, s)
def P.bind {α β : Type} (x : P α) (f : α → P β) : P β := fun s =>
  match x s with
  | .error e => .error e
  | .ok (a, s') => f a s'

instance : Monad P where
  pure := P.pure
  bind := P.bind

def fail {α : Type} (e : Err) : P α := fun _ => .error e

def failIf (b : Bool) (e : Err) : P Unit := fun s => if b then .error e else .ok ((), s)

/-- `GetToken`; at the end of the input it goes on to return `tokEof` -/
def getToken : P Lx := fun s =>
  match s.inp with
  | [] => .ok ((.eof, 0), s)
  | x :: xs => .ok (x, { s with inp := xs })

/-- `sp` -/
def getSp : P Nat := fun s => .ok (s.stk.length, s)

/-- `push2`, smlrc.c:2387-2396 -/
def push (c : Cap) (x : Lx) : P Unit := fun s => if s.stk.length ≥ c.S then .error .long else .ok ((), { s with stk := s.stk ++ [x] })

/-- `pop2`, smlrc.c:2404-2419 -/
def pop : P Lx := fun s =>
  match s.stk.reverse with
  | [] => .error .internal
  | x :: r => .ok (x, { s with stk := r.reverse })

/-- `ins2`, smlrc.c:2427-2437 -/
def ins (c : Cap) (pos : Nat) (x : Lx) : P Unit := fun s =>
  if s.stk.length ≥ c.S then .error .long else .ok ((), { s with stk := s.stk.take pos ++ x :: s.stk.drop pos })

/-- `pushop2`, smlrc.c:2481-2489 -/
def pushop (c : Cap) (x : Lx) : P Unit := fun s => if s.ops.length ≥ c.P then .error .long else .ok ((), { s with ops := x :: s.ops })

/-- `popop2`, smlrc.c:2497-2513 -/
def popop : P Lx := fun s =>
  match s.ops with
  | [] => .error .internal
  | x :: r => .ok (x, { s with ops := r })

/-- `opstacktop` -/
def optop : P Tk := fun s =>
  match s.ops with
  | [] => .error .internal
  | x :: _ => .ok (x.1, s)

/-- `isop`, smlrc.c:2522-2553 -/
def isop : Tk → Bool
  | .excl | .tilde | .amp | .star | .slash | .percent | .plus | .minus | .or | .xor | .lt | .gt | .assign | .lor | .land | .eq | .ne | .le | .ge | .shl | .shr
  | .inc | .dec | .sizeof | .aMul | .aDiv | .aMod | .aAdd | .aSub | .aShl | .aShr | .aAnd | .aXor | .aOr | .commaOp | .quest => true
  | _ => false

/-- `isunary`, smlrc.c:2556-2559 -/
def isunary : Tk → Bool
  | .excl | .tilde | .inc | .dec | .sizeof => true
  | _ => false

/-- `strchr("&*+-", tok)`, smlrc.c:2628 -/
def isPrefix : Tk → Bool
  | .amp | .star | .plus | .minus => true
  | _ => false

/-- `preced`, smlrc.c:2562-2588 -/
def preced : Tk → Nat
  | .star | .slash | .percent => 13
  | .plus | .minus => 12
  | .shl | .shr => 11
  | .lt | .gt | .le | .ge => 10
  | .eq | .ne => 9
  | .amp => 8
  | .xor => 7
  | .or => 6
  | .land => 5
  | .lor => 4
  | .quest | .colon => 3
  | .assign | .aMul | .aDiv | .aMod | .aAdd | .aSub | .aShl | .aShr | .aAnd | .aXor | .aOr => 2
  | .commaOp => 1
  | _ => 0

/-- `precedGEQ`, smlrc.c:2590-2605 -/
def precedGEQ (l r : Tk) : Bool :=
  let pl := preced l
  let pr := preced r
  let pl := if pl = 3 ∧ pr ≥ 3 then 0 else pl
  let pl := if pl = 2 ∧ pr ≥ 2 then 0 else pl
  pl ≥ pr

/-- smlrc.c:2930-2931 -/
def fixComma (cs : Bool) (t : Lx) : Lx := if t.1 = .comma ∧ cs = false then (.commaOp, t.2) else t

/-- `strchr(",;:)]}", tok)` or `tokEof`, smlrc.c:2944 -/
def isStop : Tk → Bool
  | .eof | .comma | .semi | .colon | .rpar | .rbrk | .rbrace => true
  | _ => false

/-- smlrc.c:2641-2668 -/
def pushUnary (c : Cap) (t : Tk) : P Unit :=
  match t with
  | .amp => push c (.uAnd, 0)
  | .star => push c (.uStar, 0)
  | .plus => push c (.uPlus, 0)
  | .minus => push c (.uMinus, 0)
  | .excl => do
    push c (.numInt, 0)
    push c (.eq, 0)
  | t => push c (t, 0)

/-- `while (cnt--) { popop2; push2 }`, smlrc.c:2956-2961 -/
def popN (c : Cap) : Nat → P Unit
  | 0 => pure ()
  | n + 1 => do
    let v ← popop
    push c v
    popN c n

/-- smlrc.c:2950-2965: move an operator to the expression stack -/
def popOne (c : Cap) : P Unit := do
  let v ← popop
  (if v.1 = .quest then do
    popN c v.2
    push c (.quest, 0)
  else push c v)

/-- smlrc.c:2948-2966, 3003-3022: move operators while `f` holds of the topmost.  Every round takes one away, so their number plus one is enough fuel -/
def popWhile (c : Cap) (f : Tk → Bool) : Nat → P Unit
  | 0 => fail .internal
  | n + 1 => do
    let t ← optop
    (if f t then do
      popOne c
      popWhile c f n
    else pure ())

def popAll (c : Cap) (f : Tk → Bool) : P Unit := fun s => popWhile c f (s.ops.length + 1) s

/-- `while (sp > ssp) { pop2; pushop2 }`, smlrc.c:2981-2986, `n` rounds -/
def moveOps (c : Cap) : Nat → P Unit
  | 0 => pure ()
  | n + 1 => do
    let v ← pop
    pushop c v
    moveOps c n

/-- smlrc.c:2831-2838, `n` rounds: move the tokens of an argument to `pos` -/
def moveArg (c : Cap) (pos : Nat) : Nat → P Unit
  | 0 => pure ()
  | n + 1 => do
    let v ← pop
    ins c pos v
    moveArg c pos n

/-- the loop over adjacent string literals, smlrc.c:2718-2726 -/
def skipStr : List Lx → Lx × List Lx
  | [] => ((.eof, 0), [])
  | x :: xs => if x.1 = .litStr then skipStr xs else (x, xs)

def getAfterStr : P Lx := fun s => .ok ((skipStr s.inp).1, { s with inp := (skipStr s.inp).2 })

/-- what the first part of `exprUnary` leaves: `tok`, `*gotUnary`, `decl` -/
structure Prim where
  tok : Lx
  got : Bool
  decl : Bool

mutual
/-- `exprUnary`; `cs` is `commaSeparator`, `sz` is `argOfSizeOf` -/
def exprUnary (c : Cap) : Nat → Lx → Bool → Bool → P (Lx × Bool)
  | 0, _, _, _ => fail .fuel
  | n + 1, t, cs, sz =>
    if isop t.1 && (isunary t.1 || isPrefix t.1) then do
      let x ← getToken
      let r ← exprUnary c n x cs (t.1 = .sizeof)
      failIf (!r.2) .unexpected
      pushUnary c t.1
      pure (fixComma cs r.1, r.2)
    else do
      let inspos ← getSp
      let p ← primary c n t cs sz
      let r ← (if p.got && !p.decl then postLoop c n inspos p.tok else pure (p.tok, p.got) : P (Lx × Bool))
      pure (fixComma cs r.1, r.2)

/-- smlrc.c:2671-2806 -/
def primary (c : Cap) : Nat → Lx → Bool → Bool → P Prim
  | 0, _, _, _ => fail .fuel
  | n + 1, t, cs, sz =>
    match t.1 with
    | .numInt | .numUint | .numFloat | .numWide | .ident => do
      push c t
      let x ← getToken
      pure ⟨x, true, false⟩
    | .litStr => do
      let x ← getAfterStr
      push c t
      pure ⟨x, true, false⟩
    | .lpar => do
      let x ← getToken
      (if x.1 = .tname then do
        let y ← getToken
        failIf (y.1 != .rpar) .unexpected
        let z ← getToken
        (if sz then do
          push c (.sizeName, x.2)
          pure ⟨z, true, true⟩
        else do
          let r ← exprUnary c n z cs false
          failIf (!r.2) .unexpected
          push c (.castName, x.2)
          pure ⟨r.1, r.2, false⟩)
      else do
        let r ← expr c n x false
        failIf (r.1.1 != .rpar) .unexpected
        failIf (!r.2) .unexpected
        let y ← getToken
        pure ⟨y, r.2, false⟩)
    | _ => pure ⟨t, false, false⟩

/-- smlrc.c:2808-2927 while `*gotUnary` is nonzero -/
def postLoop (c : Cap) : Nat → Nat → Lx → P (Lx × Bool)
  | 0, _, _ => fail .fuel
  | n + 1, inspos, t =>
    match t.1 with
    | .lpar => do
      ins c inspos (.lpar, 0)
      args c n inspos false
      push c (.rpar, 0)
      let x ← getToken
      postLoop c n inspos x
    | .lbrk => do
      let x ← getToken
      let r ← expr c n x false
      failIf (!r.2) .unexpected
      failIf (r.1.1 != .rbrk) .unexpected
      push c (.plus, 0)
      push c (.uStar, 0)
      let y ← getToken
      postLoop c n inspos y
    | .inc => do
      push c (.postInc, 0)
      let y ← getToken
      postLoop c n inspos y
    | .dec => do
      push c (.postDec, 0)
      let y ← getToken
      postLoop c n inspos y
    | .dot => do
      push c (.uAnd, 0)
      let x ← getToken
      failIf (x.1 != .ident) .unexpected
      push c x
      push c (.arrow, 0)
      push c (.uStar, 0)
      let y ← getToken
      postLoop c n inspos y
    | .arrow => do
      let x ← getToken
      failIf (x.1 != .ident) .unexpected
      push c x
      push c (.arrow, 0)
      push c (.uStar, 0)
      let y ← getToken
      postLoop c n inspos y
    | _ => pure (t, true)

/-- smlrc.c:2822-2864; `acnt` tells that there has been an argument -/
def args (c : Cap) : Nat → Nat → Bool → P Unit
  | 0, _, _ => fail .fuel
  | n + 1, inspos, acnt => do
    let pos2 ← getSp
    let x ← getToken
    let r ← expr c n x true
    let sp ← getSp
    moveArg c (inspos + 1) (sp - pos2)
    (if r.1.1 = .comma then do
      failIf (!r.2) .unexpected
      ins c (inspos + 1) (.comma, 0)
      args c n inspos true
    else do
      failIf (r.1.1 != .rpar) .unexpected
      failIf (acnt && !r.2) .unexpected)

/-- `expr` -/
def expr (c : Cap) : Nat → Lx → Bool → P (Lx × Bool)
  | 0, _, _ => fail .fuel
  | n + 1, t, cs => do
    pushop c (.eof, 0)
    let r ← exprUnary c n t cs false
    let r ← exprLoop c n r.1 r.2 cs
    popAll c (· != .eof)
    let _ ← popop
    pure r

/-- smlrc.c:2944-3001 -/
def exprLoop (c : Cap) : Nat → Lx → Bool → Bool → P (Lx × Bool)
  | 0, _, _, _ => fail .fuel
  | n + 1, t, got, cs =>
    if isStop t.1 || !got then pure (t, got)
    else if isop t.1 && !isunary t.1 then do
      popAll c (precedGEQ · t.1)
      quest c n t.1
      let x ← getToken
      let r ← exprUnary c n x cs false
      failIf (!r.2) .unexpected
      exprLoop c n r.1 r.2 cs
    else fail .unexpected

/-- smlrc.c:2970-2994: push an operator; for ?: parse the operand in the middle and push it, too -/
def quest (c : Cap) : Nat → Tk → P Unit
  | 0, _ => fail .fuel
  | n + 1, t =>
    if t = .quest then do
      let ssp ← getSp
      let x ← getToken
      let r ← expr c n x false
      failIf (!r.2 || r.1.1 != .colon) .unexpected
      let sp ← getSp
      moveOps c (sp - ssp)
      pushop c (.quest, sp - ssp)
    else pushop c (t, 0)
end

end Smlr.Parse
