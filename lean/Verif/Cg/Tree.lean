import Verif.Cg.Model
set_option autoImplicit false
/-! Integer expressions as trees, and the stack on which the parser hands them to the code generator. -/
namespace Smlr.Cg

inductive Un
  | not | plus | neg | bool | void | uchar | schar | short | ushort
  deriving DecidableEq, Repr

inductive IncK
  | inc | dec | pinc | pdec
  deriving DecidableEq, Repr

/-- An expression after `exprval`: types are gone, and operators tell what is needed of them.  Objects are used by their addresses: `glob` and `loc` are the addresses of a global or static object and of one in the frame, `deref` reads an object, and the left operands of assignments and the operands of `++` and `--` are addresses.  A size is the number of bytes of an object, negative for the signed types narrower than a word. -/
inductive E
  | num (v : Int)
  | glob (x : Int)
  | loc (o : Int)
  | deref (sz : Int) (e : E)
  | un (u : Un) (e : E)
  /-- prefix and postfix `++` and `--` -/
  | inc (k : IncK) (sz : Int) (e : E)
  /-- postfix `++` and `--` of pointers: add or subtract `n` -/
  | padd (sub : Bool) (sz n : Int) (e : E)
  | bin (o : Ar) (l r : E)
  | cmp (c : Cc) (l r : E)
  | asg (sz : Int) (l r : E)
  | asgo (o : Ar) (sz : Int) (l r : E)
  | land (lab : Int) (l r : E)
  | lor (lab : Int) (l r : E)
  /-- `c ? a : b`, with the labels `lab` and `lab + 1` -/
  | cond (lab : Int) (c a b : E)
  | comma (l r : E)
  deriving DecidableEq, Repr

def Un.tok : Un → Tok
  | .not => .not
  | .plus => .uplus
  | .neg => .neg
  | .bool => .bool
  | .void => .void
  | .uchar => .uchar
  | .schar => .schar
  | .short => .tshort
  | .ushort => .tushort

def IncK.tok : IncK → Tok
  | .inc => .inc
  | .dec => .dec
  | .pinc => .pinc
  | .pdec => .pdec

/-- is the last token that of a comparison?  (smlrc.c:4822-4837 and 4848-4865) -/
def E.isCmp : E → Bool
  | .cmp _ _ _ => true
  | _ => false

/-- an operand of `&&` or `||` is a comparison, or converted to zero or one: by an operator (`tokBool`), or by `exprval` if it is constant -/
def E.isBool : E → Bool
  | .cmp .. => true
  | .un .bool _ => true
  | .num v => v = 0 || v = 1
  | _ => false

/-- The stack for an expression.  `&&` and `||`: smlrc.c:4807-4867; `?:`: 5315-5438 (the condition, the third operand, the second one); comma: 5145-5154. -/
def toks : E → List T
  | .num v => [(.num, v)]
  | .glob x => [(.ident, x)]
  | .loc o => [(.locl, o)]
  | .deref sz e => toks e ++ [(.star, sz)]
  | .un u e => toks e ++ [(u.tok, 0)]
  | .inc k sz e => toks e ++ [(k.tok, sz)]
  | .padd sub sz n e => toks e ++ [(.num, n), (if sub then .psub else .padd, sz)]
  | .bin o l r => toks l ++ toks r ++ [(.ar o, 0)]
  | .cmp c l r => toks l ++ toks r ++ [(.cmp c, 0)]
  | .asg sz l r => toks l ++ toks r ++ [(.asg, sz)]
  | .asgo o sz l r => toks l ++ toks r ++ [(.asgo o, sz)]
  | .land lab l r => toks l ++ [(.short, lab)] ++ toks r ++ [(.logAnd, lab)]
  | .lor lab l r => toks l ++ [(.short, -lab)] ++ toks r ++ [(.logOr, lab)]
  | .cond lab c a b =>
    toks c ++ [(.short, -lab)] ++ (toks b ++ [(.goto, lab + 1)]) ++ [(.logAnd, lab)] ++ toks a ++ [(.logAnd, lab + 1)]
  | .comma l r => toks l ++ [(.void, 0)] ++ toks r ++ [(.comma, 0)]

/-- The code that jumps to a label if the value of an expression is not zero (`nz`) or is zero: for the conditions of `do` (smlrc.c:9121-9158), and of `while` (9015-9051), `if` (9201-9237) and `for` (9330-9366), if they are not constant -/
def branch (W : Nat) (e : E) (nz : Bool) (lab : Int) : Option (List Ins) :=
  if e.isCmp then genExpr W (toks e ++ [(if nz then .ifT else .ifN, lab)])
  else (genExpr W (toks e ++ [(.ret, 0)])).map (· ++ jumpIf W nz lab)

/-- the sizes of objects of a machine with words of `W` bytes -/
def okSz (W : Nat) (sz : Int) : Prop := sz = W ∨ sz = 1 ∨ sz = -1 ∨ (W = 4 ∧ (sz = 2 ∨ sz = -2))

instance (W : Nat) (sz : Int) : Decidable (okSz W sz) := by unfold okSz; infer_instance

/-- expressions for a machine with words of `W` bytes: sizes of objects that there are, `short` only if it is narrower than a word, positive labels -/
def E.ok (W : Nat) : E → Prop
  | .num _ | .glob _ | .loc _ => True
  | .deref sz e => okSz W sz ∧ e.ok W
  | .un u e => ((u = .short ∨ u = .ushort) → W = 4) ∧ e.ok W
  | .inc _ sz e => okSz W sz ∧ e.ok W
  | .padd _ sz _ e => okSz W sz ∧ e.ok W
  | .bin _ l r => l.ok W ∧ r.ok W
  | .cmp _ l r => l.ok W ∧ r.ok W
  | .asg sz l r => okSz W sz ∧ l.ok W ∧ r.ok W
  | .asgo _ sz l r => okSz W sz ∧ l.ok W ∧ r.ok W
  | .land lab l r => (0 < lab ∧ l.isBool ∧ r.isBool) ∧ l.ok W ∧ r.ok W
  | .lor lab l r => (0 < lab ∧ l.isBool ∧ r.isBool) ∧ l.ok W ∧ r.ok W
  | .cond lab c a b => 0 < lab ∧ c.ok W ∧ a.ok W ∧ b.ok W
  | .comma l r => l.ok W ∧ r.ok W

/-- how many words of the stack an expression may need -/
def E.depth : E → Nat
  | .num _ | .glob _ | .loc _ => 0
  | .deref _ e | .un _ e | .inc _ _ e | .padd _ _ _ e => e.depth
  | .bin _ l r | .cmp _ l r | .asg _ l r | .asgo _ _ l r => max l.depth (r.depth + 1)
  | .land _ l r | .lor _ l r | .comma l r => max l.depth r.depth
  | .cond _ c a b => max c.depth (max a.depth b.depth)

end Smlr.Cg
