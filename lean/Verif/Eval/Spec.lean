import Verif.Eval.Model
set_option autoImplicit false
/-! What C says of the expressions of `#if` (ISO/IEC 9899:1999, 6.4.4, 6.5, 6.6, 6.10.1): trees, the tokens that a tree is written with, and its value in whole numbers.  From the model only the token names are used. -/
namespace Smlr.Eval

/-- a value with its type: `intmax_t` (`sign`) or `uintmax_t` -/
structure SV where
  sign : Bool
  x : Int
  deriving DecidableEq, Repr

/-! ### constants, 6.4.4 -/

/-- a digit of a base and what it counts -/
inductive Digit : Nat → Char → Nat → Prop
  | num {b : Nat} {c : Char} (n : Nat) : n < 10 → n < b → c = ['0', '1', '2', '3', '4', '5', '6', '7', '8', '9'][n]! → Digit b c n
  | low {c : Char} (n : Nat) : n < 6 → c = ['a', 'b', 'c', 'd', 'e', 'f'][n]! → Digit 16 c (10 + n)
  | up {c : Char} (n : Nat) : n < 6 → c = ['A', 'B', 'C', 'D', 'E', 'F'][n]! → Digit 16 c (10 + n)

/-- a sequence of digits, most significant first, and the number it denotes -/
inductive Digits (b : Nat) : List Char → Nat → Prop
  | nil : Digits b [] 0
  | snoc {s : List Char} {n : Nat} {c : Char} {k : Nat} : Digits b s n → Digit b c k → Digits b (s ++ [c]) (n * b + k)

/-- suffixes without and with `u` -/
def suffixes : List (List Char) := [[], ['l'], ['L'], ['l', 'l'], ['L', 'L']]
def uSuffixes : List (List Char) :=
  [['u'], ['U'], ['u', 'l'], ['u', 'L'], ['U', 'l'], ['U', 'L'],
   ['l', 'u'], ['l', 'U'], ['L', 'u'], ['L', 'U'], ['u', 'l', 'l'], ['u', 'L', 'L'],
   ['U', 'l', 'l'], ['U', 'L', 'L'], ['l', 'l', 'u'], ['l', 'l', 'U'], ['L', 'L', 'u'], ['L', 'L', 'U']]

/-- the digits of an integer constant: the characters, the base, the number -/
inductive Body : List Char → Nat → Nat → Prop
  | dec {c : Char} {s : List Char} {n : Nat} : c ≠ '0' → Digits 10 (c :: s) n → Body (c :: s) 10 n
  | oct {s : List Char} {n : Nat} : Digits 8 s n → Body ('0' :: s) 8 n
  | hex {x : Char} {s : List Char} {n : Nat} : x = 'x' ∨ x = 'X' → s ≠ [] → Digits 16 s n → Body ('0' :: x :: s) 16 n

/-- escape sequences of one letter -/
def escapes : List (Char × Nat) :=
  [('\'', 39), ('"', 34), ('?', 63), ('\\', 92), ('a', 7), ('b', 8), ('f', 12), ('n', 10), ('r', 13), ('t', 9), ('v', 11)]

/-- what may stand between the quotes, as far as it fits a byte, and its code -/
inductive CChar : List Char → Nat → Prop
  | plain {c : Char} : c ≠ '\'' → c ≠ '\\' → c ≠ '\n' → c.toNat < 256 → CChar [c] c.toNat
  | esc {c : Char} {n : Nat} : (c, n) ∈ escapes → CChar ['\\', c] n
  | oct {s : List Char} {n : Nat} : s ≠ [] → s.length ≤ 3 → Digits 8 s n → n < 256 → CChar ('\\' :: s) n
  | hex {s : List Char} {n : Nat} : s ≠ [] → Digits 16 s n → n < 256 → CChar ('\\' :: 'x' :: s) n
  /-- universal character names, 6.4.3 -/
  | ucn4 {s : List Char} {n : Nat} : s.length = 4 → Digits 16 s n → n < 65536 → CChar ('\\' :: 'u' :: s) n
  | ucn8 {s : List Char} {n : Nat} : s.length = 8 → Digits 16 s n → n < 0x110000 → CChar ('\\' :: 'U' :: s) n

/-- constants of the width `w` and their values -/
inductive Const (w : Nat) : List Char → SV → Prop
  | signed {s : List Char} {b n : Nat} {t : List Char} : Body s b n → t ∈ suffixes → n < 2 ^ (w - 1) →
      Const w (s ++ t) ⟨true, n⟩
  /-- too large for the signed type, and not decimal -/
  | large {s : List Char} {b n : Nat} {t : List Char} : Body s b n → t ∈ suffixes → b ≠ 10 → 2 ^ (w - 1) ≤ n → n < 2 ^ w →
      Const w (s ++ t) ⟨false, n⟩
  | unsigned {s : List Char} {b n : Nat} {t : List Char} : Body s b n → t ∈ uSuffixes → n < 2 ^ w →
      Const w (s ++ t) ⟨false, n⟩
  | char {s : List Char} {n : Nat} : CChar s n → Const w ('\'' :: s ++ ['\'']) ⟨true, n⟩
  | wide {s : List Char} {n : Nat} : CChar s n → Const w ('L' :: '\'' :: s ++ ['\'']) ⟨true, n⟩

/-! ### the grammar, 6.5 -/

inductive E
  | lit (v : SV)
  | un (o : Uop) (e : E)
  | bin (o : Bop) (a b : E)
  | cond (a b c : E)
  deriving DecidableEq, Repr

/-- the levels of the grammar, from 1 (expression), 2 (conditional-expression), 3 (logical-OR-expression) to 12 (multiplicative-expression), 13 (unary-expression), 14 (primary-expression) -/
def level : Bop → Nat
  | .comma => 1
  | .lor => 3
  | .land => 4
  | .or => 5
  | .circ => 6
  | .and => 7
  | .same | .neq => 8
  | .lt | .leq | .gt | .geq => 9
  | .lsh | .rsh => 10
  | .plus | .minus => 11
  | .star | .slash | .pct => 12

/-- the token of a unary operator: `+` and `-` are the same tokens as the binary ones -/
def uTok : Uop → Tok
  | .lnot => .un .lnot
  | .not => .un .not
  | .uplus => .bin .plus
  | .uminus => .bin .minus

/-- `Writes w mid l e ts`: the tokens `ts` are an expression of level `l` whose tree is `e`.  `mid` is the level of the operand between `?` and `:`, which is 1 in C. -/
inductive Writes (w mid : Nat) : Nat → E → List Tok → Prop
  | num {l : Nat} {s : List Char} {v : SV} : l ≤ 14 → Const w s v → Writes w mid l (.lit v) [.num s]
  | chr {l : Nat} {s : List Char} {v : SV} : l ≤ 14 → Const w s v → Writes w mid l (.lit v) [.chr s]
  | paren {l : Nat} {e : E} {ts : List Tok} : l ≤ 14 → Writes w mid 1 e ts → Writes w mid l e (.lpar :: ts ++ [.rpar])
  | un {l : Nat} {o : Uop} {e : E} {ts : List Tok} : l ≤ 13 → Writes w mid 13 e ts → Writes w mid l (.un o e) (uTok o :: ts)
  | bin {l : Nat} {o : Bop} {a b : E} {ts us : List Tok} : l ≤ level o →
      Writes w mid (level o) a ts → Writes w mid (level o + 1) b us → Writes w mid l (.bin o a b) (ts ++ .bin o :: us)
  | cond {l : Nat} {a b c : E} {ts us vs : List Tok} : l ≤ 2 →
      Writes w mid 3 a ts → Writes w mid mid b us → Writes w mid 2 c vs →
      Writes w mid l (.cond a b c) (ts ++ .quest :: us ++ .colon :: vs)

/-! ### the value, 6.5 and 6.10.1 -/

/-- a value; a division that has no result; or behaviour that C leaves undefined -/
inductive Sem
  | val (v : SV)
  | nodiv
  | undef
  deriving DecidableEq, Repr

def Sem.bind : Sem → (SV → Sem) → Sem
  | .val v, f => f v
  | .nodiv, _ => .nodiv
  | .undef, _ => .undef

/-- the numbers of the signed type -/
def inS (w : Nat) (z : Int) : Prop := -2 ^ (w - 1) ≤ z ∧ z < 2 ^ (w - 1)
instance (w : Nat) (z : Int) : Decidable (inS w z) := inferInstanceAs (Decidable (_ ∧ _))

/-- a result in a type: the signed one has no overflow, the unsigned one counts modulo `2 ^ w` -/
def fit (w : Nat) (s : Bool) (z : Int) : Sem :=
  if s then (if inS w z then .val ⟨true, z⟩ else .undef) else .val ⟨false, z % 2 ^ w⟩

/-- a value of either type in the type `s`, 6.3.1.3 -/
def conv (w : Nat) (s : Bool) (v : SV) : Int := if s then v.x else v.x % 2 ^ w

/-- the bits of a value -/
def bits (w : Nat) (v : SV) : Nat := (v.x % 2 ^ w).toNat
/-- the value of the type `s` with the given bits (two's complement) -/
def ofBits (w : Nat) (s : Bool) (n : Nat) : Sem :=
  .val ⟨s, if s ∧ n ≥ 2 ^ (w - 1) then (n : Int) - 2 ^ w else n⟩

def truth (b : Prop) [Decidable b] : Sem := .val ⟨true, if b then 1 else 0⟩

/-- 6.5.3.3 -/
def semUn (w : Nat) (o : Uop) (v : SV) : Sem :=
  match o with
  | .lnot => truth (v.x = 0)
  | .not => fit w v.sign (-v.x - 1)
  | .uplus => .val v
  | .uminus => fit w v.sign (-v.x)

/-- 6.5.5 to 6.5.12 and 6.5.17, with the usual arithmetic conversions; the division rounds towards zero; `>>` of a negative number, which C leaves to the implementation, rounds down -/
def semBin (w : Nat) (o : Bop) (a b : SV) : Sem :=
  let s := a.sign && b.sign
  let x := conv w s a
  let y := conv w s b
  match o with
  | .star => fit w s (x * y)
  | .slash => if y = 0 then .nodiv else if s ∧ ¬ inS w (x.tdiv y) then .nodiv else fit w s (x.tdiv y)
  | .pct => if y = 0 then .nodiv else if s ∧ ¬ inS w (x.tdiv y) then .undef else fit w s (x.tmod y)
  | .plus => fit w s (x + y)
  | .minus => fit w s (x - y)
  | .lsh => if b.x < 0 ∨ b.x ≥ w ∨ a.x < 0 then .undef else fit w a.sign (a.x * 2 ^ b.x.toNat)
  | .rsh => if b.x < 0 ∨ b.x ≥ w then .undef else fit w a.sign (a.x / 2 ^ b.x.toNat)
  | .lt => truth (x < y)
  | .leq => truth (x ≤ y)
  | .gt => truth (x > y)
  | .geq => truth (x ≥ y)
  | .same => truth (x = y)
  | .neq => truth (x ≠ y)
  | .and => ofBits w s (bits w a &&& bits w b)
  | .circ => ofBits w s (bits w a ^^^ bits w b)
  | .or => ofBits w s (bits w a ||| bits w b)
  | .land => truth (a.x ≠ 0 ∧ b.x ≠ 0)
  | .lor => truth (a.x ≠ 0 ∨ b.x ≠ 0)
  | .comma => .val b

/-- the type of an expression: whether it is signed -/
def ty : E → Bool
  | .lit v => v.sign
  | .un .lnot _ => true
  | .un _ e => ty e
  | .bin o a b =>
    match o with
    | .star | .slash | .pct | .plus | .minus | .and | .circ | .or => ty a && ty b
    | .lsh | .rsh => ty a
    | .comma => ty b
    | _ => true
  | .cond _ b c => ty b && ty c

/-- the value of an expression; the second operand of `&&` and `||` and those of `?:` are evaluated only when needed (6.5.13 to 6.5.15), and `?:` converts to the common type of its operands -/
def sem (w : Nat) : E → Sem
  | .lit v => .val v
  | .un o e => (sem w e).bind (semUn w o)
  | .bin .land a b => (sem w a).bind fun x => if x.x = 0 then .val ⟨true, 0⟩ else (sem w b).bind fun y => truth (y.x ≠ 0)
  | .bin .lor a b => (sem w a).bind fun x => if x.x ≠ 0 then .val ⟨true, 1⟩ else (sem w b).bind fun y => truth (y.x ≠ 0)
  | .bin o a b => (sem w a).bind fun x => (sem w b).bind fun y => semBin w o x y
  | .cond a b c =>
    (sem w a).bind fun x => (if x.x ≠ 0 then sem w b else sem w c).bind fun y => .val ⟨ty b && ty c, conv w (ty b && ty c) y⟩

/-! ### where the code departs from C -/

/-- the two results of every `?:` have the same type -/
def SameTypes : E → Prop
  | .lit _ => True
  | .un _ e => SameTypes e
  | .bin _ a b => SameTypes a ∧ SameTypes b
  | .cond a b c => SameTypes a ∧ SameTypes b ∧ SameTypes c ∧ ty b = ty c

/-- what the code computes in an operand that is not evaluated: it still applies the unary operators, but of the other operators it only keeps the first operand.  `none` when such a negation overflows. -/
def skipped (w : Nat) : E → Option SV
  | .lit v => some v
  | .un o e => (skipped w e).bind fun v => match semUn w o v with
    | .val r => some r
    | _ => none
  | .bin _ a b => (skipped w a).bind fun v => (skipped w b).map fun _ => v
  | .cond a b c => (skipped w a).bind fun v => (skipped w b).bind fun _ => (skipped w c).map fun _ => v

/-- no negation in an operand that may be left unevaluated overflows -/
def Quiet (w : Nat) : E → Prop
  | .lit _ => True
  | .un _ e => Quiet w e
  | .bin o a b => Quiet w a ∧ Quiet w b ∧ (o = .land ∨ o = .lor → skipped w b ≠ none)
  | .cond a b c => Quiet w a ∧ Quiet w b ∧ Quiet w c ∧ skipped w b ≠ none ∧ skipped w c ≠ none

end Smlr.Eval
