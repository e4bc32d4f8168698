import Verif.Text.Model
import Verif.Lex.Spec
import Verif.Parse.Spec
set_option autoImplicit false
/-! What the tokens of a text are in the grammar of expressions. -/
namespace Smlr.Text
open Smlr.Lex (Str Token Tk str puncts keywords)

/-- how the terminal symbols of the grammar are written -/
def spelling : List (String × Parse.Tk) :=
  [("(", .lpar), (")", .rpar), ("[", .lbrk), ("]", .rbrk), ("}", .rbrace), (";", .semi), (":", .colon), (",", .comma), (".", .dot), ("->", .arrow), ("++", .inc), ("--", .dec), ("sizeof", .sizeof),
   ("~", .tilde), ("!", .excl), ("&", .amp), ("*", .star), ("+", .plus), ("-", .minus), ("/", .slash), ("%", .percent), ("<<", .shl), (">>", .shr), ("<", .lt), (">", .gt), ("<=", .le), (">=", .ge),
   ("==", .eq), ("!=", .ne), ("^", .xor), ("|", .or), ("&&", .land), ("||", .lor), ("?", .quest), ("=", .assign), ("*=", .aMul), ("/=", .aDiv), ("%=", .aMod), ("+=", .aAdd), ("-=", .aSub),
   ("<<=", .aShl), (">>=", .aShr), ("&=", .aAnd), ("^=", .aXor), ("|=", .aOr)]

/-- the token of the lexer with this spelling (`Lex.puncts` and `Lex.keywords` are the tables of C49) -/
def Spelled (w : String) (t : Tk) : Prop := (str w, t) ∈ puncts ∨ (str w, t) ∈ keywords

/-- words of type names; there is no `long` where words have 16 bits -/
def typeNames (W : Nat) : List String := ["void", "char", "short", "int", "signed", "unsigned", "float", "double"] ++ if W = 2 then [] else ["long"]

/-- words of a type, and stars behind them -/
inductive TypeName (W : Nat) : List Token → Prop
  | word (w : String) (t : Tk) : w ∈ typeNames W → Spelled w t → TypeName W [.op t]
  | words (w : String) (t : Tk) (ts : List Token) : w ∈ typeNames W → Spelled w t → TypeName W ts → TypeName W (.op t :: ts)
  | star (ts : List Token) : TypeName W ts → TypeName W (ts ++ [.op (.chr 0x2A)])

/-- `Means W id tn ts ls`: the tokens `ts` of a text are the terminal symbols `ls`.  `id` numbers the names, `tn` the types.  A character constant has type `int` (C99 6.4.4.4), its value is kept modulo 2³². -/
inductive Means (W : Nat) (id : Str → Nat) (tn : List Token → Option Nat) : List Token → List Parse.Lx → Prop
  | nil : Means W id tn [] []
  | sign (w : String) (t : Tk) (k : Parse.Tk) (ts : List Token) (ls : List Parse.Lx) : Spelled w t → (w, k) ∈ spelling → Means W id tn ts ls → Means W id tn (.op t :: ts) ((k, 0) :: ls)
  | name (w : Str) (ts : List Token) (ls : List Parse.Lx) : Means W id tn ts ls → Means W id tn (.ident w :: ts) ((.ident, id w) :: ls)
  | int (v : Nat) (ts : List Token) (ls : List Parse.Lx) : Means W id tn ts ls → Means W id tn (.num .int v :: ts) ((.numInt, v) :: ls)
  | uint (v : Nat) (ts : List Token) (ls : List Parse.Lx) : Means W id tn ts ls → Means W id tn (.num .uint v :: ts) ((.numUint, v) :: ls)
  | char (v : Int) (n : Nat) (ts : List Token) (ls : List Parse.Lx) : n < 2 ^ 32 → (n : Int) % 2 ^ 32 = v % 2 ^ 32 → Means W id tn ts ls → Means W id tn (.chr false v :: ts) ((.numInt, n) :: ls)
  | type (ws : List Token) (k : Nat) (ts : List Token) (ls : List Parse.Lx) : TypeName W ws → tn ws = some k → Means W id tn ts ls →
      Means W id tn (.op (.chr 0x28) :: ws ++ .op (.chr 0x29) :: ts) ((.lpar, 0) :: (.tname, k) :: (.rpar, 0) :: ls)

open Smlr.Trans (toE) in
/-- The text `s`, which begins on line `line`, has the tokens of an expression, the meaning of which is `e` (C49 divides it into tokens, C24 has the grammar), then one that can follow an expression, and anything else. -/
inductive Source (T : Lex.Cfg) (W : Nat) (nm : Nat → Expr.V) (id : Str → Nat) (tn : List Token → Option Nat) (s : Str) (line : Nat) (e : Expr.E) (t : Parse.Lx) : Prop
  | mk (ts : List (Token × Nat)) (u : Token × Nat) (rest : List (Token × Nat)) (ls : List Parse.Lx) (ex : Parse.Spec.Ex) :
      0 ∉ s → Parse.Spec.stop t.1 → t.1 ≠ .comma → Lex.Lexes T (Lex.Num T) true s line (ts ++ u :: rest) → Means W id tn (ts.map Prod.fst) ls → Means W id tn [u.1] [t] → Parse.Spec.D 1 ls ex → toE nm ex = some e →
      Source T W nm id tn s line e t

end Smlr.Text
