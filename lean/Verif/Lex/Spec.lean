import Verif.Lex.Model
import Verif.Number.Spec
import Verif.Lit.Spec
set_option autoImplicit false
/-! The tokens of a text as the C standard describes them (without trigraphs, line splicing, digraphs, universal character names and `#`). -/
namespace Smlr.Lex

/-! ### what separates tokens -/

def blanks : List UInt8 := [0x20, 0x09, 0x0B, 0x0C]
def lf : UInt8 := 0x0A
def cr : UInt8 := 0x0D

/-- number of line ends: line feeds, and carriage returns not followed by a line feed -/
def lineEnds : Str → Nat
  | [] => 0
  | c :: s => (if c = lf ∨ (c = cr ∧ s.head? ≠ some lf) then 1 else 0) + lineEnds s

/-- the text of a comment: `*/` occurs only at its end -/
def Closed (b : Str) : Prop := ∀ u v, b ++ str "*/" = u ++ str "*/" ++ v → v = []

/-- the text `s` begins with blanks, line ends and comments; `r` is the text after them, `k` the number of line ends.  `full = false`: blanks only -/
inductive Gap (full : Bool) : Str → Nat → Str → Prop
  | nil (r) : Gap full r 0 r
  | blank (c s k r) : c ∈ blanks → Gap full s k r → Gap full (c :: s) k r
  | newline (e s k r) : full = true → e = [lf] ∨ e = [cr, lf] ∨ (e = [cr] ∧ s.head? ≠ some lf) → Gap full s k r → Gap full (e ++ s) (k + 1) r
  | line (b s k r) : full = true → lf ∉ b → cr ∉ b → (∀ c, s.head? = some c → c = lf ∨ c = cr) → Gap full s k r →
      Gap full (str "//" ++ b ++ s) k r
  | block (b s k r) : full = true → Closed b → Gap full s k r → Gap full (str "/*" ++ b ++ str "*/" ++ s) (lineEnds b + k) r

/-! ### tokens -/

/-- the punctuators of C -/
def puncts : List (Str × Tk) := [
  (str "[", .chr 0x5B), (str "]", .chr 0x5D), (str "(", .chr 0x28), (str ")", .chr 0x29), (str "{", .chr 0x7B), (str "}", .chr 0x7D),
  (str ".", .chr 0x2E), (str "->", .Arrow), (str "++", .Inc), (str "--", .Dec), (str "&", .chr 0x26), (str "*", .chr 0x2A),
  (str "+", .chr 0x2B), (str "-", .chr 0x2D), (str "~", .chr 0x7E), (str "!", .chr 0x21), (str "/", .chr 0x2F), (str "%", .chr 0x25),
  (str "<<", .LShift), (str ">>", .RShift), (str "<", .chr 0x3C), (str ">", .chr 0x3E), (str "<=", .LEQ), (str ">=", .GEQ),
  (str "==", .EQ), (str "!=", .NEQ), (str "^", .chr 0x5E), (str "|", .chr 0x7C), (str "&&", .LogAnd), (str "||", .LogOr),
  (str "?", .chr 0x3F), (str ":", .chr 0x3A), (str ";", .chr 0x3B), (str "...", .Ellipsis), (str "=", .chr 0x3D),
  (str "*=", .AssignMul), (str "/=", .AssignDiv), (str "%=", .AssignMod), (str "+=", .AssignAdd), (str "-=", .AssignSub),
  (str "<<=", .AssignLSh), (str ">>=", .AssignRSh), (str "&=", .AssignAnd), (str "^=", .AssignXor), (str "|=", .AssignOr),
  (str ",", .chr 0x2C)]

/-- keywords of C99, `asm` and `__interrupt` -/
def keywords : List (Str × Tk) := [
  (str "auto", .Auto), (str "break", .Break), (str "case", .Case), (str "char", .Char), (str "const", .Const), (str "continue", .Cont),
  (str "default", .Default), (str "do", .Do), (str "double", .Double), (str "else", .Else), (str "enum", .Enum), (str "extern", .Extern),
  (str "float", .Float), (str "for", .For), (str "goto", .Goto), (str "if", .If), (str "inline", .Inline), (str "int", .Int),
  (str "long", .Long), (str "register", .Register), (str "restrict", .Restrict), (str "return", .Return), (str "short", .Short),
  (str "signed", .Signed), (str "sizeof", .Sizeof), (str "static", .Static), (str "struct", .Struct), (str "switch", .Switch),
  (str "typedef", .Typedef), (str "union", .Union), (str "unsigned", .Unsigned), (str "void", .Void), (str "volatile", .Volatile),
  (str "while", .While), (str "_Bool", .Bool_), (str "_Complex", .Complex_), (str "_Imaginary", .Imagin_),
  (str "asm", .Asm), (str "__interrupt", .Intr)]

/-- keywords the compiler drops -/
def dropped : List Str := [str "const", str "volatile", str "auto", str "register", str "restrict"]

def digits : Str := str "0123456789"
def letters : Str := str "_ABCDEFGHIJKLMNOPQRSTUVWXYZabcdefghijklmnopqrstuvwxyz"

/-- the longest identifier or keyword `w` at the beginning of `s`; `r` is the text after it.  `L` before a quote is no identifier -/
structure Word (s w r : Str) : Prop where
  text : s = w ++ r
  first : ∃ c w', w = c :: w' ∧ c ∈ letters
  all : ∀ c ∈ w, c ∈ letters ++ digits
  stop : ∀ c, r.head? = some c → c ∉ letters ++ digits
  notWide : w = str "L" → ∀ c, r.head? = some c → c ≠ 0x27 ∧ c ≠ 0x22

/-- a preprocessing number ends between `w` and `r` -/
structure NumEnd (w r : Str) : Prop where
  stop : ∀ c, r.head? = some c → c ∉ letters ++ digits ∧ c ≠ 0x2E
  sign : ∀ c, r.head? = some c → c = 0x2B ∨ c = 0x2D → ∀ d, w.getLast? = some d → d ∉ str "eEpP"

/-- number literals: text, type and value, text after it -/
inductive Num (T : Cfg) : Str → Number.Tok → Nat → Str → Prop
  | int (text k ds suf u l t r) : Number.IntText text k ds → Number.Suffix suf u l → NumEnd (text ++ suf) r →
      Number.litType (8 * T.W) k u l (Number.posVal k.base ds) = some t → Num T (text ++ suf ++ r) t (Number.posVal k.base ds) r
  | float (ip dot fp ex e suf r v) : Number.FloatText ip dot fp ex e → Number.FloatSuffix suf →
      NumEnd (ip ++ Number.fracText dot fp ++ ex ++ suf) r → (Number.significant (ip ++ fp)).length ≤ 112 →
      e.natAbs + ip.length + fp.length < 2 ^ 31 →
      Number.RoundedDec (Number.posVal 10 ((ip ++ fp).map Number.digitVal)) (e - fp.length) v →
      Num T (ip ++ Number.fracText dot fp ++ ex ++ suf ++ r) .float v r

/-- the number in decimal -/
def decimal (n : Nat) : Str := (Nat.toDigits 10 n).map (fun c => UInt8.ofNat c.toNat)

/-- the name `w`, met on line `n`, stands for the text `e` -/
def Expands (T : Cfg) (n : Nat) (w e : Str) : Prop :=
  if w = str "__FILE__" then e = str "\"" ++ T.file ++ str "\""
  else if w = str "__LINE__" then e = decimal n
  else T.mac w = some e

/-- the name stands for itself -/
def Plain (T : Cfg) (w : Str) : Prop := ∀ n e, ¬ Expands T n w e

/-- the prefix of a literal -/
def prefixL (wide : Bool) : Str := if wide then str "L" else []

/-- `s` begins with the token `t`, the longest possible, and goes on with `r`.  `num` says what number literals are -/
inductive Lexeme (T : Cfg) (num : Str → Number.Tok → Nat → Str → Prop) : Str → Token → Str → Prop
  | punct (w t r) : (w, t) ∈ puncts → (∀ p ∈ puncts, p.1 <+: w ++ r → p.1.length ≤ w.length) →
      (w = str "." → ∀ c, r.head? = some c → c ∉ digits) → (w = str "/" → ∀ c, r.head? = some c → c ≠ 0x2F ∧ c ≠ 0x2A) →
      Lexeme T num (w ++ r) (.op t) r
  | keyword (s w t r) : Word s w r → (w, t) ∈ keywords → w ∉ dropped → Plain T w → Lexeme T num s (.op t) r
  | ident (s w r) : Word s w r → w.length ≤ 63 → (∀ t, (w, t) ∉ keywords) → Plain T w → Lexeme T num s (.ident w) r
  | num (s t v r) : num s t v r → Lexeme T num s (.num t v) r
  | char (wide s vs r) : vs ≠ [] → Lit.Body (Lit.chsz T.wcs wide) (Lit.plainMax wide) 0x27 s vs r → vs.length ≤ (if wide then 1 else T.W) →
      Lexeme T num (prefixL wide ++ 0x27 :: s) (.chr wide (Lit.constValue T.W T.wcs wide T.charSigned T.wideSigned vs)) r
  | string (wide s vs r) : Lit.Body (Lit.chsz T.wcs wide) (Lit.plainMax wide) 0x22 s vs r → Lit.chsz T.wcs wide * vs.length < 2 ^ 32 →
      Lexeme T num (prefixL wide ++ 0x22 :: s) (.str wide (vs.map (Lit.little (Lit.chsz T.wcs wide))).flatten) r

/-- the tokens of a text that begins on line `n`, each with its line; a macro is replaced with the tokens of its text, in which macros are replaced,
too (which is finite only if no macro is met within its own text) -/
inductive Lexes (T : Cfg) (num : Str → Number.Tok → Nat → Str → Prop) : (full : Bool) → Str → Nat → List (Token × Nat) → Prop
  | done (full s k n) : Gap full s k [] → Lexes T num full s n []
  | token (full s k s' n t r ts) : Gap full s k s' → Lexeme T num s' t r → Lexes T num full r (n + k) ts → Lexes T num full s n ((t, n + k) :: ts)
  | drop (full s k s' n w r ts) : Gap full s k s' → Word s' w r → w ∈ dropped → Plain T w → Lexes T num full r (n + k) ts →
      Lexes T num full s n ts
  | macro (full s k s' n w e r ts ts') : Gap full s k s' → Word s' w r → w.length ≤ 63 → Expands T (n + k) w e →
      Lexes T num false e (n + k) ts → Lexes T num full r (n + k) ts' → Lexes T num full s n (ts ++ ts')

/-! ### lines of `#define` -/

/-- the text after a line -/
def Eol (z : Str) : Prop := ∀ c, z.head? = some c → c = lf ∨ c = cr

/-- a text within a line -/
structure InLine (s : Str) : Prop where
  nul : 0 ∉ s
  lf : lf ∉ s
  cr : cr ∉ s

/-- a text without quotes -/
structure NoQuotes (s : Str) : Prop where
  dq : 0x22 ∉ s
  sq : 0x27 ∉ s

/-- blanks are single spaces, and nothing looks like a comment -/
structure Tidy (b : Str) : Prop where
  tab : 9 ∉ b
  single : ∀ c ∈ blanks, ¬ [0x20, c] <:+: b
  line : ¬ str "//" <:+: b
  block : ¬ str "/*" <:+: b

end Smlr.Lex
