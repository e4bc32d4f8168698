import Verif.Ulex.Model
set_option autoImplicit false
/-! Translation phases 1 to 3 of C (C99 5.1.1.2): ends of lines, trigraphs, spliced lines, preprocessing tokens and comments. -/
namespace Smlr.Ulex

/-- CR LF, CR and LF end lines -/
def newlines : Str → Str
  | [] => []
  | [c] => [if c = 0x0D then 0x0A else c]
  | a :: b :: r => if a = 0x0D ∧ b = 0x0A then 0x0A :: newlines r else (if a = 0x0D then 0x0A else a) :: newlines (b :: r)

/-- C99 5.2.1.1 -/
def third (c : UInt8) : Option UInt8 :=
  match Char.ofNat c.toNat with
  | '=' => some 0x23 | '(' => some 0x5B | '/' => some 0x5C | ')' => some 0x5D | '\'' => some 0x5E | '<' => some 0x7B | '!' => some 0x7C | '>' => some 0x7D | '-' => some 0x7E
  | _ => none

/-- `?``?` with one of nine characters is replaced by a single character -/
def trigraphs : Str → Str
  | a :: b :: d :: r =>
    if a = 0x3F ∧ b = 0x3F then
      match third d with
      | some t => t :: trigraphs r
      | none => a :: trigraphs (b :: d :: r)
    else a :: trigraphs (b :: d :: r)
  | s => s

/-- a backslash before the end of a line is deleted with it -/
def splice : Str → Str
  | a :: b :: r => if a = 0x5C ∧ b = 0x0A then splice r else a :: splice (b :: r)
  | s => s

def phases (tri : Bool) (s : Str) : Str := splice (if tri then trigraphs (newlines s) else newlines s)

def str (s : String) : Str := s.toList.map fun c => UInt8.ofNat c.toNat

def letters : Str := str "ABCDEFGHIJKLMNOPQRSTUVWXYZabcdefghijklmnopqrstuvwxyz_"

def digits : Str := str "0123456789"

def blanks : Str := [0x20, 9, 0x0B, 0x0C]

/-- `pp-number`, C99 6.4.8 (without universal character names) -/
inductive PpNum : Str → Prop
  | digit (d : UInt8) : d ∈ digits → PpNum [d]
  | dot (d : UInt8) : d ∈ digits → PpNum [0x2E, d]
  | digits (w : Str) (d : UInt8) : PpNum w → d ∈ digits → PpNum (w ++ [d])
  | letter (w : Str) (c : UInt8) : PpNum w → c ∈ letters → PpNum (w ++ [c])
  | sign (w : Str) (e s : UInt8) : PpNum w → e ∈ str "eEpP" → s ∈ str "+-" → PpNum (w ++ [e, s])
  | point (w : Str) : PpNum w → PpNum (w ++ [0x2E])

/-- what is between the quotes: characters other than the quote, backslash and the end of the line, and any characters behind backslashes -/
inductive Body (q : UInt8) : Str → Prop
  | nil : Body q []
  | plain (c : UInt8) (b : Str) : c ≠ q → c ≠ 0x5C → c ≠ 0x0A → Body q b → Body q (c :: b)
  | esc (c : UInt8) (b : Str) : c ≠ 0x0A → Body q b → Body q (0x5C :: c :: b)

/-- C99 6.4.6 -/
def puncts : List (String × K) :=
  [("[", .LBRK), ("]", .RBRK), ("(", .LPAR), (")", .RPAR), ("{", .LBRA), ("}", .RBRA), (".", .DOT), ("->", .ARROW), ("++", .PPLUS), ("--", .MMINUS), ("&", .AND), ("*", .STAR), ("+", .PLUS), ("-", .MINUS),
   ("~", .NOT), ("!", .LNOT), ("/", .SLASH), ("%", .PCT), ("<<", .LSH), (">>", .RSH), ("<", .LT), (">", .GT), ("<=", .LEQ), (">=", .GEQ), ("==", .SAME), ("!=", .NEQ), ("^", .CIRC), ("|", .OR),
   ("&&", .LAND), ("||", .LOR), ("?", .QUEST), (":", .COLON), (";", .SEMIC), ("...", .MDOTS), ("=", .ASGN), ("*=", .ASSTAR), ("/=", .ASSLASH), ("%=", .ASPCT), ("+=", .ASPLUS), ("-=", .ASMINUS),
   ("<<=", .ASLSH), (">>=", .ASRSH), ("&=", .ASAND), ("^=", .ASCIRC), ("|=", .ASOR), (",", .COMMA), ("#", .SHARP), ("##", .DSHARP),
   ("<:", .DIG_LBRK), (":>", .DIG_RBRK), ("<%", .DIG_LBRA), ("%>", .DIG_RBRA), ("%:", .DIG_SHARP), ("%:%:", .DIG_DSHARP)]

/-- the characters that may begin something else than a token of their own -/
def used : Str := letters ++ digits ++ blanks ++ [0x0A] ++ str "!\"#%&'()*+,-./:;<=>?[\\]^{|}~"

/-- what a text consists of: white space, ends of lines, comments (C99 6.4.9) and preprocessing tokens (6.4) -/
inductive Elem (cpp : Bool) : Str → K → Prop
  | space (w : Str) : w ≠ [] → (∀ c ∈ w, c ∈ blanks) → Elem cpp w .NONE
  | newline : Elem cpp [0x0A] .NEWLINE
  /-- the first `*/` ends the comment -/
  | block (b : Str) : (∀ u v, b ++ str "*/" = u ++ str "*/" ++ v → v = []) → Elem cpp (str "/*" ++ b ++ str "*/") .COMMENT
  | line (b : Str) : cpp = true → 0x0A ∉ b → Elem cpp (str "//" ++ b) .COMMENT
  | number (w : Str) : PpNum w → Elem cpp w .NUMBER
  | name (c : UInt8) (w : Str) : c ∈ letters → (∀ d ∈ w, d ∈ letters ++ digits) → Elem cpp (c :: w) .NAME
  | char (l b : Str) : l = [] ∨ l = str "L" → b ≠ [] → Body 0x27 b → Elem cpp (l ++ 0x27 :: b ++ [0x27]) .CHAR
  | string (l b : Str) : l = [] ∨ l = str "L" → Body 0x22 b → Elem cpp (l ++ 0x22 :: b ++ [0x22]) .STRING
  | punct (w : String) (k : K) : (w, k) ∈ puncts → Elem cpp (str w) k
  | other (c : UInt8) : c ∉ used → Elem cpp [c] .BUNCH

/-- the longest element at the beginning -/
structure Longest (cpp : Bool) (u w : Str) (k : K) : Prop where
  elem : Elem cpp w k
  pre : w <+: u
  max : ∀ w' k', Elem cpp w' k' → w' <+: u → w'.length ≤ w.length

/-- where the lexer departs from C, or C does not say what the text means: `r` follows `w` -/
inductive Odd : Str → Str → Prop
  /-- `..5` -/
  | dots (d : UInt8) (r : Str) : d ∈ digits → Odd (str ".") (0x2E :: d :: r)
  /-- `%:%=`, `%:%>` -/
  | pct (c : UInt8) (r : Str) : c = 0x3D ∨ c = 0x3E → Odd (str "%:") (0x25 :: c :: r)
  /-- numbers in which `.` or another `e` or `p` follows `e` or `p` -/
  | number (v w r : Str) (e f : UInt8) : PpNum (v ++ e :: f :: w) → e ∈ str "eEpP" → f ∈ str "eEpP." → Odd (v ++ e :: f :: w) r
  /-- unfinished comments and literals -/
  | comment (r : Str) : Odd (str "/") (0x2A :: r)
  | quote (q : UInt8) (r : Str) : q = 0x27 ∨ q = 0x22 → Odd (str "L") (q :: r)
  /-- universal character names -/
  | ucn (c : UInt8) (w r : Str) : c ∈ letters → (∀ d ∈ w, d ∈ letters ++ digits) → Odd (c :: w) (0x5C :: r)

/-- tokens that keep their text -/
def kept : List K := [.NUMBER, .NAME, .BUNCH, .STRING, .CHAR]

/-- a text divided into elements, each the longest that there is, and each with its rest as `P` says -/
inductive Toks (cpp : Bool) (P : Str → Str → Prop) : Str → List (K × Str) → Prop
  | nil : Toks cpp P [] []
  | cons (w : Str) (k : K) (r : Str) (ts : List (K × Str)) : Longest cpp (w ++ r) w k → P w r → Toks cpp P r ts → Toks cpp P (w ++ r) ((k, if k ∈ kept then w else []) :: ts)

end Smlr.Ulex
