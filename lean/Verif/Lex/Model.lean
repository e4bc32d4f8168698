import Verif.Number.Model
import Verif.Lit.Model
set_option autoImplicit false
/-! Model of the tokenizer of smlrc.c: white space and comments (`SkipSpace` 1208-1278), identifiers and keywords (`GetIdent` 1307-1333,
`GetTokenByWord` 950-984), the other tokens (`GetTokenInner` 1801-1948), and the loop around them with macro expansion (`GetToken` 1966-2050).

The text is the list of bytes not yet consumed, the character queue included; behind its end there are NULs (smlrc.c:1078-1092).
Tokens are not being skipped (`PrepDontSkipTokens` is true).  The queue has no greatest length here: the error "Too long expansion of macro"
(1952-1953) is not modelled.  There is a single file, and no directive: `#` is an error of its own in the model; the conditional directives are the
subject of `Verif.Prep`.  A NUL within the text ends it; the theorems are about texts without NULs. -/
namespace Smlr.Lex

open Lit (peek)

abbrev Str := List UInt8

def str (s : String) : Str := s.toList.map (fun c => UInt8.ofNat c.toNat)

/-- reasons for `error()`; `directive` stands for the directives, which are not part of this model, `fuel` is the model's loop bound -/
inductive Err
  | comment | ident | num (e : Number.Err) | lit (e : Lit.Err) | char | directive | fuel
  deriving DecidableEq

/-- token codes, smlrc.c:221-300; `chr c` is the code of the character `c` -/
inductive Tk
  | chr (c : UInt8)
  | LShift | RShift | LogAnd | LogOr | EQ | NEQ | LEQ | GEQ | Inc | Dec | Arrow | Ellipsis
  | AssignMul | AssignDiv | AssignMod | AssignAdd | AssignSub | AssignLSh | AssignRSh | AssignAnd | AssignXor | AssignOr
  | Break | Case | Char | Cont | Default | Do | Else | Extern | For | If | Int | Return | Signed | Sizeof | Static | Switch | Unsigned | Void | While
  | Asm | Auto | Const | Double | Enum | Float | Goto | Inline | Long | Register | Restrict | Short | Struct | Typedef | Union | Volatile
  | Bool_ | Complex_ | Imagin_ | Intr
  | Ident
  deriving DecidableEq

/-- a token with what the compiler notes of it: name, value, or (read by the caller of `GetToken`) the bytes of the string literal -/
inductive Token
  | op (t : Tk)
  | ident (name : Str)
  | num (t : Number.Tok) (v : Nat)
  | chr (wide : Bool) (v : Int)
  | str (wide : Bool) (bytes : Str)
  deriving DecidableEq

/-- `SizeOfWord`, `SizeOfWideChar`, `CharIsSigned`, `WideCharIsSigned`, the name of the file (`FileNames[0]`), and the macros (`FindMacro`, see `Verif.Macro`) -/
structure Cfg where
  W : Nat
  wcs : Nat
  charSigned : Bool
  wideSigned : Bool
  file : Str
  mac : Str → Option Str

/-! ### white space and comments, smlrc.c:1208-1278 -/

/-- 1225-1228: `\r\n`, or one character -/
def newline (s : Str) : Str := if peek s = 0x0D ∧ peek s.tail = 0x0A then s.tail.tail else s.tail

/-- 1238-1239: up to the next line end or NUL -/
def toEol : Str → Str
  | [] => []
  | c :: s => if Lit.eol c then c :: s else toEol s

/-- 1246-1268, after the opening of the comment: text after the comment and new `LineNo` -/
def block (nl : Bool) : Nat → Str → Nat → Except Err (Str × Nat)
  | 0, _, _ => .error .fuel
  | fuel + 1, s, n =>
    if peek s = 0 then .error .comment
    else if peek s = 0x2A ∧ peek s.tail = 0x2F then .ok (s.tail.tail, n)
    else if peek s = 0x0D ∨ peek s = 0x0A then
      if nl = false then .error .comment else block nl fuel (newline s) (n + 1)
    else block nl fuel s.tail n

/-- `SkipSpace(nl)` with `LineNo = n`: text and new `LineNo` -/
def skipSpace (nl : Bool) : Nat → Str → Nat → Except Err (Str × Nat)
  | 0, _, _ => .error .fuel
  | fuel + 1, s, n =>
    if peek s = 0 then .ok (s, n)
    else if peek s ∈ [0x20, 9, 0x0C, 0x0B] then skipSpace nl fuel s.tail n
    else if peek s = 0x0D ∨ peek s = 0x0A then
      if nl = false then .ok (s, n) else skipSpace nl fuel (newline s) (n + 1)
    else if peek s = 0x2F ∧ peek s.tail = 0x2F then skipSpace nl fuel (toEol s.tail.tail) n
    else if peek s = 0x2F ∧ peek s.tail = 0x2A then
      match block nl fuel s.tail.tail n with
      | .error e => .error e
      | .ok (s, n) => skipSpace nl fuel s n
    else .ok (s, n)

/-! ### words -/

def isDigit (c : UInt8) : Bool := 0x30 ≤ c && c ≤ 0x39
/-- `isalpha` -/
def isAlpha (c : UInt8) : Bool := (0x41 ≤ c && c ≤ 0x5A) || (0x61 ≤ c && c ≤ 0x7A)
/-- `c == '_' || isalnum(c)` -/
def isWord (c : UInt8) : Bool := c = 0x5F || isAlpha c || isDigit c

/-- `MAX_IDENT_LEN`, smlrc.c:178 -/
def maxIdent : Nat := 63

/-- the loop of `GetIdent`, 1326-1332, `len` being `TokenIdentNameLen`: the further characters, and the text left -/
def identLoop : Nat → Str → Except Err (Str × Str)
  | _, [] => .ok ([], [])
  | len, c :: s =>
    if isWord c then
      if len = maxIdent then .error .ident
      else match identLoop (len + 1) s with
        | .error e => .error e
        | .ok (w, r) => .ok (c :: w, r)
    else .ok ([], c :: s)

/-- `GetIdent()`, 1307-1333 -/
def getIdent (s : Str) : Except Err (Str × Str) :=
  if peek s ≠ 0x5F ∧ isAlpha (peek s) = false then .error .ident
  else match identLoop 1 s.tail with
    | .error e => .error e
    | .ok (w, r) => .ok (peek s :: w, r)

/-- `rws`, smlrc.c:950-960 -/
def rws : List Str := [
  "break", "case", "char", "continue", "default", "do", "else",
  "extern", "for", "if", "int", "return", "signed", "sizeof",
  "static", "switch", "unsigned", "void", "while", "asm", "auto",
  "const", "double", "enum", "float", "goto", "inline", "long",
  "register", "restrict", "short", "struct", "typedef", "union",
  "volatile", "_Bool", "_Complex", "_Imaginary",
  "__interrupt"].map str

/-- `rwtk`, smlrc.c:962-972 -/
def rwtk : List Tk := [
  .Break, .Case, .Char, .Cont, .Default, .Do, .Else,
  .Extern, .For, .If, .Int, .Return, .Signed, .Sizeof,
  .Static, .Switch, .Unsigned, .Void, .While, .Asm, .Auto,
  .Const, .Double, .Enum, .Float, .Goto, .Inline, .Long,
  .Register, .Restrict, .Short, .Struct, .Typedef, .Union,
  .Volatile, .Bool_, .Complex_, .Imagin_,
  .Intr]

/-- `GetTokenByWord(word)`, 974-984: `rwtk[i]` for the first `i` with `rws[i]` equal to the word -/
def getTokenByWord (w : Str) : Tk :=
  match rws.idxOf? w with
  | some i => rwtk.getD i .Ident
  | none => .Ident

/-! ### the other tokens -/

/-- characters that are tokens, smlrc.c:1808 -/
def singles : Str := str ",;:()[]{}~?"

/-- the operators, smlrc.c:1808-1869: code and number of characters; `none` if the text begins with none.  `.` before a digit
begins a number -/
def oper (s : Str) : Option (Tk × Nat) :=
  let c := peek s
  let d := peek s.tail
  let e := peek s.tail.tail
  if c ∈ singles then some (.chr c, 1)
  else if c = 0x2B then
    if d = 0x2B then some (.Inc, 2) else if d = 0x3D then some (.AssignAdd, 2) else some (.chr c, 1)
  else if c = 0x2D then
    if d = 0x2D then some (.Dec, 2) else if d = 0x3D then some (.AssignSub, 2) else if d = 0x3E then some (.Arrow, 2) else some (.chr c, 1)
  else if c = 0x21 then
    if d = 0x3D then some (.NEQ, 2) else some (.chr c, 1)
  else if c = 0x3D then
    if d = 0x3D then some (.EQ, 2) else some (.chr c, 1)
  else if c = 0x3C then
    if d = 0x3D then some (.LEQ, 2)
    else if d = 0x3C then (if e ≠ 0x3D then some (.LShift, 2) else some (.AssignLSh, 3))
    else some (.chr c, 1)
  else if c = 0x3E then
    if d = 0x3D then some (.GEQ, 2)
    else if d = 0x3E then (if e ≠ 0x3D then some (.RShift, 2) else some (.AssignRSh, 3))
    else some (.chr c, 1)
  else if c = 0x26 then
    if d = 0x26 then some (.LogAnd, 2) else if d = 0x3D then some (.AssignAnd, 2) else some (.chr c, 1)
  else if c = 0x7C then
    if d = 0x7C then some (.LogOr, 2) else if d = 0x3D then some (.AssignOr, 2) else some (.chr c, 1)
  else if c = 0x5E then
    if d = 0x3D then some (.AssignXor, 2) else some (.chr c, 1)
  else if c = 0x2E then
    if d = 0x2E ∧ e = 0x2E then some (.Ellipsis, 3) else if isDigit d then none else some (.chr c, 1)
  else if c = 0x2A then
    if d = 0x3D then some (.AssignMul, 2) else some (.chr c, 1)
  else if c = 0x25 then
    if d = 0x3D then some (.AssignMod, 2) else some (.chr c, 1)
  else if c = 0x2F then
    if d = 0x3D then some (.AssignDiv, 2) else some (.chr c, 1)
  else none

/-- a character constant or string literal after the `L`, if any; smlrc.c:1885-1945 and the call of `GetString` that the caller makes -/
def literal (T : Cfg) (wide : Bool) (s : Str) : Except Err (Token × Str) :=
  if peek s = 0x27 then
    match Lit.charConst T.W T.wcs wide T.charSigned T.wideSigned s.tail with
    | .error e => .error (.lit e)
    | .ok (v, r) => .ok (.chr wide v, r)
  else
    match Lit.getString T.wcs wide s.tail with
    | .error e => .error (.lit e)
    | .ok (b, r) => .ok (.str wide b, r)

/-- `c == '\'' || c == '"'` -/
def isQuote (c : UInt8) : Bool := c = 0x27 || c = 0x22

/-- `GetTokenInner()`, 1801-1948: `none` if the text begins with an identifier, a directive, or nothing known (`tokEof`) -/
def inner (T : Cfg) (s : Str) : Except Err (Option (Token × Str)) :=
  match oper s with
  | some (t, k) => .ok (some (.op t, s.drop k))
  | none =>
    if isDigit (peek s) ∨ peek s = 0x2E then
      match Number.getNumber true T.W s with
      | .error e => .error (.num e)
      | .ok (t, v, r) => .ok (some (.num t v, r))
    else if peek s = 0x4C ∧ isQuote (peek s.tail) then (literal T true s.tail).map some
    else if isQuote (peek s) then (literal T false s).map some
    else .ok none

/-! ### the loop, smlrc.c:1966-2050 -/

/-- `lab2str`, 2610-2619, in front of the digits `p` -/
def lab2str : Nat → Nat → Str → Str
  | 0, _, p => p
  | fuel + 1, n, p =>
    let p := UInt8.ofNat (0x30 + n % 10) :: p
    if n / 10 = 0 then p else lab2str fuel (n / 10) p

/-- the text an identifier is replaced with, 2012-2040; `n` is `LineNo` -/
def expansion (T : Cfg) (n : Nat) (w : Str) : Option Str :=
  if w = str "__FILE__" then some (0x22 :: T.file ++ [0x22])
  else if w = str "__LINE__" then some (lab2str (n + 1) n [])
  else T.mac w

/-- keywords treated as white space, 2043-2046 -/
def ignored (t : Tk) : Bool := t = .Const || t = .Volatile || t = .Auto || t = .Register || t = .Restrict

/-- the tokens `GetToken` returns until the end of the text, each with the `LineNo` at its end -/
def tokens (T : Cfg) : Nat → Str → Nat → Except Err (List (Token × Nat))
  | 0, _, _ => .error .fuel
  | fuel + 1, s, n =>
    match skipSpace true (s.length + 1) s n with
    | .error e => .error e
    | .ok (s, n) =>
      if peek s = 0 then .ok []
      else match inner T s with
        | .error e => .error e
        | .ok (some (t, r)) => (tokens T fuel r n).map ((t, n) :: ·)
        | .ok none =>
          if peek s = 0x5F ∨ isAlpha (peek s) then
            match getIdent s with
            | .error e => .error e
            | .ok (w, r) =>
              match expansion T n w with
              | some e => tokens T fuel (e ++ 0x20 :: r) n
              | none =>
                let t := getTokenByWord w
                if ignored t then tokens T fuel r n
                else (tokens T fuel r n).map ((if t = .Ident then .ident w else .op t, n) :: ·)
          else if peek s = 0x23 then .error .directive
          else .error .char

/-- the replacement text collected by `#define`, smlrc.c:2236-2250, after the white space behind the name: the text and what is left of the line.
(The blanks at its end go later, see `Verif.Macro`.) -/
def defineBody : Nat → Str → Except Err (Str × Str)
  | 0, _ => .error .fuel
  | fuel + 1, s =>
    if Lit.eol (peek s) then .ok ([], s)
    else
      let c := peek s
      let s := s.tail
      if peek s ≠ 0 ∧ ((peek s = 0x20 ∨ peek s = 9) ∨ (peek s = 0x2F ∧ (peek s.tail = 0x2F ∨ peek s.tail = 0x2A))) then
        match skipSpace false (s.length + 1) s 0 with
        | .error e => .error e
        | .ok (s, _) => (defineBody fuel s).map fun p => (c :: 0x20 :: p.1, p.2)
      else (defineBody fuel s).map fun p => (c :: p.1, p.2)

end Smlr.Lex
