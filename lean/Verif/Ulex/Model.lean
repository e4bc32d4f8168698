set_option autoImplicit false
/-! The lexer of the preprocessor: ucpp/lexer.c. -/
namespace Smlr.Ulex

abbrev Str := List UInt8

/-- the states, lexer.c:71-80; those from `ILL` on are names for things to do -/
inductive S
  | START | SPACE | BANG | STRING | STRING2 | COLON | SHARP | PCT | PCT2 | PCT3 | AMPER | CHAR | CHAR2 | STAR | PLUS | MINUS | DOT | DOT2 | SLASH | NUMBER | NUMBER2 | LT | LT2 | EQ | GT | GT2 | CIRC | PIPE | BACKSLASH | COMMENT | COMMENT2 | COMMENT3 | COMMENT4 | COMMENT5 | NAME | NAME_BS | LCHAR
  | ILL | DDOT | DDSHARP | BS | ROGUE_BS | BEHEAD | DECAY | TRUNC | TRUNCC | OUCH
  deriving DecidableEq, Repr

/-- the tokens, cpp.h:46-121 (those that the lexer makes) -/
inductive K
  | NONE | NEWLINE | COMMENT | NUMBER | NAME | BUNCH | PRAGMA | CONTEXT | STRING | CHAR | SLASH | ASSLASH | MINUS | MMINUS | ASMINUS | ARROW | PLUS | PPLUS | ASPLUS | LT | LEQ | LSH | ASLSH | GT | GEQ | RSH | ASRSH | ASGN | SAME | NOT | NEQ | AND | LAND | ASAND | OR | LOR | ASOR | PCT | ASPCT | STAR | ASSTAR | CIRC | ASCIRC | LNOT | LBRA | RBRA | LBRK | RBRK | LPAR | RPAR | COMMA | QUEST | SEMIC | COLON | DOT | MDOTS | SHARP | DSHARP | DIG_LBRK | DIG_RBRK | DIG_LBRA | DIG_RBRA | DIG_SHARP | DIG_DSHARP
  deriving DecidableEq, Repr

/-- classes of characters, lexer.c:44-52; `vch` is the end of the input -/
inductive In
  | spc | alp | num | any | vch
  | ch (c : UInt8)
  deriving DecidableEq

inductive To
  | st (s : S)
  /-- `STO` -/
  | tok (k : K)
  deriving DecidableEq, Repr

/-- `PUT`, `FRZ` and the new state or the token, lexer.c:54-68 -/
structure Act where
  put : Bool
  frz : Bool
  to : To
  deriving DecidableEq, Repr

/-- `cppms`, lexer.c:97-358, without `SEMPER_FIDELIS` and `CAST_OP` (tune.h) -/
def cppms : List (S × List In × Act) := [
  (.START, [.any], ⟨false, false, .st .ILL⟩),
  (.START, [.spc], ⟨false, false, .st .SPACE⟩),
  (.START, [.ch 0x0A], ⟨false, false, .tok .NEWLINE⟩),
  (.START, [.ch 0x21], ⟨false, false, .st .BANG⟩),
  (.START, [.ch 0x22], ⟨true, false, .st .STRING⟩),
  (.START, [.ch 0x23], ⟨false, false, .st .SHARP⟩),
  (.START, [.ch 0x25], ⟨false, false, .st .PCT⟩),
  (.START, [.ch 0x26], ⟨false, false, .st .AMPER⟩),
  (.START, [.ch 0x27], ⟨true, false, .st .CHAR⟩),
  (.START, [.ch 0x28], ⟨false, false, .tok .LPAR⟩),
  (.START, [.ch 0x29], ⟨false, false, .tok .RPAR⟩),
  (.START, [.ch 0x2A], ⟨false, false, .st .STAR⟩),
  (.START, [.ch 0x2B], ⟨false, false, .st .PLUS⟩),
  (.START, [.ch 0x2C], ⟨false, false, .tok .COMMA⟩),
  (.START, [.ch 0x2D], ⟨false, false, .st .MINUS⟩),
  (.START, [.ch 0x2E], ⟨true, false, .st .DOT⟩),
  (.START, [.ch 0x2F], ⟨false, false, .st .SLASH⟩),
  (.START, [.num], ⟨true, false, .st .NUMBER⟩),
  (.START, [.ch 0x3A], ⟨false, false, .st .COLON⟩),
  (.START, [.ch 0x3B], ⟨false, false, .tok .SEMIC⟩),
  (.START, [.ch 0x3C], ⟨false, false, .st .LT⟩),
  (.START, [.ch 0x3D], ⟨false, false, .st .EQ⟩),
  (.START, [.ch 0x3E], ⟨false, false, .st .GT⟩),
  (.START, [.ch 0x3F], ⟨false, false, .tok .QUEST⟩),
  (.START, [.alp], ⟨true, false, .st .NAME⟩),
  (.START, [.ch 0x4C], ⟨true, false, .st .LCHAR⟩),
  (.START, [.ch 0x5B], ⟨false, false, .tok .LBRK⟩),
  (.START, [.ch 0x5D], ⟨false, false, .tok .RBRK⟩),
  (.START, [.ch 0x5E], ⟨false, false, .st .CIRC⟩),
  (.START, [.ch 0x7B], ⟨false, false, .tok .LBRA⟩),
  (.START, [.ch 0x7C], ⟨false, false, .st .PIPE⟩),
  (.START, [.ch 0x7D], ⟨false, false, .tok .RBRA⟩),
  (.START, [.ch 0x7E], ⟨false, false, .tok .NOT⟩),
  (.START, [.ch 0x5C], ⟨false, false, .st .BACKSLASH⟩),
  (.SPACE, [.any], ⟨false, true, .tok .NONE⟩),
  (.SPACE, [.spc], ⟨false, false, .st .SPACE⟩),
  (.BANG, [.any], ⟨false, true, .tok .LNOT⟩),
  (.BANG, [.ch 0x3D], ⟨false, false, .tok .NEQ⟩),
  (.STRING, [.any], ⟨true, false, .st .STRING⟩),
  (.STRING, [.vch], ⟨false, true, .st .TRUNC⟩),
  (.STRING, [.ch 0x0A], ⟨false, true, .st .BEHEAD⟩),
  (.STRING, [.ch 0x5C], ⟨true, false, .st .STRING2⟩),
  (.STRING, [.ch 0x22], ⟨true, false, .tok .STRING⟩),
  (.STRING2, [.any], ⟨true, false, .st .STRING⟩),
  (.STRING2, [.vch], ⟨false, true, .st .TRUNC⟩),
  (.SHARP, [.any], ⟨false, true, .tok .SHARP⟩),
  (.SHARP, [.ch 0x23], ⟨false, false, .tok .DSHARP⟩),
  (.COLON, [.any], ⟨false, true, .tok .COLON⟩),
  (.COLON, [.ch 0x3E], ⟨false, false, .tok .DIG_RBRK⟩),
  (.PCT, [.any], ⟨false, true, .tok .PCT⟩),
  (.PCT, [.ch 0x3D], ⟨false, false, .tok .ASPCT⟩),
  (.PCT, [.ch 0x3E], ⟨false, false, .tok .DIG_RBRA⟩),
  (.PCT, [.ch 0x3A], ⟨false, false, .st .PCT2⟩),
  (.PCT2, [.any], ⟨false, true, .tok .DIG_SHARP⟩),
  (.PCT2, [.ch 0x25], ⟨false, false, .st .PCT3⟩),
  (.PCT3, [.any], ⟨false, true, .st .DDSHARP⟩),
  (.PCT3, [.ch 0x3A], ⟨false, false, .tok .DIG_DSHARP⟩),
  (.AMPER, [.any], ⟨false, true, .tok .AND⟩),
  (.AMPER, [.ch 0x3D], ⟨false, false, .tok .ASAND⟩),
  (.AMPER, [.ch 0x26], ⟨false, false, .tok .LAND⟩),
  (.CHAR, [.any], ⟨true, false, .st .CHAR⟩),
  (.CHAR, [.vch], ⟨false, true, .st .TRUNC⟩),
  (.CHAR, [.ch 0x27], ⟨true, false, .tok .CHAR⟩),
  (.CHAR, [.ch 0x5C], ⟨true, false, .st .CHAR2⟩),
  (.CHAR2, [.any], ⟨true, false, .st .CHAR⟩),
  (.CHAR2, [.vch], ⟨false, true, .st .TRUNC⟩),
  (.STAR, [.any], ⟨false, true, .tok .STAR⟩),
  (.STAR, [.ch 0x3D], ⟨false, false, .tok .ASSTAR⟩),
  (.PLUS, [.any], ⟨false, true, .tok .PLUS⟩),
  (.PLUS, [.ch 0x2B], ⟨false, false, .tok .PPLUS⟩),
  (.PLUS, [.ch 0x3D], ⟨false, false, .tok .ASPLUS⟩),
  (.MINUS, [.any], ⟨false, true, .tok .MINUS⟩),
  (.MINUS, [.ch 0x2D], ⟨false, false, .tok .MMINUS⟩),
  (.MINUS, [.ch 0x3D], ⟨false, false, .tok .ASMINUS⟩),
  (.MINUS, [.ch 0x3E], ⟨false, false, .tok .ARROW⟩),
  (.DOT, [.any], ⟨false, true, .tok .DOT⟩),
  (.DOT, [.num], ⟨true, false, .st .NUMBER⟩),
  (.DOT, [.ch 0x2E], ⟨false, false, .st .DOT2⟩),
  (.DOT2, [.any], ⟨false, true, .st .DDOT⟩),
  (.DOT2, [.ch 0x2E], ⟨false, false, .tok .MDOTS⟩),
  (.SLASH, [.any], ⟨false, true, .tok .SLASH⟩),
  (.SLASH, [.ch 0x3D], ⟨false, false, .tok .ASSLASH⟩),
  (.SLASH, [.ch 0x2A], ⟨false, false, .st .COMMENT⟩),
  (.SLASH, [.ch 0x2F], ⟨false, false, .st .COMMENT5⟩),
  (.NUMBER, [.any], ⟨false, true, .tok .NUMBER⟩),
  (.NUMBER, [.alp, .num], ⟨true, false, .st .NUMBER⟩),
  (.NUMBER, [.ch 0x2E], ⟨true, false, .st .NUMBER⟩),
  (.NUMBER, [.ch 0x45, .ch 0x65], ⟨true, false, .st .NUMBER2⟩),
  (.NUMBER, [.ch 0x50, .ch 0x70], ⟨true, false, .st .NUMBER2⟩),
  (.NUMBER2, [.any], ⟨false, true, .tok .NUMBER⟩),
  (.NUMBER2, [.alp, .num], ⟨true, false, .st .NUMBER⟩),
  (.NUMBER2, [.ch 0x2B, .ch 0x2D], ⟨true, false, .st .NUMBER⟩),
  (.LT, [.any], ⟨false, true, .tok .LT⟩),
  (.LT, [.ch 0x3D], ⟨false, false, .tok .LEQ⟩),
  (.LT, [.ch 0x3C], ⟨false, false, .st .LT2⟩),
  (.LT, [.ch 0x3A], ⟨false, false, .tok .DIG_LBRK⟩),
  (.LT, [.ch 0x25], ⟨false, false, .tok .DIG_LBRA⟩),
  (.LT2, [.any], ⟨false, true, .tok .LSH⟩),
  (.LT2, [.ch 0x3D], ⟨false, false, .tok .ASLSH⟩),
  (.GT, [.any], ⟨false, true, .tok .GT⟩),
  (.GT, [.ch 0x3D], ⟨false, false, .tok .GEQ⟩),
  (.GT, [.ch 0x3E], ⟨false, false, .st .GT2⟩),
  (.GT2, [.any], ⟨false, true, .tok .RSH⟩),
  (.GT2, [.ch 0x3D], ⟨false, false, .tok .ASRSH⟩),
  (.EQ, [.any], ⟨false, true, .tok .ASGN⟩),
  (.EQ, [.ch 0x3D], ⟨false, false, .tok .SAME⟩),
  (.BACKSLASH, [.any], ⟨false, true, .st .BS⟩),
  (.BACKSLASH, [.ch 0x55, .ch 0x75], ⟨false, true, .st .NAME_BS⟩),
  (.NAME, [.any], ⟨false, true, .tok .NAME⟩),
  (.NAME, [.alp, .num], ⟨true, false, .st .NAME⟩),
  (.NAME, [.ch 0x5C], ⟨false, false, .st .NAME_BS⟩),
  (.NAME_BS, [.any], ⟨false, true, .st .ROGUE_BS⟩),
  (.NAME_BS, [.ch 0x75, .ch 0x55], ⟨true, false, .st .NAME⟩),
  (.LCHAR, [.any], ⟨false, true, .st .NAME⟩),
  (.LCHAR, [.ch 0x22], ⟨true, false, .st .STRING⟩),
  (.LCHAR, [.ch 0x27], ⟨true, false, .st .CHAR⟩),
  (.CIRC, [.any], ⟨false, true, .tok .CIRC⟩),
  (.CIRC, [.ch 0x3D], ⟨false, false, .tok .ASCIRC⟩),
  (.PIPE, [.any], ⟨false, true, .tok .OR⟩),
  (.PIPE, [.ch 0x3D], ⟨false, false, .tok .ASOR⟩),
  (.PIPE, [.ch 0x7C], ⟨false, false, .tok .LOR⟩),
  (.COMMENT, [.any], ⟨false, false, .st .COMMENT⟩),
  (.COMMENT, [.vch], ⟨false, true, .st .TRUNCC⟩),
  (.COMMENT, [.ch 0x2A], ⟨false, false, .st .COMMENT2⟩),
  (.COMMENT2, [.any], ⟨false, true, .st .COMMENT⟩),
  (.COMMENT2, [.vch], ⟨false, true, .st .TRUNCC⟩),
  (.COMMENT2, [.ch 0x2A], ⟨false, false, .st .COMMENT2⟩),
  (.COMMENT2, [.ch 0x2F], ⟨false, false, .tok .COMMENT⟩),
  (.COMMENT5, [.any], ⟨false, false, .st .COMMENT5⟩),
  (.COMMENT5, [.vch], ⟨false, true, .st .DECAY⟩),
  (.COMMENT5, [.ch 0x0A], ⟨false, true, .tok .COMMENT⟩)]

/-- `isalpha`, as the strings `upper`, `lower` and `_` in `init_cppm` -/
def alpha (c : UInt8) : Bool := (0x41 ≤ c && c ≤ 0x5A) || (0x61 ≤ c && c ≤ 0x7A) || c == 0x5F

def digit (c : UInt8) : Bool := 0x30 ≤ c && c ≤ 0x39

/-- `space_char`, lexer.c:420-429 -/
def space (c : UInt8) : Bool := c == 0x20 || c == 9 || c == 0x0B || c == 0x0C

/-- which entries of its line a rule fills, lexer.c:387-421 -/
def In.fills (i : In) (c : Option UInt8) : Bool :=
  match i, c with
  | .any, _ => true
  | .vch, none => true
  | .spc, some c => space c
  | .alp, some c => alpha c
  | .num, some c => digit c
  | .ch d, some c => c == d
  | _, _ => false

/-- `init_cppm`, lexer.c:373-423: of the rules for a state, later ones overwrite earlier ones -/
def fill (s : S) (c : Option UInt8) : Act :=
  (cppms.filter (·.1 = s)).foldl (fun a r => if r.2.1.any (·.fills c) = true then r.2.2 else a) ⟨false, false, .st .OUCH⟩

/-- `cppm` and `cppm_vch`; characters from `MAX_CHAR_VAL` (128) on are taken for NUL, lexer.c:808, 853 -/
def cppm (s : S) (c : Option UInt8) : Act := fill s (c.map fun c => if c < 128 then c else 0)

/-- the flags that matter: `CPLUSPLUS_COMMENTS`, `HANDLE_TRIGRAPHS`, `CCHARSET` -/
structure Flags where
  cpp : Bool
  trig : Bool
  cset : Bool

/-- the part of `lexer_state` that reading needs.  The input is a file; how it is buffered does not matter.  `lka` are the characters looked at, the next one first; `none` is −1. -/
structure St where
  inp : Str
  mac : Bool
  lka : List (Option UInt8)
  last : Option UInt8
  discard : Bool
  pending : Option K
  line : Nat

/-- `read_char`, lexer.c:486-540, with `macfile`: what is left, and the character -/
def readChar : Bool → Str → Option UInt8 × Str × Bool
  | mac, [] => (none, [], mac)
  | mac, c :: r =>
    if mac = true ∧ c = 0x0A then readChar false r
    else if c = 0x0D then (some 0x0A, r, true)
    else (some c, r, false)

/-- `read_char` on the whole state -/
def read (s : St) : Option UInt8 × St :=
  let x := readChar s.mac s.inp
  (x.1, { s with inp := x.2.1, mac := x.2.2 })

/-- `next_fifo_char`, lexer.c:546-556 -/
def fifo (s : St) : Option UInt8 × St :=
  match s.lka with
  | c :: l => (c, { s with lka := l })
  | [] => read s

/-- `char_lka1`, lexer.c:558-565 -/
def lka1 (s : St) : Option UInt8 × St :=
  match s.lka with
  | c :: _ => (c, s)
  | [] => let x := read s; (x.1, { x.2 with lka := [x.1] })

/-- `char_lka2`, lexer.c:567-577; after `lka1` -/
def lka2 (s : St) : Option UInt8 × St :=
  match s.lka with
  | _ :: d :: _ => (d, s)
  | l => let x := read s; (x.1, { x.2 with lka := l ++ [x.1] })

/-- `trig`, lexer.c:579-591 -/
def trig : List (UInt8 × UInt8) :=
  [(0x3D, 0x23), (0x2F, 0x5C), (0x27, 0x5E), (0x28, 0x5B), (0x29, 0x5D), (0x21, 0x7C), (0x3C, 0x7B), (0x3E, 0x7D), (0x2D, 0x7E)]

/-- the trigraph part of `next_char`, lexer.c:604-627: the character and the state after it -/
def trigraph (fl : Flags) (s : St) : Option UInt8 × St :=
  let x := fifo s
  if x.1 = some 0x3F then
    let y := lka1 x.2
    if y.1 = some 0x3F ∧ fl.trig = true then
      let z := lka2 y.2
      match trig.find? (fun t => z.1 = some t.1) with
      | some t => (some t.2, (fifo (fifo z.2).2).2)
      | none => (x.1, z.2)
    else (x.1, y.2)
  else x

/-- `next_char`, lexer.c:597-642, without the branch for `'\r'`, which `read_char` does not leave in files; `none` if `n` is too small -/
def nextN (fl : Flags) : Nat → St → Option (Option UInt8 × St)
  | 0, _ => none
  | n + 1, s =>
    let x := trigraph fl s
    if x.1 = some 0x5C then
      let y := lka1 x.2
      if y.1 = some 0x0A then nextN fl n { (fifo y.2).2 with line := (fifo y.2).2.line + 1 }
      else some (x.1, { y.2 with last := x.1 })
    else some (x.1, { x.2 with last := x.1 })

def next (fl : Flags) (s : St) : Option (Option UInt8 × St) :=
  if s.discard = false then some (s.last, s) else nextN fl (s.inp.length + s.lka.length + 1) { s with discard := false }

/-- `discard_char`, lexer.c:657-665 -/
def discardChar (s : St) : St := { s with discard := true, line := if s.last = some 0x0A then s.line + 1 else s.line }

inductive Err
  /-- "illegal character" -/
  | ill
  /-- "unfinished string at end of line" -/
  | string
  /-- "truncated token" -/
  | token
  /-- "truncated comment" -/
  | comment
  /-- the automaton has no rule -/
  | ouch
  | fuel
  deriving DecidableEq, Repr

/-- tokens with names, `S_TOKEN` (cpp.h:314) -/
def named (k : K) : Bool := k = .NUMBER || k = .NAME || k = .BUNCH || k = .STRING || k = .CHAR

def result (k : K) (name : Str) : K × Str := (k, if named k then name else [])

/-- what is to be done: with the names of states replaced, lexer.c:860-917; also the pending token and what is put in front of the name -/
def resolve (fl : Flags) (a : Act) : Except Err (Act × Option K × Str) :=
  let a := if a = ⟨false, false, .st .COMMENT5⟩ ∧ fl.cpp = false then ⟨false, true, .tok .SLASH⟩ else a
  match a.to with
  | .st .ILL => if fl.cset then .error .ill else .ok (⟨true, false, .tok .BUNCH⟩, none, [])
  | .st .BS => .ok (⟨false, true, .tok .BUNCH⟩, none, [0x5C])
  | .st .ROGUE_BS => .ok (⟨false, true, .tok .NAME⟩, some .BUNCH, [])
  | .st .DDOT => .ok (⟨false, true, .tok .DOT⟩, some .DOT, [])
  | .st .DDSHARP => .ok (⟨false, true, .tok .DIG_SHARP⟩, some .PCT, [])
  | .st .BEHEAD => .error .string
  | .st .DECAY => .ok (⟨false, true, .tok .COMMENT⟩, none, [])
  | .st .TRUNC => .error .token
  | .st .TRUNCC => .error .comment
  | .st .OUCH => .error .ouch
  | _ => .ok (a, none, [])

/-- the loop of `read_token`, lexer.c:837-981; the token is `none` at the end of the input.  What is written to the output is not modelled, nor UTF-8 and `canonize_id`. -/
def loop (fl : Flags) : Nat → S → Str → St → Except Err (Option (K × Str) × St)
  | 0, _, _, _ => .error .fuel
  | n + 1, q, name, s =>
    match next fl s with
    | none => .error .fuel
    | some (c, s) =>
      if c = none ∧ q = .START then .ok (none, s)
      else
        match resolve fl (cppm q c) with
        | .error e => .error e
        | .ok (a, pend, pre) =>
          let s := { s with pending := if pend = none then s.pending else pend }
          let s := if a.frz then s else discardChar s
          let name := pre ++ name
          let name := if a.put then name ++ (if q = .NAME_BS then [0x5C] else []) ++ [c.getD 255] else name
          match a.to with
          | .tok k => .ok (some (result k name), s)
          | .st q => loop fl n q name s

/-- `read_token`, lexer.c:814-988 -/
def readToken (fl : Flags) (n : Nat) (s : St) : Except Err (Option (K × Str) × St) :=
  match s.pending with
  | some k => .ok (some (k, if k = .BUNCH then [0x5C] else []), { s with pending := none })
  | none => loop fl n .START [] s

/-- all tokens -/
def tokens (fl : Flags) (n : Nat) : Nat → St → Except Err (List (K × Str))
  | 0, _ => .error .fuel
  | m + 1, s =>
    match readToken fl n s with
    | .error e => .error e
    | .ok (none, _) => .ok []
    | .ok (some t, s) => (tokens fl n m s).map (t :: ·)

/-- `reinit_lexer_state` (cpp.c:326-349) and `set_input_file`: a file from its beginning, line 1 -/
def start (inp : Str) : St := ⟨inp, false, [], some 0, true, none, 1⟩

end Smlr.Ulex
