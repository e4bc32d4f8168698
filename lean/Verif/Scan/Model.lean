import Verif.Ctype.Model

set_option autoImplicit false
/-
Model of `__doscan`, the engine of the scanf family — v0100/srclib/doscan.c.

Simplifications:
* the stream is the list of the bytes still to be read; `fgetc` takes the head or
  returns EOF, and `ungetc` of the character just read puts it back (that this is
  what the stdio functions do is C13; `ungetc(EOF)` does nothing);
* the format is the list of its characters before the NUL;
* the objects pointed to by the variable arguments are not in a memory: the model
  returns the list of what is stored through the successive pointers;
* the counter `chcnt` is an unbounded integer;
* the floating conversions (`%e` and its synonyms, 32-bit library only) are the
  distinct outcome `float`.
-/
namespace Smlr.Scan

open Smlr.Ctype

/-- What one conversion stores through its pointer.
doscan.c:117-126 (`%n`), :153-173 (`%c`), :174-197 (`%s`), :595-606 (integers), :641-651 (`%[`). -/
inductive Store where
  /-- an integer of `bits` bits -/
  | int (bits : Nat) (v : Nat)
  /-- characters, without a terminator -/
  | chars (bs : List Nat)
  /-- characters stored by a `%c` that ran out of input -/
  | part (bs : List Nat)
  /-- characters and a NUL -/
  | str (bs : List Nat)
  /-- `%n` -/
  | count (bits : Nat) (v : Nat)
deriving DecidableEq, Repr

/-- The state of the main loop: the unread input, `cnt`, `chcnt`, and the stores so far.
doscan.c:18-20, and the stream. -/
structure St where
  inp : List Nat
  cnt : Nat
  ch : Int
  out : List Store
deriving DecidableEq, Repr

/-- How a call ends. -/
inductive Res where
  /-- `return r`, with the unread input and the stores -/
  | ret (r : Int) (inp : List Nat) (out : List Store)
  /-- a floating conversion was reached (not modelled) -/
  | float
  /-- signed overflow in the field width (undefined) -/
  | ub
  /-- the model's fuel ran out (never, see `c43_scan`) -/
  | fuel
deriving DecidableEq, Repr

/-- `fgetc` — v0100/srclib/fgetc.c, as a list: the character read (−1 for EOF). -/
def fgetc : List Nat → Int × List Nat
  | [] => (-1, [])
  | c :: r => (c, r)

/-- `ungetc` of the character just read — v0100/srclib/ungetc.c. -/
def ungetc (c : Int) (r : List Nat) : List Nat :=
  if c < 0 then r else c.toNat :: r

/-- `cnt ? cnt : EOF` — doscan.c:60, :149, :172. -/
def cntOrEof (cnt : Nat) : Int := if cnt = 0 then -1 else cnt

/-- `(cnt | flag) ? cnt : EOF` — doscan.c:517, :536, :588. -/
def cntOr (cnt : Nat) (flag : Bool) : Int := if cnt = 0 ∧ !flag then -1 else cnt

/-- Skip input white space: the characters up to the first that is none (or the end).
The loop of doscan.c:31-37 and of :143-146. -/
def skipSpace : List Nat → List Nat
  | [] => []
  | c :: r => if isspace c ≠ 0 then skipSpace r else c :: r

/-- The inner loop on white space in the format — doscan.c:26-30. -/
def skipFmt : List Nat → List Nat
  | [] => []
  | c :: r => if isspace c ≠ 0 then skipFmt r else c :: r

/-- The states of the integer scanner — doscan.c:476-482. -/
inductive NSt where
  | sign | zero | x | digit
deriving DecidableEq, Repr

/-- The variables of the integer scanner — doscan.c:472-482. -/
structure Num where
  st : NSt
  inp : List Nat
  width : Nat
  base : Nat
  neg : Bool      -- `sign == '-'`
  gotint : Bool
  n : Nat
  ch : Int
deriving DecidableEq, Repr

/-- One iteration of the scanner: carry on, leave the loop, or return. -/
inductive NStep where
  | go (s : Num)
  | stop (s : Num)
  | ret (eof : Bool) (inp : List Nat)   -- `return … ? cnt : EOF`; `eof`: the flag is 0
deriving DecidableEq, Repr

/-- One iteration of `while (!stop)` — doscan.c:495-593.  `W` is the width of `int`.
`stop` is set at the top when `width` characters have been read. -/
def numStep (W : Nat) (s : Num) : NStep :=
  let (c2, r, stop) :=
    if 0 < s.width then ((fgetc s.inp).1, (fgetc s.inp).2, false) else (-1, s.inp, true)
  let fin (t : Num) : NStep := if stop then .stop t else .go t
  match s.st with
  | .sign =>                                                   -- :507-520
    if c2 = 45 ∨ c2 = 43 then
      fin { s with st := .zero, inp := r, width := s.width - 1, neg := c2 = 45, ch := s.ch + 1 }
    else if c2 < 0 then .ret (!stop) (ungetc c2 r)
    else fin { s with st := .zero, inp := ungetc c2 r }
  | .zero =>                                                   -- :522-539
    if c2 = 48 then
      fin { s with
        st := if s.base ||| 16 = 16 then .x else .digit,
        inp := r, width := s.width - 1, gotint := true, ch := s.ch + 1 }
    else if c2 < 0 then .ret (!stop) (ungetc c2 r)
    else fin { s with st := .digit, inp := ungetc c2 r }
  | .x =>                                                      -- :541-557
    if toupper c2 = 88 then
      fin { s with
        st := .digit, inp := r, width := s.width - 1, gotint := false, base := 16, ch := s.ch + 1 }
    else
      let t : Num :=
        { s with st := .digit, inp := ungetc c2 r, base := if s.base = 0 then 8 else s.base }
      if c2 < 0 then .stop t else fin t
  | .digit =>                                                  -- :559-591
    let base := if s.base = 0 then 10 else s.base
    let d : Int :=
      if isdigit c2 ≠ 0 then c2 - 48
      else if isalpha c2 ≠ 0 then
        -- `(d & ~0x20) - ('A' - 10)`: clear bit 5
        (((c2.toNat &&& 0x5F) : Nat) : Int) - 55
      else -1
    if (isdigit c2 ≠ 0 ∨ isalpha c2 ≠ 0) ∧ d < base then
      fin { s with
        inp := r, width := s.width - 1, base := base, gotint := true,
        n := (s.n * base + d.toNat) % 2 ^ W, ch := s.ch + 1 }
    else if s.gotint then .stop { s with inp := ungetc c2 r, base := base }
    else .ret (!(stop || 0 ≤ c2)) (ungetc c2 r)

/-- The loop of the integer scanner, doscan.c:495-593. -/
def numLoop (W : Nat) : Nat → Num → NStep
  | 0, s => .go s
  | k + 1, s =>
    match numStep W s with
    | .go t => numLoop W k t
    | r => r

/-- `%s` — doscan.c:180-192: the characters stored and the rest. -/
def takeWord : Nat → List Nat → List Nat × List Nat
  | 0, r => ([], r)
  | _ + 1, [] => ([], [])
  | w + 1, c :: r =>
    if isspace c ≠ 0 then ([], c :: r)
    else let (a, b) := takeWord w r; (c :: a, b)

/-- `set[c>>3] |= 1 << (c&7)` — doscan.c:623. -/
def setAdd (set : List Nat) (c : Nat) : List Nat :=
  set.set (c >>> 3) (set.getD (c >>> 3) 0 ||| 1 <<< (c &&& 7))

/-- `(set[c2>>3] & (1 << (c2&7))) != 0` — doscan.c:634. -/
def inSet (set : List Nat) (c : Nat) : Bool :=
  set.getD (c >>> 3) 0 &&& 1 <<< (c &&& 7) != 0

/-- Reading the scan set out of the format — doscan.c:619-627; `none` when the format
ends first.  `idx` counts the characters of the set. -/
def readSet : List Nat → Nat → List Nat → Option (List Nat × List Nat)
  | [], _, _ => none
  | c :: f, idx, set =>
    if c = 93 ∧ idx ≠ 0 then some (set, f)
    else readSet f (idx + 1) (setAdd set c)

/-- `%[` — doscan.c:632-645: the characters taken and the rest. -/
def takeSet (set : List Nat) (exclude : Bool) : Nat → List Nat → List Nat × List Nat
  | 0, r => ([], r)
  | _ + 1, [] => ([], [])
  | w + 1, c :: r =>
    if inSet set c = exclude then ([], c :: r)
    else let (a, b) := takeSet set exclude w r; (c :: a, b)

/-- The field width — doscan.c:78-89: `none` for a malformed or overflowing one. -/
inductive WRes where
  | ok (width : Option Nat) (c : Nat) (fmt : List Nat)
  | eof
  | ub

/-- The `do` loop of doscan.c:81-86; `acc` is the width so far, `c` the digit at hand. -/
def widthLoop (W : Nat) (acc : Nat) (c : Nat) : List Nat → WRes
  | [] => if 2 ^ (W - 1) ≤ acc * 10 + (c - 48) then .ub else .eof
  | c' :: f' =>
    let acc' := acc * 10 + (c - 48)
    if 2 ^ (W - 1) ≤ acc' then .ub
    else if isdigit c' ≠ 0 then widthLoop W acc' c' f'
    else if acc' = 0 then .eof else .ok (some acc') c' f'

/-- The length modifier — doscan.c:91-115: `72` for `hh`, else the character. -/
def lmod (W : Nat) (c : Nat) (f : List Nat) : Nat × List Nat :=
  if c = 104 then
    match f with
    | 104 :: f' => (72, f')
    | _ => (104, f)
  else if W = 32 ∧ (c = 108 ∨ c = 76) then (c, f)
  else if c = 106 ∨ c = 122 ∨ c = 116 then (c, f)
  else (0, f)

/-- The size of the object an integer conversion stores — doscan.c:599-604, :119-124. -/
def bitsOf (W : Nat) (lm : Nat) : Nat := if lm = 72 then 8 else if lm = 104 then 16 else W

/-- The default field width `(unsigned)-1 / 2` — doscan.c:181, :493, :630. -/
def defWidth (W : Nat) : Option Nat → Nat
  | some w => w
  | none => 2 ^ (W - 1) - 1

/-- The `^` after `%[` — doscan.c:616-617. -/
def caret : List Nat → Bool × List Nat
  | 94 :: f => (true, f)
  | f => (false, f)

/-- The conversion itself, after the specification has been read — doscan.c:141-652.
`c` is the conversion character; the second component is the rest of the format. -/
def convert (W : Nat) (assign : Bool) (width : Option Nat) (lm : Nat) (c : Nat)
    (fmt : List Nat) (s : St) : St × List Nat ⊕ Res :=
  -- :141-147 white space is skipped, and counted
  let inp := if c ≠ 99 ∧ c ≠ 91 then skipSpace s.inp else s.inp
  let ch := s.ch + (s.inp.length - inp.length : Nat)
  match inp with
  | [] => .inr (.ret (cntOrEof s.cnt) [] s.out)                -- :148-149
  | _ =>
  if c = 99 then                                               -- :153-173
    let w := width.getD 1
    let got := inp.take w
    let rest := inp.drop w
    if w ≤ inp.length then
      .inl ({ inp := rest, cnt := s.cnt + assign.toNat, ch := ch + w,
              out := if assign then s.out ++ [.chars got] else s.out }, fmt)
    else
      .inr (.ret (cntOrEof s.cnt) rest (if assign then s.out ++ [.part got] else s.out))
  else if c = 115 then                                         -- :174-197
    let (got, rest) := takeWord (defWidth W width) inp
    .inl ({ inp := rest, cnt := s.cnt + assign.toNat, ch := ch + got.length,
            out := if assign then s.out ++ [.str got] else s.out }, fmt)
  else if c ≠ 91 then                                          -- :470-607
    let base := if c = 120 ∨ c = 112 then 16 else if c = 111 then 8 else if c ≠ 105 then 10 else 0
    match numLoop W (inp.length + 5)
        { st := .sign, inp, width := defWidth W width, base, neg := false, gotint := false,
          n := 0, ch } with
    | .go _ => .inr .fuel
    | .ret eof r => .inr (.ret (cntOr s.cnt (!eof)) r s.out)
    | .stop t =>
      let n := if t.neg then (2 ^ W - t.n) % 2 ^ W else t.n
      let b := bitsOf W lm
      .inl ({ inp := t.inp, cnt := s.cnt + assign.toNat, ch := t.ch,
              out := if assign then s.out ++ [.int b (n % 2 ^ b)] else s.out }, fmt)
  else                                                         -- :608-652
    let (exclude, f1) := caret fmt
    match readSet f1 0 (List.replicate 32 0) with
    | none => .inr (.ret (-1) inp s.out)
    | some (set, f2) =>
      let (got, rest) := takeSet set exclude (defWidth W width) inp
      if got = [] then
        .inr (.ret (s.cnt : Int) rest s.out)                   -- `readone` is 1 here
      else
        .inl ({ inp := rest, cnt := s.cnt + assign.toNat, ch := ch + got.length,
                out := if assign then s.out ++ [.str got] else s.out }, f2)

/-- `**(int**)vl = chcnt` — doscan.c:117-126. -/
def countStore (W : Nat) (lm : Nat) (s : St) : St :=
  { s with out := s.out ++ [.count (bitsOf W lm) (s.ch % 2 ^ bitsOf W lm).toNat] }

/-- A conversion specification from the length modifier on — doscan.c:91-139.
`c` is the character at hand, `f` the rest of the format. -/
def specTail (W : Nat) (assign : Bool) (width : Option Nat) (c : Nat) (f : List Nat) (s : St) :
    St × List Nat ⊕ Res :=
  let eof : St × List Nat ⊕ Res := .inr (.ret (-1) s.inp s.out)
  let (lm, f) := lmod W c f
  let step2 : Option (Nat × List Nat) :=                       -- :113-115
    if lm ≠ 0 then
      match f with
      | [] => none
      | c :: f => some (c, f)
    else some (c, f)
  match step2 with
  | none => eof
  | some (c, f) =>
  if c = 110 then .inl (countStore W lm s, f)                  -- :117-126
  else
  let c := if W = 32 ∧ c ∈ [102, 103, 69, 70, 71] then 101 else c          -- :128-131
  let c := if c = 88 then 120 else c                           -- :132-133
  if c ∉ [100, 105, 111, 117, 120, 99, 115, 112, 91] ∧ ¬ (W = 32 ∧ c = 101) then eof   -- :134-139
  else if c = 101 then .inr .float
  else convert W assign width lm c f s

/-- A conversion specification after the `%` — doscan.c:66-89. -/
def spec (W : Nat) (fmt : List Nat) (s : St) : St × List Nat ⊕ Res :=
  let eof : St × List Nat ⊕ Res := .inr (.ret (-1) s.inp s.out)
  match fmt with
  | [] => eof                                                  -- :68-69
  | c :: f =>
  let step1 : Option (Bool × Nat × List Nat) :=                -- :71-76
    if c = 42 then
      match f with
      | [] => none
      | c :: f => some (false, c, f)
    else some (true, c, f)
  match step1 with
  | none => eof
  | some (assign, c, f) =>
  match (if isdigit c ≠ 0 then widthLoop W 0 c f else .ok none c f) with   -- :78-89
  | .eof => eof
  | .ub => .inr .ub
  | .ok width c f => specTail W assign width c f s

/-- The main loop — doscan.c:22-654.  The `goto lmatchchars` (:44-51) repeats the tests
of the main loop on the next format character, so it is one more round of it here. -/
def loop (W : Nat) : Nat → List Nat → St → Res
  | 0, _, _ => .fuel
  | _ + 1, [], s => .ret s.cnt s.inp s.out
  | k + 1, c :: f, s =>
    if isspace c ≠ 0 then                                      -- :24-38
      let r := skipSpace s.inp
      -- every character read is counted, the one put back is uncounted, EOF is counted
      let ch := s.ch + (s.inp.length - r.length : Nat) + (if r = [] then 1 else 0)
      loop W k (skipFmt f) { s with inp := r, ch := ch }
    else if c ≠ 37 ∨ f.head? = some 37 then                    -- :40-62
      let f := if c = 37 then f.tail else f
      let (c2, r) := fgetc s.inp
      if c2 = c then loop W k f { s with inp := r, ch := s.ch + 1 }
      else if c2 < 0 then .ret (cntOrEof s.cnt) r s.out
      else .ret s.cnt (ungetc c2 r) s.out
    else
      match spec W f s with
      | .inr r => r
      | .inl (s', f') => loop W k f' s'

/-- `__doscan` — doscan.c:16-657. -/
def doscan (W : Nat) (fmt : List Nat) (inp : List Nat) : Res :=
  loop W (fmt.length + 1) fmt { inp, cnt := 0, ch := 0, out := [] }

end Smlr.Scan
