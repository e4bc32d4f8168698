import Verif.Scan.Model
import Verif.Ctype.Spec

set_option autoImplicit false
/-
What scanf should do, directive by directive (C99 7.19.6.2, and the comment at
v0100/srclib/doscan.c:12-15 for the returned value).  A format is a list of directives;
`render` writes it out as text.  What each directive takes from the input is given by
maximality (`Longest`), not by a scanning procedure.
-/
namespace Smlr.Scan.Spec

open Smlr.Ctype.Spec (Space Digit)

/-- Length modifiers. -/
inductive Mod where
  | none | hh | h | l | L | j | z | t
deriving DecidableEq, Repr

/-- Conversions. -/
inductive Conv where
  | d | u | i | o | x | X | p | c | s
  | set (neg : Bool) (cs : List Nat)
deriving DecidableEq, Repr

/-- Directives.  `width` is the text of the field width, empty when there is none. -/
inductive Dir where
  | space (ws : List Nat)
  | lit (c : Nat)
  | pct
  | conv (assign : Bool) (width : List Nat) (m : Mod) (k : Conv)
  | count (m : Mod)
deriving DecidableEq, Repr

def Mod.text : Mod → List Nat
  | .none => [] | .hh => [104, 104] | .h => [104] | .l => [108] | .L => [76]
  | .j => [106] | .z => [122] | .t => [116]

def Conv.text : Conv → List Nat
  | .d => [100] | .u => [117] | .i => [105] | .o => [111] | .x => [120] | .X => [88]
  | .p => [112] | .c => [99] | .s => [115]
  | .set neg cs => 91 :: ((if neg then [94] else []) ++ cs ++ [93])

def Dir.text : Dir → List Nat
  | .space ws => ws
  | .lit c => [c]
  | .pct => [37, 37]
  | .conv assign width m k =>
      37 :: ((if assign then [] else [42]) ++ width ++ m.text ++ k.text)
  | .count m => 37 :: (m.text ++ [110])

/-- The text of a format. -/
def render (ds : List Dir) : List Nat := ds.flatMap Dir.text

/-- The number written by a list of decimal digits. -/
def decVal (ds : List Nat) : Nat := ds.foldl (fun a c => a * 10 + (c - 48)) 0

/-- `l` and `L` exist in the 32-bit library only. -/
def Mod.ok (W : Nat) : Mod → Prop
  | .l | .L => W = 32
  | _ => True

def Conv.ok : Conv → Prop
  | .set neg cs =>
      cs ≠ [] ∧ (∀ c ∈ cs, 0 < c ∧ c < 256) ∧ 93 ∉ cs.tail ∧ (neg = false → cs.head? ≠ some 94)
  | _ => True

/-- Well-formed directives. -/
def Dir.ok (W : Nat) : Dir → Prop
  | .space ws => ws ≠ [] ∧ ∀ c ∈ ws, Space (c : Nat)
  | .lit c => 0 < c ∧ c < 256 ∧ c ≠ 37 ∧ ¬ Space (c : Nat)
  | .pct => True
  | .conv _ width m k =>
      (width ≠ [] → (∀ c ∈ width, Digit (c : Nat)) ∧ 0 < decVal width ∧ decVal width < 2 ^ (W - 1)) ∧
      m.ok W ∧ k.ok
  | .count m => m.ok W

/-- The field width: none, or the number written. -/
def widthOf (w : List Nat) : Option Nat := if w = [] then none else some (decVal w)

/-- A text of `n` characters does not exceed the field width. -/
def Fits (w : Option Nat) (n : Nat) : Prop := ∀ k, w = some k → n ≤ k

/-- `a` is the longest prefix of `inp` within the field width that satisfies `P`. -/
def Longest (P : List Nat → Prop) (w : Option Nat) (inp a : List Nat) : Prop :=
  a <+: inp ∧ Fits w a.length ∧ P a ∧
  ∀ p, p <+: inp → Fits w p.length → P p → p.length ≤ a.length

/-! ### Integers -/

/-- The value of a character as a digit in the bases up to 36. -/
def digitVal (c : Nat) : Option Nat :=
  if 48 ≤ c ∧ c ≤ 57 then some (c - 48)
  else if 97 ≤ c ∧ c ≤ 122 then some (c - 87)
  else if 65 ≤ c ∧ c ≤ 90 then some (c - 55)
  else none

/-- Only digits of base `r`. -/
def Digs (r : Nat) (s : List Nat) : Prop := ∀ c ∈ s, ∃ v, digitVal c = some v ∧ v < r

/-- The value of a digit string in base `r`. -/
def posVal (r : Nat) (s : List Nat) : Nat := s.foldl (fun a c => a * r + (digitVal c).getD 0) 0

/-- The prefix `0x` or `0X`. -/
def IsHexPre (p : List Nat) : Prop := p = [48, 120] ∨ p = [48, 88]

/-- The unsigned sequences that an integer conversion matches, with their values. -/
inductive Body : Conv → List Nat → Nat → Prop
  | d {s} : s ≠ [] → Digs 10 s → Body .d s (posVal 10 s)
  | u {s} : s ≠ [] → Digs 10 s → Body .u s (posVal 10 s)
  | o {s} : s ≠ [] → Digs 8 s → Body .o s (posVal 8 s)
  | x {s} : s ≠ [] → Digs 16 s → Body .x s (posVal 16 s)
  | xp {p s} : IsHexPre p → s ≠ [] → Digs 16 s → Body .x (p ++ s) (posVal 16 s)
  | X {s v} : Body .x s v → Body .X s v
  | p {s v} : Body .x s v → Body .p s v
  | iDec {c s} : c ≠ 48 → Digs 10 (c :: s) → Body .i (c :: s) (posVal 10 (c :: s))
  | iOct {s} : Digs 8 s → Body .i (48 :: s) (posVal 8 s)
  | iHex {p s} : IsHexPre p → s ≠ [] → Digs 16 s → Body .i (p ++ s) (posVal 16 s)

/-- The sequences that an integer conversion matches: an optional sign and a body. -/
inductive Subject (k : Conv) : List Nat → Int → Prop
  | pos {s v} : Body k s v → Subject k s v
  | plus {s v} : Body k s v → Subject k (43 :: s) v
  | minus {s v} : Body k s v → Subject k (45 :: s) (-(v : Int))

/-- A matching sequence or a prefix of one. -/
def Viable (k : Conv) (a : List Nat) : Prop := ∃ t v, Subject k (a ++ t) v

/-! ### The directives at work -/

/-- Unread input, number of characters read, number of assignments, stores. -/
structure Sp where
  inp : List Nat
  n : Nat
  cnt : Nat
  out : List Store

/-- The size of the object addressed. -/
def Mod.bits (W : Nat) : Mod → Nat
  | .hh => 8 | .h => 16 | _ => W

/-- EOF when nothing has been assigned, else the number of assignments. -/
def eofOr (cnt : Nat) : Int := if cnt = 0 then -1 else cnt

/-- `a` taken from the input. -/
def Sp.take (s : Sp) (a : List Nat) : Sp :=
  { s with inp := s.inp.drop a.length, n := s.n + a.length }

/-- One more assignment, if not suppressed. -/
def Sp.put (s : Sp) (assign : Bool) (x : Store) : Sp :=
  if assign then { s with cnt := s.cnt + 1, out := s.out ++ [x] } else s

/-- White space is skipped before every conversion except `c` and `[`. -/
def Conv.skips : Conv → Bool
  | .c | .set _ _ => false
  | _ => true

def Conv.isInt : Conv → Bool
  | .c | .s | .set _ _ => false
  | _ => true

def AllSpace (a : List Nat) : Prop := ∀ c ∈ a, Space (c : Nat)
def NoSpace (a : List Nat) : Prop := ∀ c ∈ a, ¬ Space (c : Nat)
def AllIn (neg : Bool) (cs a : List Nat) : Prop := ∀ c ∈ a, (c ∈ cs ↔ neg = false)

/-- The outcome of a conversion on input that is not exhausted. -/
inductive Outc where
  | ok (s : Sp)
  | fail (r : Int) (inp : List Nat) (out : List Store)

/-- One conversion, white space already skipped, input not exhausted. -/
inductive Convert (W : Nat) (assign : Bool) (w : Option Nat) (m : Mod) : Conv → Sp → Outc → Prop
  /-- an integer: the longest viable prefix is a matching sequence; its value, reduced to
  the size of the object, is stored -/
  | int {k s a v} : k.isInt → Longest (Viable k) w s.inp a → Subject k a v →
      Convert W assign w m k s
        (.ok ((s.take a).put assign (.int (m.bits W) (v % 2 ^ m.bits W).toNat)))
  /-- the longest viable prefix is not a matching sequence: it is consumed, the call ends;
  the result is EOF if nothing was assigned and the input ended there -/
  | intFail {k s a} : k.isInt → Longest (Viable k) w s.inp a → (∀ v, ¬ Subject k a v) →
      ¬ (a = s.inp ∧ ∀ n, w = some n → a.length < n) →
      Convert W assign w m k s (.fail s.cnt (s.inp.drop a.length) s.out)
  | intEof {k s a} : k.isInt → Longest (Viable k) w s.inp a → (∀ v, ¬ Subject k a v) →
      a = s.inp → (∀ n, w = some n → a.length < n) →
      Convert W assign w m k s (.fail (eofOr s.cnt) [] s.out)
  | word {s a} : Longest NoSpace w s.inp a →
      Convert W assign w m .s s (.ok ((s.take a).put assign (.str a)))
  | chars {s a} : a <+: s.inp → a.length = w.getD 1 →
      Convert W assign w m .c s (.ok ((s.take a).put assign (.chars a)))
  | charsFail {s} : s.inp.length < w.getD 1 →
      Convert W assign w m .c s
        (.fail (eofOr s.cnt) [] (if assign then s.out ++ [.part s.inp] else s.out))
  | set {neg cs s a} : Longest (AllIn neg cs) w s.inp a → a ≠ [] →
      Convert W assign w m (.set neg cs) s (.ok ((s.take a).put assign (.str a)))
  | setFail {neg cs s} : Longest (AllIn neg cs) w s.inp [] →
      Convert W assign w m (.set neg cs) s (.fail s.cnt s.inp s.out)

/-- The directives executed in turn.  With `full` the standard is followed to the letter;
without it `%%` does not skip white space, and `%n` may store anything once the input is
exhausted (see `c43_percent_defect` and `c43_count_defect`). -/
inductive Run (W : Nat) (full : Bool) : List Dir → Sp → Res → Prop
  | nil {s} : Run W full [] s (.ret s.cnt s.inp s.out)
  | space {ws ds s a o} : Longest AllSpace none s.inp a → Run W full ds (s.take a) o →
      Run W full (.space ws :: ds) s o
  | lit {c ds s r o} : s.inp = c :: r → Run W full ds (s.take [c]) o →
      Run W full (.lit c :: ds) s o
  | litMismatch {c ds s c' r} : s.inp = c' :: r → c' ≠ c →
      Run W full (.lit c :: ds) s (.ret s.cnt s.inp s.out)
  | litEof {c ds s} : s.inp = [] → Run W full (.lit c :: ds) s (.ret (eofOr s.cnt) [] s.out)
  | pct {ds s a o} :
      (if full then Longest AllSpace none s.inp a else a = []) →
      Run W full (.lit 37 :: ds) (s.take a) o → Run W full (.pct :: ds) s o
  | count {m ds s v o} : (full = true ∨ s.inp ≠ [] → v = s.n % 2 ^ m.bits W) →
      Run W full ds { s with out := s.out ++ [.count (m.bits W) v] } o →
      Run W full (.count m :: ds) s o
  | convEof {assign w m k ds s a} :
      (if k.skips then Longest AllSpace none s.inp a else a = []) → s.inp.drop a.length = [] →
      Run W full (.conv assign w m k :: ds) s (.ret (eofOr s.cnt) [] s.out)
  | conv {assign w m k ds s a s' o} :
      (if k.skips then Longest AllSpace none s.inp a else a = []) → s.inp.drop a.length ≠ [] →
      Convert W assign (widthOf w) m k (s.take a) (.ok s') → Run W full ds s' o →
      Run W full (.conv assign w m k :: ds) s o
  | convFail {assign w m k ds s a r i out} :
      (if k.skips then Longest AllSpace none s.inp a else a = []) → s.inp.drop a.length ≠ [] →
      Convert W assign (widthOf w) m k (s.take a) (.fail r i out) →
      Run W full (.conv assign w m k :: ds) s (.ret r i out)

end Smlr.Scan.Spec
