import Verif.Lit.Model
set_option autoImplicit false
/-! Literals as the C standard describes them, with exact numbers. -/
namespace Smlr.Lit

def octDigit (c : UInt8) : Prop := 0x30 ≤ c ∧ c ≤ 0x37
def hexDigit (c : UInt8) : Prop := (0x30 ≤ c ∧ c ≤ 0x39) ∨ (0x41 ≤ c ∧ c ≤ 0x46) ∨ (0x61 ≤ c ∧ c ≤ 0x66)

def octNum (c : UInt8) : Nat := c.toNat - 0x30
def hexNum (c : UInt8) : Nat :=
  if c ≤ 0x39 then c.toNat - 0x30 else if c ≤ 0x46 then c.toNat - 0x41 + 10 else c.toNat - 0x61 + 10

/-- value of a digit sequence -/
def number (base : Nat) (num : UInt8 → Nat) (ds : Str) : Nat := ds.foldl (fun n d => n * base + num d) 0

/-- `\a \b \f \n \r \t \v` -/
def simple : List (UInt8 × Nat) := [(0x61, 7), (0x62, 8), (0x66, 12), (0x6E, 10), (0x72, 13), (0x74, 9), (0x76, 11)]

/-- the text `s` begins with an element (character or escape sequence) of value `v` and goes on with `r`.  `n` is the number of bytes of a character,
`m` the greatest character that may stand for itself.  Newlines, carriage returns and NULs end a literal.  A backslash before a character that begins no escape sequence
is ignored; this covers `\\ \' \" \?` -/
inductive Elem (n m : Nat) : Str → Nat → Str → Prop
  | plain (c r) : c ≠ 0x5C → c ∉ [0x0A, 0x0D, 0] → c.toNat ≤ m → Elem n m (c :: r) c.toNat r
  | simple (c v r) : (c, v) ∈ simple → Elem n m (0x5C :: c :: r) v r
  | other (c r) : ¬ octDigit c → c ≠ 0x78 → (∀ v, (c, v) ∉ Lit.simple) → c ∉ [0x0A, 0x0D, 0] → c.toNat ≤ m → Elem n m (0x5C :: c :: r) c.toNat r
  | oct (ds r) : ds ≠ [] → (∀ d ∈ ds, octDigit d) → ds.length ≤ 3 → (ds.length = 3 ∨ ∀ d, r.head? = some d → ¬ octDigit d) →
      number 8 octNum ds < 256 → Elem n m (0x5C :: (ds ++ r)) (number 8 octNum ds) r
  | hex (ds r) : ds ≠ [] → (∀ d ∈ ds, hexDigit d) → (∀ d, r.head? = some d → ¬ hexDigit d) →
      number 16 hexNum ds < 256 ^ n → Elem n m (0x5C :: 0x78 :: (ds ++ r)) (number 16 hexNum ds) r

/-- elements up to the closing quote `t` -/
inductive Body (n m : Nat) (t : UInt8) : Str → List Nat → Str → Prop
  | done (r) : Body n m t (t :: r) [] r
  | elem (s v s' vs r) : s.head? ≠ some t → Elem n m s v s' → Body n m t s' vs r → Body n m t s (v :: vs) r

/-- adjacent literals -/
inductive Lits (n m : Nat) (t : UInt8) (next : Str → Option Str) : Str → List Nat → Str → Prop
  | last (s vs r) : Body n m t s vs r → next r = none → Lits n m t next s vs r
  | more (s vs r s' vs' r') : Body n m t s vs r → next r = some s' → Lits n m t next s' vs' r' → Lits n m t next s (vs ++ vs') r'

/-- greatest character that may stand for itself -/
def plainMax (wide : Bool) : Nat := if wide then 127 else 255

/-- the number as `n` bytes, least significant first -/
def little (n v : Nat) : Str := (List.range n).map (fun i => UInt8.ofNat (v / 256 ^ i % 256))

/-- the number in two's complement of `k` bytes if `sg` -/
def asSigned (sg : Bool) (k v : Nat) : Int := if sg ∧ v ≥ 2 ^ (8 * k - 1) then (v : Int) - 2 ^ (8 * k) else v

/-- value of a constant of the characters `vs`: a wide one is a `wchar_t` (4-byte ones are kept in an `int`), a single one a `char`, several ones
an `int` of `W` bytes with the first character in the most significant place -/
def constValue (W wcs : Nat) (wide charSigned wideSigned : Bool) (vs : List Nat) : Int :=
  match vs with
  | [v] => if wide then (if wcs = 2 then asSigned wideSigned 2 v else asSigned true 4 v) else asSigned charSigned 1 v
  | vs => asSigned true W (vs.foldl (fun n d => n * 256 + d) 0)

/-! reading of an assembler line `db item,item,...` where an item is a decimal number or characters between double quotes -/

inductive Rd
  | start | str | num (v : Nat) | after
  deriving DecidableEq

def digit? (c : UInt8) : Option Nat := if 0x30 ≤ c ∧ c ≤ 0x39 then some (c.toNat - 0x30) else none

def readItems : Rd → Str → Option Str
  | .start, c :: s =>
    if c = 0x22 then readItems .str s
    else match digit? c with
      | some d => readItems (.num d) s
      | none => none
  | .str, c :: s =>
    if c = 0x22 then readItems .after s
    else (readItems .str s).map (c :: ·)
  | .num v, c :: s =>
    match digit? c with
    | some d => readItems (.num (v * 10 + d)) s
    | none =>
      if v ≥ 256 then none
      else if c = 0x2C then (readItems .start s).map (UInt8.ofNat v :: ·)
      else if c = 0x0A ∧ s = [] then some [UInt8.ofNat v]
      else none
  | .after, c :: s =>
    if c = 0x2C then readItems .start s
    else if c = 0x0A ∧ s = [] then some []
    else none
  | _, [] => none

/-- a line of assembler text that is empty or a `db` directive -/
def readDb (s : Str) : Option Str :=
  match s with
  | [] => some []
  | 0x09 :: 0x64 :: 0x62 :: 0x09 :: s => readItems .start s
  | _ => none

end Smlr.Lit
