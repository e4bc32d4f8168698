import Verif.Init.Model

/-!
# Initialisers, what they mean (C99 6.7.8)

An initialiser is a tree: expressions, string literals and braced lists.
`sub` says what a list of initialisers means for a subobject at a given offset: which bytes are placed where, and which initialisers of the list are left for the objects that follow.
A braced list belongs to one object and must be used up by it; without braces an aggregate takes only as many initialisers as it has members.
Bytes that nothing is placed on are zero.
-/
set_option autoImplicit false

namespace Smlr.Init

inductive Ini where
  | ex (l : Option Bool) (v : V)
  /-- adjacent string literals -/
  | lit (wide : Bool) (p : List Nat) (ps : List (List Nat))
  | br (l : List Ini) (trail : Bool)

/-- a trailing comma -/
def tcs (tc : Bool) : List Tok := if tc then [.comma] else []

mutual
/-- how an initialiser is written -/
def flat : Ini → List Tok
  | .ex l v => [.ex l v]
  | .lit w p ps => .lit w p :: ps.map (.lit w)
  | .br l tc => .lb :: (flatL l ++ (tcs tc ++ [.rb]))
/-- a list of initialisers with commas between -/
def flatL : List Ini → List Tok
  | [] => []
  | [i] => flat i
  | i :: j :: r => flat i ++ .comma :: flatL (j :: r)
end

/-- an offset and the bytes there -/
abbrev Pl := List (Nat × List Cell)

/-- byte `i` of a number, the lowest first -/
def byteOf (z : Int) (i : Nat) : Cell := .b ((z / 256 ^ i) % 256).toNat

/-- a number as `n` bytes -/
def bytesOf (n : Nat) (z : Int) : List Cell := (List.range n).map (byteOf z)

/-- the bytes of a scalar; an address needs a word -/
def scalarBytes (W n : Nat) : V → Option (List Cell)
  | .int z => some (bytesOf n z)
  | .addr s z => if n = W then some ((List.range W).map (Cell.a s z)) else none

/-- the value of an initialiser of a scalar.  The language also allows a comma before the closing brace (6.7.8p1), which the compiler refuses here: `c38_comma_defect`. -/
def scalarOf : Ini → Option V
  | .ex _ v => some v
  | .lit w p ps => some (.addr (.str w (p ++ ps.flatten)) 0)
  | .br [.ex _ v] false => some v
  | .br [.lit w p ps] false => some (.addr (.str w (p ++ ps.flatten)) 0)
  | _ => none

/-- the characters, if an initialiser is a string literal for an array of the kind `k`; again without a comma before the closing brace -/
def strOf (k : Option Bool) : Ini → Option (List Nat)
  | .lit w p ps => if k = some w then some (p ++ ps.flatten) else none
  | .br [.lit w p ps] false => if k = some w then some (p ++ ps.flatten) else none
  | _ => none

/-- a braced list that begins with a string literal -/
def begins (k : Option Bool) : Ini → Bool
  | .br (.lit w _ _ :: _) _ => k == some w
  | _ => false

/-- the characters of a string, one element each -/
def chars (sz : Nat) : Nat → List Nat → Pl
  | _, [] => []
  | o, c :: s => (o, bytesOf sz c) :: chars sz (o + sz) s

/-- at most `k` elements of `sz` bytes from the offset on -/
def fill (f : Nat → List Ini → Option (Pl × List Ini)) (sz : Nat) : Nat → Nat → List Ini → Option (Pl × List Ini)
  | 0, _, l => some ([], l)
  | _ + 1, _, [] => some ([], [])
  | k + 1, o, i :: l =>
    (f o (i :: l)).bind fun a => (fill f sz k (o + sz) a.2).bind fun b => some (a.1 ++ b.1, b.2)

/-- a braced list is for one object and must be used up -/
def whole (a : Option (Pl × List Ini)) (r : List Ini) : Option (Pl × List Ini) :=
  match a with
  | some (pl, []) => some (pl, r)
  | _ => none

/-- an aggregate: `g` initialises its members from a list -/
def aggr (g : List Ini → Option (Pl × List Ini)) : List Ini → Option (Pl × List Ini)
  | [] => none
  | .br [] _ :: _ => none
  | .br l _ :: r => whole (g l) r
  | l => g l

/-- an array: a string, or an aggregate; a list for an array of characters does not begin with a string literal, as no character can be initialised with one -/
def arrOf (f : Nat → List Ini → Option (Pl × List Ini)) (n sz : Nat) (k : Option Bool) (o : Nat) : List Ini → Option (Pl × List Ini)
  | [] => none
  | i :: r =>
    match strOf k i with
    | some s => if s.length ≤ n then some (chars sz o s, r) else none
    | none => if begins k i then none else aggr (fill f sz n o) (i :: r)

mutual
/-- what initialisers mean for an object of the type at the offset `o` -/
def sub (W : Nat) : Ty → Nat → List Ini → Option (Pl × List Ini)
  | .sc n _, o, l =>
    match l with
    | [] => none
    | i :: r => (scalarOf i).bind fun v => (scalarBytes W n v).bind fun c => some ([(o, c)], r)
  | .arr n t, o, l => arrOf (fun o l => sub W t o l) n (size t) (kind t) o l
  | .su u _ ms, o, l => aggr (fun l => subs W u ms o l) l

/-- the members of a structure in order; of a union, the first one -/
def subs (W : Nat) (u : Bool) : Mems → Nat → List Ini → Option (Pl × List Ini)
  | .nil, _, l => some ([], l)
  | .cons m t ms, o, l =>
    match l with
    | [] => some ([], [])
    | i :: l =>
      (sub W t (o + m) (i :: l)).bind fun a =>
        if u then some a
        else (subs W u ms o a.2).bind fun b => some (a.1 ++ b.1, b.2)
end

/-- the byte at a place -/
def cellAt : Pl → Nat → Cell
  | [], _ => .b 0
  | p :: pl, i => if p.1 ≤ i ∧ i < p.1 + p.2.length then p.2.getD (i - p.1) (.b 0) else cellAt pl i

/-- the bytes of an object of `n` bytes -/
def img (o n : Nat) (pl : Pl) : List Cell := (List.range n).map fun i => cellAt pl (o + i)

/-- The initialiser `i` is for an object of type `t`, which it completes to `t'`, and places `pl`.
An array without a number of elements gets one from a string with its terminating zero, or else the least number of elements that takes all initialisers. -/
inductive Means (W : Nat) : Ty → Ini → Ty → Pl → Prop
  | known {t i pl} : size t ≠ 0 → sub W t 0 [i] = some (pl, []) → Means W t i t pl
  | string {e i s} : strOf (kind e) i = some s → Means W (.arr 0 e) i (.arr (s.length + 1) e) (chars (size e) 0 s)
  | list {e i n pl} : strOf (kind e) i = none → sub W (.arr (n + 1) e) 0 [i] = some (pl, []) → sub W (.arr n e) 0 [i] = none → Means W (.arr 0 e) i (.arr (n + 1) e) pl

def isBr : Ini → Bool
  | .br .. => true
  | _ => false

/-- an initialiser of an array or structure is braced, or is a string (6.7.8p13-16) -/
def topOk : Ty → Ini → Bool
  | .sc .., _ => true
  | .arr _ e, i => isBr i || (strOf (kind e) i).isSome
  | .su .., i => isBr i

mutual
/-- no expression begins with a string literal (such as `"abc"[1]`) -/
def plain : Ini → Bool
  | .ex l _ => l.isNone
  | .lit .. => true
  | .br l _ => plainL l
def plainL : List Ini → Bool
  | [] => true
  | i :: l => plain i && plainL l
end

mutual
/-- types as declarations make them: nothing is empty, members are in order and inside -/
def WF : Ty → Prop
  | .sc n _ => n ≠ 0
  | .arr n t => n ≠ 0 ∧ WF t
  | .su u sz ms => ms ≠ .nil ∧ WFs u sz 0 ms
def WFs (u : Bool) (sz : Nat) : Nat → Mems → Prop
  | _, .nil => True
  | e, .cons o t ms => WF t ∧ (if u then o = 0 else e ≤ o) ∧ o + size t ≤ sz ∧ WFs u sz (o + size t) ms
end

/-- a variable may also be an array without a number of elements -/
def WFTop : Ty → Prop
  | .arr _ e => WF e
  | t => WF t

end Smlr.Init
