set_option autoImplicit false
/-! Model of the placement of structure and union members (smlrc.c:6343-6495, 6948-6995, 8113-8168, 2192-2197).

`W` is `SizeOfWord`, 2 or 4; the host's `unsigned` has 32 bits.  A type is a tree instead of a stretch of the syntax stack;
a structure type stands for its declaration, which the code lays out when it meets it.  `ExprLevel` is 0 (a structure
declared inside `sizeof` may have members of incomplete type, taken to have size 0). -/
namespace Smlr.Layout

inductive Err
  | varSize | decl
  deriving DecidableEq

mutual
inductive Ty
  | char
  | short
  /-- `int`, `unsigned`, `float`, pointers -/
  | word
  | void
  /-- a structure that is not (yet) declared -/
  | incomplete
  | arr (n : Nat) (t : Ty)
  | su (union : Bool) (ms : Members)
/-- members with the value of `#pragma pack` at each -/
inductive Members
  | nil
  | cons (pack : Nat) (t : Ty) (ms : Members)
end

/-- host `unsigned` -/
def u32 (n : Nat) : Nat := n % 2 ^ 32

/-- `truncUint`, smlrc.c:686-697 -/
def truncUint (W n : Nat) : Nat := if W = 2 then n &&& 0xFFFF else n &&& 0xFFFFFFFF

mutual
/-- `GetDeclAlignment`, smlrc.c:6440-6495 -/
def align (W : Nat) : Ty → Nat
  | .char => 1
  | .short => 2
  | .word => W
  | .void => 1
  | .incomplete => 1
  | .arr _ t => align W t
  | .su _ ms => alignMs W ms 1
/-- `structInfo[1]`, smlrc.c:8134-8142 -/
def alignMs (W : Nat) : Members → Nat → Nat
  | .nil, al => al
  | .cons pack t ms, al =>
    let na := if align W t > pack then pack else align W t
    alignMs W ms (if al < na then na else al)
end

/-- `(x + a - 1) & ~(a - 1)` in `unsigned`, smlrc.c:6986, 8145 -/
def alignUp (x a : Nat) : Nat := u32 (x + a - 1) &&& (2 ^ 32 - a)

/-- multiplication by a size with its two checks, smlrc.c:6373-6379, 6388-6394, 6398-6405, 6418-6423 -/
def mulSize (W size s : Nat) : Except Err Nat :=
  if s ≠ 0 ∧ u32 (size * s) / s ≠ size then .error .varSize
  else if u32 (size * s) ≠ truncUint W (u32 (size * s)) then .error .varSize
  else .ok (u32 (size * s))

/-- `structInfo`: alignment, offset, greatest member size -/
structure St where
  al : Nat
  off : Nat
  mx : Nat

/-- smlrc.c:6983-6989: the size of the structure or union -/
def total (W : Nat) (s : St) : Except Err Nat :=
  let sz := u32 (s.off + s.mx)
  let r := alignUp sz s.al
  if r < sz ∨ r ≠ truncUint W r then .error .varSize else .ok r

mutual
/-- `GetDeclSize(…, 0)`, smlrc.c:6343-6437; `size` is the product of the array dimensions so far -/
def declSize (W : Nat) : Ty → Nat → Except Err Nat
  | .char, size => .ok size
  | .short, size => mulSize W size 2
  | .word, size => mulSize W size W
  | .void, _ => .ok 0
  | .incomplete, _ => .ok 0
  | .arr n t, size => match mulSize W size n with
    | .error e => .error e
    | .ok size => declSize W t size
  | .su u ms, size => match members W u ms { al := 1, off := 0, mx := 0 } with
    | .error e => .error e
    | .ok (s, _) => match total W s with
      | .error e => .error e
      | .ok sz => mulSize W size sz
/-- the members one after the other, smlrc.c:8117-8168: new `structInfo` and the offsets -/
def members (W : Nat) (u : Bool) : Members → St → Except Err (St × List Nat)
  | .nil, s => .ok (s, [])
  | .cons pack t ms, s =>
    match declSize W t 1 with
    | .error e => .error e
    | .ok sz =>
      if sz = 0 then .error .decl
      else
        let na := if align W t > pack then pack else align W t
        let al := if s.al < na then na else s.al
        let off := alignUp s.off na
        if off < s.off ∨ off ≠ truncUint W off then .error .varSize
        else if u = false then
          if u32 (off + sz) < off ∨ u32 (off + sz) ≠ truncUint W (u32 (off + sz)) then .error .varSize
          else match members W u ms { al := al, off := u32 (off + sz), mx := s.mx } with
            | .error e => .error e
            | .ok (s, os) => .ok (s, off :: os)
        else
          match members W u ms { al := al, off := off, mx := if s.mx < sz then sz else s.mx } with
          | .error e => .error e
          | .ok (s, os) => .ok (s, off :: os)
end

/-- a declaration of a structure or union, smlrc.c:6948-6989: size, alignment, offsets of the members.  Without members it
is refused (smlrc.c:6974) -/
def layout (W : Nat) (u : Bool) (ms : Members) : Except Err (Nat × Nat × List Nat) :=
  match members W u ms { al := 1, off := 0, mx := 0 } with
  | .error e => .error e
  | .ok (s, os) =>
    if os = [] then .error .decl
    else match total W s with
      | .error e => .error e
      | .ok sz => .ok (sz, s.al, os)

end Smlr.Layout
