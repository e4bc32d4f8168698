import Verif.Parse.Spec
import Verif.Expr.Tree
set_option autoImplicit false
/-! The stack that the parser leaves (C24) is the one that `exprval` starts with (C23). -/
namespace Smlr.Trans
open Smlr.Expr (V)

/-- the tokens of the parser as those of `exprval`; `nm` is the name "(something<n>)" in the table of identifiers that stands for a type (smlrc.c:2736-2752).  Tokens that `exprval` is not modelled for are `goto`, which the parser never makes -/
def lx (nm : Nat → V) (p : Parse.Lx) : Expr.Tok × V :=
  match p.1 with
  | .numInt => (.numInt, BitVec.ofNat 32 p.2)
  | .numUint => (.numUint, BitVec.ofNat 32 p.2)
  | .ident => (.ident, BitVec.ofNat 32 p.2)
  | .castName => (.ident, nm p.2)
  | .sizeof => (.sizeof, 0#32)
  | .uAnd => (.addr, 0#32)
  | .uStar => (.star, 0#32)
  | .uPlus => (.uplus, 0#32)
  | .uMinus => (.neg, 0#32)
  | .tilde => (.not, 0#32)
  | .inc => (.inc, 0#32)
  | .dec => (.dec, 0#32)
  | .postInc => (.pinc, 0#32)
  | .postDec => (.pdec, 0#32)
  | .plus => (.plus, 0#32)
  | .minus => (.minus, 0#32)
  | .star => (.mul, 0#32)
  | .slash => (.div, 0#32)
  | .percent => (.mod, 0#32)
  | .shl => (.shl, 0#32)
  | .shr => (.shr, 0#32)
  | .amp => (.and, 0#32)
  | .xor => (.xor, 0#32)
  | .or => (.or, 0#32)
  | .lt => (.lt, 0#32)
  | .gt => (.gt, 0#32)
  | .le => (.le, 0#32)
  | .ge => (.ge, 0#32)
  | .eq => (.eq, 0#32)
  | .ne => (.ne, 0#32)
  | .land => (.land, 0#32)
  | .lor => (.lor, 0#32)
  | .quest => (.quest, 0#32)
  | .commaOp => (.comma, 0#32)
  | .assign => (.assign, 0#32)
  | .aMul => (.aMul, 0#32)
  | .aDiv => (.aDiv, 0#32)
  | .aMod => (.aMod, 0#32)
  | .aAdd => (.aAdd, 0#32)
  | .aSub => (.aSub, 0#32)
  | .aShl => (.aShl, 0#32)
  | .aShr => (.aShr, 0#32)
  | .aAnd => (.aAnd, 0#32)
  | .aXor => (.aXor, 0#32)
  | .aOr => (.aOr, 0#32)
  | _ => (.goto, 0#32)

def binE (op : Parse.Spec.BOp) (a b : Expr.E) : Expr.E :=
  match op with
  | .mul => .bin .mul a b
  | .div => .bin .div a b
  | .mod => .bin .mod a b
  | .add => .add .plus a b
  | .sub => .add .minus a b
  | .shl => .bin .shl a b
  | .shr => .bin .shr a b
  | .lt => .rel .lt a b
  | .gt => .rel .gt a b
  | .le => .rel .le a b
  | .ge => .rel .ge a b
  | .eq => .rel .eq a b
  | .ne => .rel .ne a b
  | .and => .bin .and a b
  | .xor => .bin .xor a b
  | .or => .bin .or a b
  | .land => .logic true a b
  | .lor => .logic false a b

def asgE (op : Parse.Spec.AOp) (a b : Expr.E) : Expr.E :=
  match op with
  | .set => .assign a b
  | .mul => .compound .aMul a b
  | .div => .compound .aDiv a b
  | .mod => .compound .aMod a b
  | .add => .compound .aAdd a b
  | .sub => .compound .aSub a b
  | .shl => .compound .aShl a b
  | .shr => .compound .aShr a b
  | .and => .compound .aAnd a b
  | .xor => .compound .aXor a b
  | .or => .compound .aOr a b

def unE (op : Parse.Spec.UOp) (a : Expr.E) : Expr.E :=
  match op with
  | .addr => .addr a
  | .deref => .deref a
  | .plus => .un .uplus a
  | .minus => .un .neg a
  | .compl => .un .not a
  | .lnot => .rel .eq a (.num false 0#32)

/-- C expressions (C99 6.5) without calls, structures, floating-point numbers and strings: `a[i]` means `*(a + i)`, `!a` means `a == 0` -/
def toE (nm : Nat → V) : Parse.Spec.Ex → Option Expr.E
  | .lit .int v => some (.num false (BitVec.ofNat 32 v))
  | .lit .uint v => some (.num true (BitVec.ofNat 32 v))
  | .id v => some (.id (BitVec.ofNat 32 v))
  | .index a i => (toE nm a).bind fun x => (toE nm i).bind fun y => some (.deref (.add .plus x y))
  | .postfix dec a => (toE nm a).bind fun x => some (.inc (if dec then .pdec else .pinc) x)
  | .pre dec a => (toE nm a).bind fun x => some (.inc (if dec then .dec else .inc) x)
  | .un op a => (toE nm a).bind fun x => some (unE op x)
  | .sizeofExpr a => (toE nm a).bind fun x => some (.sizeof x)
  | .cast t a => (toE nm a).bind fun x => some (.cast (nm t) x)
  | .bin op a b => (toE nm a).bind fun x => (toE nm b).bind fun y => some (binE op x y)
  | .cond a b d => (toE nm a).bind fun x => (toE nm b).bind fun y => (toE nm d).bind fun z => some (.cond x y z)
  | .assign op a b => (toE nm a).bind fun x => (toE nm b).bind fun y => some (asgE op x y)
  | .comma a b => (toE nm a).bind fun x => (toE nm b).bind fun y => some (.comma x y)
  | _ => none

theorem toE_post (nm : Nat → V) : ∀ (e : Parse.Spec.Ex) (t : Expr.E), toE nm e = some t → e.post.map (lx nm) = t.post := by
  intro e
  induction e with
  | lit k v => intro t h; cases k <;> first | (cases h; rfl) | cases h
  | id v => intro t h; cases h; rfl
  | index a i iha ihi =>
    intro t h
    obtain ⟨x, hx, h⟩ := Option.bind_eq_some_iff.mp h
    obtain ⟨y, hy, h⟩ := Option.bind_eq_some_iff.mp h
    cases h
    simp only [Parse.Spec.Ex.post, List.map_append, iha x hx, ihi y hy, Expr.E.post, List.append_assoc]
    rfl
  | «postfix» dec a ih =>
    intro t h
    obtain ⟨x, hx, h⟩ := Option.bind_eq_some_iff.mp h
    cases h
    simp only [Parse.Spec.Ex.post, List.map_append, ih x hx, Expr.E.post]
    cases dec <;> rfl
  | pre dec a ih =>
    intro t h
    obtain ⟨x, hx, h⟩ := Option.bind_eq_some_iff.mp h
    cases h
    simp only [Parse.Spec.Ex.post, List.map_append, ih x hx, Expr.E.post]
    cases dec <;> rfl
  | un op a ih =>
    intro t h
    obtain ⟨x, hx, h⟩ := Option.bind_eq_some_iff.mp h
    cases h
    simp only [Parse.Spec.Ex.post, List.map_append, ih x hx]
    cases op <;> simp [unE, Expr.E.post, Parse.Spec.UOp.post, lx, Expr.numTok]
  | sizeofExpr a ih =>
    intro t h
    obtain ⟨x, hx, h⟩ := Option.bind_eq_some_iff.mp h
    cases h
    simp only [Parse.Spec.Ex.post, List.map_append, ih x hx, Expr.E.post]
    rfl
  | cast n a ih =>
    intro t h
    obtain ⟨x, hx, h⟩ := Option.bind_eq_some_iff.mp h
    cases h
    simp only [Parse.Spec.Ex.post, List.map_append, ih x hx, Expr.E.post]
    rfl
  | bin op a b iha ihb =>
    intro t h
    obtain ⟨x, hx, h⟩ := Option.bind_eq_some_iff.mp h
    obtain ⟨y, hy, h⟩ := Option.bind_eq_some_iff.mp h
    cases h
    simp only [Parse.Spec.Ex.post, List.map_append, iha x hx, ihb y hy]
    cases op <;> rfl
  | cond a b d iha ihb ihd =>
    intro t h
    obtain ⟨x, hx, h⟩ := Option.bind_eq_some_iff.mp h
    obtain ⟨y, hy, h⟩ := Option.bind_eq_some_iff.mp h
    obtain ⟨z, hz, h⟩ := Option.bind_eq_some_iff.mp h
    cases h
    simp only [Parse.Spec.Ex.post, List.map_append, iha x hx, ihb y hy, ihd z hz, Expr.E.post]
    rfl
  | assign op a b iha ihb =>
    intro t h
    obtain ⟨x, hx, h⟩ := Option.bind_eq_some_iff.mp h
    obtain ⟨y, hy, h⟩ := Option.bind_eq_some_iff.mp h
    cases h
    simp only [Parse.Spec.Ex.post, List.map_append, iha x hx, ihb y hy]
    cases op <;> rfl
  | comma a b iha ihb =>
    intro t h
    obtain ⟨x, hx, h⟩ := Option.bind_eq_some_iff.mp h
    obtain ⟨y, hy, h⟩ := Option.bind_eq_some_iff.mp h
    cases h
    simp only [Parse.Spec.Ex.post, List.map_append, iha x hx, ihb y hy, Expr.E.post]
    rfl
  | _ => intro t h; cases h

end Smlr.Trans
