import Verif.Trans.Laws
import Verif.Trans.Spec
import Verif.Expr.Arith
set_option autoImplicit false
/-! The trees that `exprval` makes, as the code generator sees them. -/
namespace Smlr.Trans
open Smlr.Expr (Ty Sym Cfg V)

def cgUn : Expr.Tok → Option Cg.Un
  | .uplus => some .plus
  | .not => some .not
  | .neg => some .neg
  | .bool => some .bool
  | .uchar => some .uchar
  | .schar => some .schar
  | .short => some .short
  | .ushort => some .ushort
  | _ => none

def cgInc : Expr.Tok → Option Cg.IncK
  | .inc => some .inc
  | .dec => some .dec
  | .pinc => some .pinc
  | .pdec => some .pdec
  | _ => none

def cgBin : Expr.Tok → Option Cg.Ar
  | .plus => some .add
  | .minus => some .sub
  | .mul => some .mul
  | .div => some .div
  | .mod => some .mod
  | .udiv => some .udiv
  | .umod => some .umod
  | .shl => some .shl
  | .shr => some .sar
  | .ushr => some .shr
  | .and => some .band
  | .xor => some .xor
  | .or => some .bor
  | _ => none

def cgCmp : Expr.Tok → Option Cg.Cc
  | .lt => some .lt
  | .gt => some .gt
  | .le => some .le
  | .ge => some .ge
  | .eq => some .eq
  | .ne => some .ne
  | .ult => some .ult
  | .ugt => some .ugt
  | .ule => some .ule
  | .uge => some .uge
  | _ => none

def cgAsg : Expr.Tok → Option Cg.Ar
  | .aAdd => some .add
  | .aSub => some .sub
  | .aMul => some .mul
  | .aDiv => some .div
  | .aMod => some .mod
  | .aUDiv => some .udiv
  | .aUMod => some .umod
  | .aShl => some .shl
  | .aShr => some .sar
  | .aUShr => some .shr
  | .aAnd => some .band
  | .aXor => some .xor
  | .aOr => some .bor
  | _ => none

/-- a unary operator -/
def mkUn (tok : Expr.Tok) (v : V) (x : Cg.E) : Option Cg.E :=
  if tok = .star then some (.deref v.toInt x)
  else match cgUn tok with
    | some u => some (.un u x)
    | none => (cgInc tok).map fun k => .inc k v.toInt x

/-- a binary operator -/
def mkBin (tok : Expr.Tok) (v : V) (l r : Cg.E) : Option Cg.E :=
  if tok = .assign then some (.asg v.toInt l r)
  else if tok = .padd ∨ tok = .psub then
    match r with
    | .num n => some (.padd (tok = .psub) v.toInt n l)
    | _ => none
  else match cgBin tok with
    | some o => some (.bin o l r)
    | none => match cgCmp tok with
      | some o => some (.cmp o l r)
      | none => (cgAsg tok).map fun o => .asgo o v.toInt l r

def mkLogic (isAnd : Bool) (sc : Nat) (l r : Cg.E) : Option Cg.E := if sc < 2 ^ 31 then some (if isAnd then .land sc l r else .lor sc l r) else none
def mkCond (sc : Nat) (c m r : Cg.E) : Option Cg.E := if sc + 1 < 2 ^ 31 then some (.cond sc c m r) else none

def cg : Expr.T → Option Cg.E
  | .num _ v => some (.num v.toInt)
  | .ident s => some (.glob s.toInt)
  | .localOfs o => some (.loc o.toInt)
  | .un tok v t => (cg t).bind (mkUn tok v)
  | .bin tok v l r => (cg l).bind fun a => (cg r).bind fun b => mkBin tok v a b
  | .logic isAnd sc l r => (cg l).bind fun a => (cg r).bind fun b => mkLogic isAnd sc a b
  | .comma l r => (cg l).bind fun a => (cg r).bind fun b => some (.comma a b)
  | .cond sc c m r => (cg c).bind fun a => (cg m).bind fun b => (cg r).bind fun d => mkCond sc a b d

theorem tk_un {tok : Expr.Tok} {u : Cg.Un} (v : V) (h : cgUn tok = some u) : tk (tok, v) = (u.tok, 0) := by
  cases tok <;> first | (cases h; done) | (cases h; rfl)
theorem tk_inc {tok : Expr.Tok} {u : Cg.IncK} (v : V) (h : cgInc tok = some u) : tk (tok, v) = (u.tok, v.toInt) := by
  cases tok <;> first | (cases h; done) | (cases h; rfl)
theorem tk_bin {tok : Expr.Tok} {u : Cg.Ar} (v : V) (h : cgBin tok = some u) : tk (tok, v) = (.ar u, 0) := by
  cases tok <;> first | (cases h; done) | (cases h; rfl)
theorem tk_cmp {tok : Expr.Tok} {u : Cg.Cc} (v : V) (h : cgCmp tok = some u) : tk (tok, v) = (.cmp u, 0) := by
  cases tok <;> first | (cases h; done) | (cases h; rfl)
theorem tk_asg {tok : Expr.Tok} {u : Cg.Ar} (v : V) (h : cgAsg tok = some u) : tk (tok, v) = (.asgo u, v.toInt) := by
  cases tok <;> first | (cases h; done) | (cases h; rfl)

theorem lab_int {sc : Nat} (h : sc < 2 ^ 31) : (BitVec.ofNat 32 sc).toInt = sc := by
  have : (BitVec.ofNat 32 sc).toNat = sc := by rw [BitVec.toNat_ofNat]; exact Nat.mod_eq_of_lt (by omega)
  rw [BitVec.toInt_eq_toNat_of_lt (by omega), this]
theorem lab_neg {sc : Nat} (h : sc < 2 ^ 31) : (- BitVec.ofNat 32 sc).toInt = - (sc : Int) := by
  rw [BitVec.toInt_neg, lab_int h]; exact Int.bmod_eq_of_le (by omega) (by omega)

theorem mkUn_toks {tok : Expr.Tok} {v : V} {x y : Cg.E} (h : mkUn tok v x = some y) : Cg.toks y = Cg.toks x ++ [tk (tok, v)] := by
  unfold mkUn at h
  split at h
  · rename_i e; subst e; cases h; rfl
  · split at h
    · rename_i u e; cases h; rw [tk_un v e]; rfl
    · cases e : cgInc tok with
      | none => rw [e] at h; cases h
      | some k => rw [e] at h; cases h; rw [tk_inc v e]; rfl

theorem mkBin_toks {tok : Expr.Tok} {v : V} {l r y : Cg.E} (h : mkBin tok v l r = some y) : Cg.toks y = Cg.toks l ++ Cg.toks r ++ [tk (tok, v)] := by
  unfold mkBin at h
  split at h
  · rename_i e; subst e; cases h; rfl
  · split at h
    · rename_i e
      split at h
      · cases h
        rcases e with rfl | rfl <;> simp [Cg.toks, tk]
      · cases h
    · split at h
      · rename_i u e; cases h; rw [tk_bin v e]; rfl
      · split at h
        · rename_i u e; cases h; rw [tk_cmp v e]; rfl
        · cases e : cgAsg tok with
          | none => rw [e] at h; cases h
          | some k => rw [e] at h; cases h; rw [tk_asg v e]; rfl

/-- the stack is that of the tree -/
theorem cg_toks : ∀ (t : Expr.T) (x : Cg.E), cg t = some x → t.post.map tk = Cg.toks x := by
  intro t
  induction t with
  | num u v => intro x h; cases h; cases u <;> rfl
  | ident s => intro x h; cases h; rfl
  | localOfs o => intro x h; cases h; rfl
  | un tok v t ih =>
    intro x h
    obtain ⟨a, h1, h2⟩ := Option.bind_eq_some_iff.mp h
    rw [mkUn_toks h2, ← ih a h1]; simp [Expr.T.post]
  | bin tok v l r ihl ihr =>
    intro x h
    obtain ⟨a, h1, h⟩ := Option.bind_eq_some_iff.mp h
    obtain ⟨b, h2, h⟩ := Option.bind_eq_some_iff.mp h
    rw [mkBin_toks h, ← ihl a h1, ← ihr b h2]; simp [Expr.T.post]
  | logic isAnd sc l r ihl ihr =>
    intro x h
    obtain ⟨a, h1, h⟩ := Option.bind_eq_some_iff.mp h
    obtain ⟨b, h2, h⟩ := Option.bind_eq_some_iff.mp h
    unfold mkLogic at h
    split at h
    · rename_i hs
      cases h
      cases isAnd <;> simp [Expr.T.post, Cg.toks, ← ihl a h1, ← ihr b h2, tk, Expr.scVal, Expr.logTok, lab_int hs, lab_neg hs]
    · cases h
  | comma l r ihl ihr =>
    intro x h
    obtain ⟨a, h1, h⟩ := Option.bind_eq_some_iff.mp h
    obtain ⟨b, h2, h⟩ := Option.bind_eq_some_iff.mp h
    cases h
    simp [Expr.T.post, Cg.toks, ← ihl a h1, ← ihr b h2, tk, unTok]
  | cond sc c m r ihc ihm ihr =>
    intro x h
    obtain ⟨a, h1, h⟩ := Option.bind_eq_some_iff.mp h
    obtain ⟨b, h2, h⟩ := Option.bind_eq_some_iff.mp h
    obtain ⟨d, h3, h⟩ := Option.bind_eq_some_iff.mp h
    unfold mkCond at h
    split at h
    · rename_i hs
      cases h
      have h0 : sc < 2 ^ 31 := by omega
      have hn := lab_int hs
      simp [Expr.T.post, Cg.toks, ← ihc a h1, ← ihm b h2, ← ihr d h3, tk, lab_int h0, lab_neg h0]
      exact hn
    · cases h

/-! ### words -/

variable {W : Nat} (hW : W = 2 ∨ W = 4)

theorem toInt_wd (hW : W = 2 ∨ W = 4) (v : V) : Cg.wd W v.toInt = Expr.wd W v := by
  have h := Expr.wd_ofInt hW v.toInt
  rw [BitVec.ofInt_toInt] at h
  exact h.symm

theorem ofInt_wd (hW : W = 2 ∨ W = 4) (z : Int) : Cg.wd W (BitVec.ofInt 32 z).toInt = Cg.wd W z := by
  rw [toInt_wd hW, Expr.wd_ofInt hW]

/-- adding a number to an address, where there is one already -/
theorem absorb_ref (hW : W = 2 ∨ W = 4) (d : V) : ∀ (t t' : Expr.T) (x : Cg.E), cg t = some x → t.absorb d = some t' → x.ok W →
    ∃ x', cg t' = some x' ∧ x'.ok W ∧ ∀ V : Cg.Env W, Ref V x' (.bin .add x (.num d.toInt)) := by
  intro t
  induction t with
  | num u v =>
    intro t' x h h' ok
    cases h; cases h'
    refine ⟨_, rfl, trivial, fun V => ref_fold_bin .add (.refl _) (.refl _) fun z hz => ?_⟩
    obtain ⟨z', h1, h2⟩ := arith_add (Cg.wd W v.toInt) (Cg.wd W d.toInt)
    rw [h1] at hz; cases hz
    rw [h2, toInt_wd hW, toInt_wd hW, toInt_wd hW, Expr.wd_add hW]
  | localOfs o =>
    intro t' x h h' ok
    cases h; cases h'
    exact ⟨_, rfl, trivial, fun V => ref_loc_add _ _ _ (by rw [toInt_wd hW, toInt_wd hW, toInt_wd hW, Expr.wd_add hW])⟩
  | un tok v t ih =>
    intro t' x h h' ok
    simp only [Expr.T.absorb] at h'
    split at h'
    · rename_i e
      subst e
      obtain ⟨a, h1, h2⟩ := Option.bind_eq_some_iff.mp h
      obtain ⟨t1, h3, h4⟩ := Option.map_eq_some_iff.mp h'
      subst h4
      cases h2
      obtain ⟨x', k1, k2, k3⟩ := ih t1 a h1 h3 ok.2
      refine ⟨.un .plus x', by simp only [cg, k1]; rfl, ⟨by simp, k2⟩, fun V => (plus_ref (k3 V)).trans (ref_bin _ (ref_plus (.refl _)) (.refl _))⟩
    · cases h'
  | bin tok v l r _ ih =>
    intro t' x h h' ok
    simp only [Expr.T.absorb] at h'
    split at h'
    · rename_i e
      subst e
      obtain ⟨a, h1, h⟩ := Option.bind_eq_some_iff.mp h
      obtain ⟨b, h2, h⟩ := Option.bind_eq_some_iff.mp h
      obtain ⟨t1, h3, h4⟩ := Option.map_eq_some_iff.mp h'
      subst h4
      cases h
      obtain ⟨x', k1, k2, k3⟩ := ih t1 b h2 h3 ok.2
      refine ⟨.bin .add a x', by simp only [cg, h1, k1]; rfl, ⟨ok.1, k2⟩, fun V => (ref_bin .add (.refl _) (k3 V)).trans (ref_assoc _ _ _)⟩
    · cases h'
  | _ => intro t' x h h' ok; cases h'

end Smlr.Trans
