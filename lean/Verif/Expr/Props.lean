import Verif.Expr.Sim3
import Verif.Expr.Fold
set_option autoImplicit false
/-! C23: constant expressions are folded to the value that the target would compute. -/
namespace Smlr.Expr
open Spec

/-- An expression without a value contains a division that is warned about. -/
theorem value_none_diag (W : Nat) (cs : Bool) (k : K) : k.value W cs = none → Warn.div ∈ k.diag W cs := by
  induction k with
  | lit u n => intro h; cases h
  | enum s n => intro h; cases h
  | cast t k ih => intro h; simp only [K.value, Option.map_eq_none_iff] at h; exact ih h
  | sizeof k ih => intro h; cases h
  | un op k ih => intro h; simp only [K.value, Option.map_eq_none_iff] at h; exact ih h
  | bin op l r ihl ihr =>
    intro h
    simp only [K.diag, List.mem_append]
    cases hl : l.value W cs with
    | none => exact Or.inl (Or.inr (ihl hl))
    | some a =>
      cases hr : r.value W cs with
      | none => exact Or.inl (Or.inl (ihr hr))
      | some b =>
        right
        simp only [K.value, hl, hr] at h
        cases op <;> simp_all [binVal, binDiag]
  | rel op l r ihl ihr =>
    intro h
    simp only [K.diag, List.mem_append]
    cases hl : l.value W cs with
    | none => exact Or.inr (ihl hl)
    | some a =>
      cases hr : r.value W cs with
      | none => exact Or.inl (ihr hr)
      | some b => simp [K.value, hl, hr] at h
  | land l r ihl ihr =>
    intro h
    simp only [K.diag, List.mem_append]
    cases hl : l.value W cs with
    | none => exact Or.inr (ihl hl)
    | some a =>
      cases hr : r.value W cs with
      | none => exact Or.inl (ihr hr)
      | some b => simp only [K.value, hl, hr] at h; split at h <;> simp at h
  | lor l r ihl ihr =>
    intro h
    simp only [K.diag, List.mem_append]
    cases hl : l.value W cs with
    | none => exact Or.inr (ihl hl)
    | some a =>
      cases hr : r.value W cs with
      | none => exact Or.inl (ihr hr)
      | some b => simp only [K.value, hl, hr] at h; split at h <;> simp at h
  | cond k m r ihk ihm ihr =>
    intro h
    simp only [K.diag, List.mem_append]
    cases hl : k.value W cs with
    | none => exact Or.inr (ihk hl)
    | some a =>
      simp only [K.value, hl] at h
      split at h
      · exact Or.inl (Or.inl (ihm h))
      · exact Or.inl (Or.inr (ihr h))
  | comma l r ihl ihr =>
    intro h
    simp only [K.diag, List.mem_append]
    cases hl : l.value W cs with
    | none => exact Or.inr (ihl hl)
    | some a => simp only [K.value, hl] at h; exact Or.inl (ihr h)

/-- **C23.**  Processing a constant expression that the parser has left on the stack, between any `A` and `B`, for 16- and for 32-bit words: unless the stack overflows, the type is the one
that C gives, exactly the warnings of `K.diag` appear, and if the expression has a value, it is found: it is reported as constant, its low `8 * W` bits are the value, and the whole
expression has been replaced by one number; if it has no value, it is not reported as constant and the division has been diagnosed. -/
theorem c23_fold (c : Cfg) (hW : c.W = 2 ∨ c.W = 4) (nm : IT → V) (hnm : ∀ t, c.env (nm t) = some (.cast t.toTy)) (k : K) (hk : k.OK c)
    (fuel : Nat) (hf : (k.toE nm).depth ≤ fuel) (A B : List (Tok × V)) (lab : Nat) (ws : List Warn) :
    exprval c fuel (A.length + (k.toE nm).post.length - 1) ⟨A ++ (k.toE nm).post ++ B, lab, ws⟩ = .error .long ∨
    ∃ s const stk lab',
      exprval c fuel (A.length + (k.toE nm).post.length - 1) ⟨A ++ (k.toE nm).post ++ B, lab, ws⟩ =
        .ok (⟨s, k.typeOf.toTy, const, A.length - 1⟩, ⟨stk, lab', ws ++ k.diag c.W c.charSigned⟩) ∧
      (∀ v, k.value c.W c.charSigned = some v →
        const = true ∧ s.setWidth (8 * c.W) = v ∧ stk = A ++ [(if k.typeOf = .uint then .numUint else .numInt, s)] ++ B) ∧
      (k.value c.W c.charSigned = none → const = false ∧ Warn.div ∈ k.diag c.W c.charSigned) := by
  rcases exprval_ev (k.toE nm) (toE_wf hnm k hk) fuel hf A B lab ws with h | h
  · exact Or.inl h
  · obtain ⟨r, lab', h1, h2, -⟩ := ev_fold hW hnm k hk ⟨lab, ws⟩
    right
    rw [h, h1]
    refine ⟨r.s, r.const, A ++ r.t.post ++ B, lab', ?_, ?_, ?_⟩
    · rw [← h2.ty]; rfl
    · intro v hv
      obtain ⟨a, b⟩ := ow_some (h2.val.trans hv)
      refine ⟨a, b, ?_⟩
      rw [h2.tree a]
      by_cases hu : k.typeOf = .uint <;> simp [hu, T.post, numTok]
    · intro hv
      exact ⟨ow_none (h2.val.trans hv), value_none_diag _ _ _ hv⟩

/-! ### concrete cases, which also show that the stack does not overflow in them -/

section examples
deriving instance DecidableEq for Res, St

/-- type names are numbered in the order of `IT` -/
def exNm : IT → V
  | .char => 0#32 | .schar => 1#32 | .uchar => 2#32 | .short => 3#32 | .ushort => 4#32 | .int => 5#32 | .uint => 6#32

/-- the type names and one enumeration constant -/
def exCfg (W : Nat) : Cfg := ⟨W, true, fun n =>
  if n = 0#32 then some (.cast .char) else if n = 1#32 then some (.cast .schar) else if n = 2#32 then some (.cast .uchar) else if n = 3#32 then some (.cast .short)
  else if n = 4#32 then some (.cast .ushort) else if n = 5#32 then some (.cast .int) else if n = 6#32 then some (.cast .uint) else if n = 7#32 then some (.enumConst 0x12345#32) else none⟩

example : ∀ t, (exCfg 2).env (exNm t) = some (.cast t.toTy) := by intro t; cases t <;> rfl
example : ∀ t, (exCfg 4).env (exNm t) = some (.cast t.toTy) := by intro t; cases t <;> rfl

/-- `(signed char)200 / 3 >> 1 < E ? -(1 && E) : 1 / 0` with an enumeration constant `E` -/
def exK : K :=
  .cond (.rel .lt (.bin .shr (.bin .div (.cast .schar (.lit false 200#32)) (.lit false 3#32)) (.lit false 1#32)) (.enum 7#32 0x12345#32))
    (.un .neg (.land (.lit false 1#32) (.enum 7#32 0x12345#32))) (.bin .div (.lit false 1#32) (.lit false 0#32))

example : exK.OK (exCfg 2) ∧ exK.OK (exCfg 4) := by simp [exK, K.OK, exCfg]
example : exK.value 2 true = some 0xFFFF#16 := by decide
example : exK.value 4 true = some 0xFFFFFFFF#32 := by decide
example : exK.diag 4 true = [.div] := by decide

/-- with a number below and above it on the stack -/
example : (exprval (exCfg 2) 20 (1 + ((exK.toE exNm).post.length : Int) - 1) ⟨[(.numInt, 9#32)] ++ (exK.toE exNm).post ++ [(.numUint, 8#32)], 5, []⟩).toOption =
    some (⟨0xFFFFFFFF#32, .int, true, 0⟩, ⟨[(.numInt, 9#32), (.numInt, 0xFFFFFFFF#32), (.numUint, 8#32)], 8, [.div]⟩) := by decide +kernel

/-- `0x7FFF + 1 < 0` holds for 16-bit words only -/
example : (K.rel .lt (.bin .add (.lit false 0x7FFF#32) (.lit false 1#32)) (.lit false 0#32)).value 2 true = some 1#16 := by decide
example : (K.rel .lt (.bin .add (.lit false 0x7FFF#32) (.lit false 1#32)) (.lit false 0#32)).value 4 true = some 0#32 := by decide

/-- `-0x80000000 / -1` has no value and is not folded -/
example : (K.bin .div (.lit false 0x80000000#32) (.un .neg (.lit false 1#32))).value 4 true = none := by decide
example : exprval (exCfg 4) 20 3 ⟨((K.bin .div (.lit false 0x80000000#32) (.un .neg (.lit false 1#32))).toE exNm).post, 0, []⟩ =
    .ok (⟨0x80000000#32, .int, false, -1⟩, ⟨[(.numInt, 0x80000000#32), (.numInt, 0xFFFFFFFF#32), (.div, 0#32)], 0, [.div]⟩) := by rfl
end examples

end Smlr.Expr
