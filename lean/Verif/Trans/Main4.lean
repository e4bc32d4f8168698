import Verif.Trans.Main3
set_option autoImplicit false
/-! The outcome of `exprval`: multiplication, division, shifts, bitwise operators, comparisons, comma. -/
namespace Smlr.Trans
open Smlr.Expr (Ty Sym Cfg V bind_ok chk_ok failIf_ok)
variable {c : Cfg}

theorem tdiv_lt {M x y : Int} (h1 : -M ≤ x) (h2 : x < M) (hy : y ≠ 0) (hb : ¬ (x = -M ∧ y = -1)) : x.tdiv y < M := by
  have ha : (x.tdiv y).natAbs = x.natAbs / y.natAbs := Int.natAbs_tdiv x y
  by_cases k1 : y = 1
  · subst k1; rw [Int.tdiv_one]; exact h2
  · by_cases k2 : y = -1
    · subst k2; rw [Int.tdiv_neg, Int.tdiv_one]; omega
    · have : 2 ≤ y.natAbs := by omega
      have h3 : x.natAbs / y.natAbs ≤ x.natAbs / 2 := Nat.div_le_div_left this (by decide)
      omega

theorem wd_nat {W : Nat} (n : Nat) : Cg.wd W (n : Int) = BitVec.ofNat (8 * W) n := by
  unfold Cg.wd; rw [BitVec.ofInt_natCast]

theorem div_in {W : Nat} (hW : W = 2 ∨ W = 4) {x y : Cg.Wd W} (h : ¬ (y.toInt = 0 ∨ (x.toInt = -2 ^ (8 * W - 1) ∧ y.toInt = -1))) : Expr.Spec.divOut false x y = false := by
  have h0 : y ≠ 0#_ := by rintro rfl; exact h (Or.inl (by simp))
  have hx1 := BitVec.le_toInt (x := x)
  have hx2 := BitVec.toInt_lt (x := x)
  have := tdiv_lt (M := 2 ^ (8 * W - 1)) hx1 hx2 (fun e => h (Or.inl e)) (fun e => h (Or.inr e))
  unfold Expr.Spec.divOut
  simp only [h0, decide_false, Bool.false_or, Bool.not_false, Bool.true_and, decide_eq_false_iff_not]
  omega

theorem arith_binVal {W : Nat} (hW : W = 2 ∨ W = 4) {op : Expr.Spec.BOp} {u lu : Bool} {o : Cg.Ar} (ho : binOp u lu op.tok = some o) {x y : Cg.Wd W} {z : Int} (hz : Cg.arith o x y = some z) :
    Expr.Spec.binVal op u lu x y = some (Cg.wd W z) := by
  have nz : y.toNat ≠ 0 → y ≠ 0#_ := fun h e => h (by rw [e]; simp)
  have hp : ∀ k : Nat, Cg.wd W (2 ^ k) = BitVec.ofNat (8 * W) (2 ^ k) := fun k => by
    rw [← wd_nat]; congr 1
  cases op <;> first | (cases ho; done) | skip
  · cases ho
    cases hz
    show some (x * y) = _
    rw [wd_mul', wd_word, wd_word]
  · cases u
    · obtain rfl : o = .div := by simpa [binOp, Expr.Spec.BOp.tok] using ho.symm
      unfold Cg.arith at hz
      dsimp only at hz
      split at hz
      · cases hz
      · rename_i h
        cases hz
        unfold Expr.Spec.binVal
        rw [div_in hW h]; rfl
    · obtain rfl : o = .udiv := by simpa [binOp, Expr.Spec.BOp.tok] using ho.symm
      unfold Cg.arith at hz
      dsimp only at hz
      split at hz
      · cases hz
      · rename_i h
        cases hz
        unfold Expr.Spec.binVal Expr.Spec.divOut
        rw [wd_nat]
        simp [nz h]
  · cases u
    · obtain rfl : o = .mod := by simpa [binOp, Expr.Spec.BOp.tok] using ho.symm
      unfold Cg.arith at hz
      dsimp only at hz
      split at hz
      · cases hz
      · rename_i h
        cases hz
        unfold Expr.Spec.binVal
        rw [div_in hW h]; rfl
    · obtain rfl : o = .umod := by simpa [binOp, Expr.Spec.BOp.tok] using ho.symm
      unfold Cg.arith at hz
      dsimp only at hz
      split at hz
      · cases hz
      · rename_i h
        cases hz
        unfold Expr.Spec.binVal Expr.Spec.divOut
        rw [wd_nat]
        simp [nz h]
  · cases ho
    unfold Cg.arith at hz
    dsimp only at hz
    split at hz
    · rename_i h
      cases hz
      unfold Expr.Spec.binVal
      dsimp only
      rw [Nat.mod_eq_of_lt h, wd_mul', wd_word, hp, BitVec.ofNat_mul, BitVec.ofNat_toNat, BitVec.setWidth_eq]
    · cases hz
  · cases lu
    · obtain rfl : o = .sar := by simpa [binOp, Expr.Spec.BOp.tok] using ho.symm
      unfold Cg.arith at hz
      dsimp only at hz
      split at hz
      · rename_i h
        cases hz
        unfold Expr.Spec.binVal
        dsimp only
        rw [Nat.mod_eq_of_lt h]; rfl
      · cases hz
    · obtain rfl : o = .shr := by simpa [binOp, Expr.Spec.BOp.tok] using ho.symm
      unfold Cg.arith at hz
      dsimp only at hz
      split at hz
      · rename_i h
        cases hz
        unfold Expr.Spec.binVal
        dsimp only
        rw [Nat.mod_eq_of_lt h, wd_nat]; rfl
      · cases hz
  all_goals
    cases ho
    cases hz
    rw [wd_nat, BitVec.ofNat_toNat, BitVec.setWidth_eq]
    rfl

theorem op_of_tok {u lu : Bool} {tok : Expr.Tok} {o : Cg.Ar} (ho : binOp u lu tok = some o) : ∃ op : Expr.Spec.BOp, op.tok = tok ∧ op ≠ .add ∧ op ≠ .sub := by
  cases tok <;> first | (cases ho; done) | skip
  · exact ⟨.mul, rfl, by simp, by simp⟩
  · exact ⟨.div, rfl, by simp, by simp⟩
  · exact ⟨.mod, rfl, by simp, by simp⟩
  · exact ⟨.shl, rfl, by simp, by simp⟩
  · exact ⟨.shr, rfl, by simp, by simp⟩
  · exact ⟨.and, rfl, by simp, by simp⟩
  · exact ⟨.xor, rfl, by simp, by simp⟩
  · exact ⟨.or, rfl, by simp, by simp⟩

theorem common_uint (a b : Ty) : decide (common a b = .uint) = (Expr.isUint a || Expr.isUint b) := by
  unfold common Expr.isUint
  by_cases ha : a = .uint <;> by_cases hb : b = .uint <;> simp [ha, hb]

theorem binCalc_tok {tok : Expr.Tok} {L R : Ty} {o : Cg.Ar} (ho : binOp (common L R = .uint) (L = .uint) tok = some o) (W : Nat) (sl sr : V) (cl cr : Bool) :
    cgBin (Expr.binCalc W tok L R sl sr cl cr).tok = some o ∧ Expr.isNum (Expr.binCalc W tok L R sl sr cl cr).tok = false := by
  rw [common_uint] at ho
  cases tok <;> first | (cases ho; done) | skip
  all_goals simp only [binOp, Option.some.injEq] at ho; subst ho; simp only [Expr.binCalc]
  · exact ⟨rfl, rfl⟩
  · cases Expr.isUint L || Expr.isUint R <;> exact ⟨rfl, rfl⟩
  · cases Expr.isUint L || Expr.isUint R <;> exact ⟨rfl, rfl⟩
  · simp [cgBin, Expr.isNum]
  · show cgBin (if (decide (L = .uint) && _) = true then _ else _) = some (if decide (L = .uint) = true then _ else _) ∧ Expr.isNum (if (decide (L = .uint) && _) = true then _ else _) = _
    cases decide (L = .uint) <;> exact ⟨rfl, rfl⟩
  · exact ⟨rfl, rfl⟩
  · exact ⟨rfl, rfl⟩
  · exact ⟨rfl, rfl⟩

/-- shifts by counts that C does not define -/
theorem shift_none {W : Nat} (hW : W = 2 ∨ W = 4) {R : Ty} {sr : V} (h : (Expr.shiftCount W (Expr.isUint R) (if Expr.isUint R then Expr.truncUint W sr else Expr.truncInt W sr)).2 = true) {o : Cg.Ar} (ho : o = .shl ∨ o = .shr ∨ o = .sar) (x : Cg.Wd W) :
    Cg.arith o x (Cg.wd W sr.toInt) = none := by
  rw [Expr.shiftCount_snd hW] at h
  have : ¬ (Cg.wd W sr.toInt).toNat < 8 * W := by
    rw [toInt_wd hW]
    generalize Expr.wd W sr = y at h
    unfold Expr.Spec.shiftOut at h
    split at h
    · have := of_decide_eq_true h; omega
    · have h := of_decide_eq_true h
      intro hl
      have hs : 8 * W < 2 ^ (8 * W - 1) := by rcases hW with rfl | rfl <;> decide
      have h2 : 2 * y.toNat < 2 ^ (8 * W) := by
        have : 2 ^ (8 * W) = 2 * 2 ^ (8 * W - 1) := by rw [← Nat.pow_succ']; congr 1; omega
        omega
      rw [BitVec.toInt_eq_toNat_of_lt h2] at h
      omega
  rcases ho with rfl | rfl | rfl <;> exact if_neg this

theorem ite_some {α : Type} {p : Bool} {a k : α} (h : (if p = true then some a else none) = some k) : p = true := by
  cases p
  · cases h
  · rfl

/-- the tree of an operator whose right operand may have been changed -/
theorem bin_tree (hW : c.W = 2 ∨ c.W = 4) {tok : Expr.Tok} {dl dr : D} {l r : Expr.TR} {x y : Cg.E} (gl : Good c dl l y) (gr : Good c dr r x) {o : Cg.Ar} (ho : binOp (common dl.ty dr.ty = .uint) (dl.ty = .uint) tok = some o) (T : Expr.T) (a a' : Cg.E)
    (h1 : cg T = some a) (h2 : a.ok c.W) (h3 : ∀ V : Cg.Env c.W, Ref V a a') :
    ∃ z, cg (.bin (Expr.binCalc c.W tok dl.ty dr.ty l.s r.s l.const r.const).tok 0#32 T (r.t.setVal? (Expr.binCalc c.W tok dl.ty dr.ty l.s r.s l.const r.const).count)) = some z ∧ z.ok c.W ∧ ∀ V : Cg.Env c.W, Ref V z (.bin o a' dr.x) := by
  have ht := (binCalc_tok ho c.W l.s r.s l.const r.const).1
  cases hk : (Expr.binCalc c.W tok dl.ty dr.ty l.s r.s l.const r.const).count with
  | none => exact ⟨.bin o a x, cg_bin ht _ h1 gr.tree, ⟨h2, gr.ok⟩, fun V => ref_bin o (h3 V) (gr.ref V)⟩
  | some k =>
    have hsh : (tok = .shl ∨ tok = .shr) ∧ r.const = true ∧ (Expr.shiftCount c.W (Expr.isUint dr.ty) (if Expr.isUint dr.ty then Expr.truncUint c.W r.s else Expr.truncInt c.W r.s)).2 = true := by
      cases tok <;> first | (cases ho; done) | (cases hk; done) | skip
      all_goals
        simp only [Expr.binCalc] at hk
        have h := ite_some hk
        rw [Bool.and_eq_true] at h
        exact ⟨by simp, h⟩
    have ho' : o = .shl ∨ o = .shr ∨ o = .sar := by
      rcases hsh.1 with rfl | rfl
      · cases ho; exact Or.inl rfl
      · simp only [binOp, Option.some.injEq] at ho
        subst ho
        split
        · exact Or.inr (Or.inl rfl)
        · exact Or.inr (Or.inr rfl)
    have hr : r.t.setVal? (some k) = .num (r.ty = .uint) k := by rw [gr.const hsh.2.1]; rfl
    rw [hr]
    exact ⟨.bin o a (.num k.toInt), cg_bin ht _ h1 rfl, ⟨h2, trivial⟩, fun V => ref_bin_none o (h3 V) (gr.refNum hsh.2.1 V) (shift_none hW hsh.2.2 ho')⟩

theorem runs_bin (hW : c.W = 2 ∨ c.W = 4) {tok : Expr.Tok} {dl dr d : D} {bl br : Bool} {nl nr : Nat} {ml mr : Expr.N Expr.TR} (hl : Runs c dl bl nl ml) (hr : Runs c dr br nr mr) (hd : dBin tok dl dr = some d) :
    Runs c d false (nl + nr) (Expr.evBin c tok ml mr) := by
  intro ns h0 hn
  obtain ⟨r, w, x, l, w', y, h1, h2, gr, gl, _, _⟩ := runs2 hl hr ns h0 hn
  unfold dBin at hd
  obtain ⟨o, ho, hd⟩ := Option.bind_eq_some_iff.mp hd
  split at hd
  · rename_i hi
    cases hd
    unfold Expr.evBin
    rw [bind_ok h1, bind_ok h2, gr.ty, gl.ty, bind_ok (chk_ok (numeric_of_int hi.2)), bind_ok (chk_ok (numeric_of_int hi.1))]
    have hnw : ∀ wn, Expr.nwarn wn ⟨ns.lab + (nl + nr), w'⟩ = .ok ((), ⟨ns.lab + (nl + nr), w' ++ wn.toList⟩) := fun _ => rfl
    dsimp only
    rw [bind_ok (hnw _)]
    have hty : Expr.promote dl.ty (Expr.otherTy tok dr.ty) = if tok = .shl ∨ tok = .shr then common dl.ty dl.ty else common dl.ty dr.ty := by
      rw [promote_int hi.1]
      cases tok <;> first | (cases ho; done) | rfl | simp [Expr.otherTy, common]
    rw [hty]
    obtain ⟨x', g'⟩ := good_mk (c := c) (ty := if tok = .shl ∨ tok = .shr then common dl.ty dl.ty else common dl.ty dr.ty) (x' := .bin o dl.x dr.x) (nul := false)
      (s := (Expr.binCalc c.W tok dl.ty dr.ty l.s r.s l.const r.const).s) (const := (Expr.binCalc c.W tok dl.ty dr.ty l.s r.s l.const r.const).const)
      (t := .bin (Expr.binCalc c.W tok dl.ty dr.ty l.s r.s l.const r.const).tok 0#32 l.t (r.t.setVal? (Expr.binCalc c.W tok dl.ty dr.ty l.s r.s l.const r.const).count))
      (binCalc_tok ho c.W l.s r.s l.const r.const).2
      (fun hc => by
        obtain ⟨op, rfl, p1, p2⟩ := op_of_tok ho
        have hb : (l.const && r.const) = true := by
          cases hb : l.const && r.const with
          | true => rfl
          | false => rw [Expr.binCalc_nc op p1 p2 _ _ _ _ _ _ hb] at hc; cases hc
        obtain ⟨c1, c2⟩ := Bool.and_eq_true_iff.mp hb
        refine ⟨fun V => ref_fold_bin o (gl.refNum c1 V) (gr.refNum c2 V) fun z hz => ?_, Or.inl (by split <;> exact int_common _ _)⟩
        have hv := Expr.binCalc_value hW op p1 p2 (toIT dl.ty) (toIT dr.ty) l.s r.s
        rw [toIT_toTy hi.1, toIT_toTy hi.2] at hv
        rw [c1, c2] at hc ⊢
        rw [hc] at hv
        rw [toInt_wd hW, toInt_wd hW] at hz
        have := arith_binVal hW ho hz
        rw [toIT_usual, toIT_prom, this] at hv
        rw [toInt_wd hW]
        exact (Option.some.inj hv).symm)
      (fun _ => bin_tree hW gl gr ho l.t y dl.x gl.tree gl.ok gl.ref)
    exact ⟨_, _, x', rfl, g', fun h => (nomatch h)⟩
  · cases hd

/-! ### comparisons -/

theorem rel_relVal {W : Nat} {op : Expr.Spec.ROp} {u : Bool} {o : Cg.Cc} (ho : relOp u op.tok = some o) (x y : Cg.Wd W) : Cg.rel o x y = Expr.Spec.relVal op u x y := by
  cases op <;> cases u <;> cases ho <;> simp only [Cg.rel, Expr.Spec.relVal, if_true, Bool.false_eq_true, if_false, gt_iff_lt, ge_iff_le, Int.ofNat_lt, Int.ofNat_le, Int.natCast_inj, BitVec.toInt_inj, BitVec.toNat_inj, ne_eq]

theorem rop_of_tok {u : Bool} {tok : Expr.Tok} {o : Cg.Cc} (ho : relOp u tok = some o) : ∃ op : Expr.Spec.ROp, op.tok = tok := by
  cases tok <;> first | (cases ho; done) | skip
  · exact ⟨.lt, rfl⟩
  · exact ⟨.gt, rfl⟩
  · exact ⟨.le, rfl⟩
  · exact ⟨.ge, rfl⟩
  · exact ⟨.eq, rfl⟩
  · exact ⟨.ne, rfl⟩

theorem relTok_cg {u : Bool} {tok : Expr.Tok} {o : Cg.Cc} (ho : relOp u tok = some o) : cgCmp (Expr.relTok u tok) = some o ∧ Expr.isNum (Expr.relTok u tok) = false := by
  cases tok <;> first | (cases ho; done) | skip
  all_goals cases u <;> cases ho <;> exact ⟨rfl, rfl⟩

theorem good_mk_true {ty : Ty} {x' : Cg.E} {nul : Bool} {s : V} {t : Expr.T} (hn : Expr.isNum t.root.1 = false) (h : ∀ V : Cg.Env c.W, Ref V (.num s.toInt) x') (hi : int ty = true ∨ (nul = true ∧ s = 0#32)) :
    Good c { ty := ty, x := x', nul := nul } (Expr.mk s ty true t) (.num s.toInt) := by
  have e : (Expr.mk s ty true t).t = .num (ty = .uint) s := by simp [Expr.mk, hn]
  exact good_of rfl (by rw [e]; rfl) trivial h (fun _ => e) (fun _ => hi)

theorem b2v_isBool (b : Bool) : Cg.E.isBool (.num (Expr.b2v b).toInt) = true := by cases b <;> rfl

theorem b2v_wd {W : Nat} (hW : W = 2 ∨ W = 4) (b : Bool) : Cg.wd W (Expr.b2v b).toInt = Cg.wd W (Cg.b2i b) := by
  rcases hW with rfl | rfl <;> cases b <;> decide

theorem bool_b2v {W : Nat} (hW : W = 2 ∨ W = 4) (V : Cg.Env W) (b : Bool) {y : Cg.E} (h : Ref V (.num (Expr.b2v b).toInt) y) : Ref V (.num (Expr.b2v b).toInt) (.un .bool y) := by
  refine ref_fold1 (g := .un .bool) (Cg.hole_un V .bool) h fun v m e => ⟨_, ?_, .one (.un .bool v m)⟩
  rw [e, b2v_wd hW, unary_bool]
  congr 2
  rcases hW with rfl | rfl <;> cases b <;> decide

/-- what the operands of a comparison are -/
theorem relOk_cases {tok : Expr.Tok} {l r : D} (h : relOk tok l r = true) : (int (rty l.ty) = true ∧ int (rty r.ty) = true) ∨
    (∃ t t', rty l.ty = .ptr t ∧ rty r.ty = .ptr t') ∨ (∃ t, rty l.ty = .ptr t ∧ (tok = .eq ∨ tok = .ne) ∧ int (rty r.ty) = true ∧ r.npc = true) ∨
    (∃ t, rty r.ty = .ptr t ∧ (tok = .eq ∨ tok = .ne) ∧ int (rty l.ty) = true ∧ l.npc = true) := by
  unfold relOk at h
  generalize rty l.ty = L at h ⊢
  generalize rty r.ty = R at h ⊢
  split at h
  · exact Or.inr (Or.inl ⟨_, _, rfl, rfl⟩)
  · simp only [Bool.and_eq_true, Bool.or_eq_true, decide_eq_true_eq] at h
    exact Or.inr (Or.inr (Or.inl ⟨_, rfl, h.1.1, h.1.2, h.2⟩))
  · simp only [Bool.and_eq_true, Bool.or_eq_true, decide_eq_true_eq] at h
    exact Or.inr (Or.inr (Or.inr ⟨_, rfl, h.1.1, h.1.2, h.2⟩))
  · simp only [Bool.and_eq_true] at h
    exact Or.inl h

theorem rty_ptr {t u : Ty} (h : rty t = .ptr u) : Expr.isAnyPtr t = true ∧ t ≠ .void ∧ int t = false ∧ Expr.isUint t = false := by
  cases t <;> first | (cases h; done) | exact ⟨rfl, by simp, rfl, rfl⟩

theorem rty_int {t : Ty} (h : int (rty t) = true) : int t = true := by cases t <;> first | exact h | cases h

theorem npc_zero {d : D} {r : Expr.TR} {x : Cg.E} (g : Good c d r x) (h : d.npc = true) (hi : int d.ty = true) : r.const = true ∧ r.s = 0#32 := by
  obtain ⟨h1, u, h2⟩ := g.npc h
  have := g.const (h1 hi)
  rw [h2] at this
  injection this with _ e
  exact ⟨h1 hi, e.symm⟩

theorem runs_rel (hW : c.W = 2 ∨ c.W = 4) {tok : Expr.Tok} {dl dr d : D} {bl br : Bool} {nl nr : Nat} {ml mr : Expr.N Expr.TR} (hl : Runs c dl bl nl ml) (hr : Runs c dr br nr mr) (hd : dRel tok dl dr = some d) (b : Bool) :
    Runs c d b (nl + nr) (Expr.evRel c tok ml mr) := by
  intro ns h0 hn
  obtain ⟨r, w, x, l, w', y, h1, h2, gr, gl, _, _⟩ := runs2 hl hr ns h0 hn
  unfold dRel at hd
  obtain ⟨o, ho, hd⟩ := Option.bind_eq_some_iff.mp hd
  split at hd
  · rename_i hi
    cases hd
    have hz : Expr.truncInt c.W 0#32 = 0#32 := by rcases hW with h | h <;> rw [h] <;> decide
    have hu : (!(int (rty dl.ty) && int (rty dr.ty)) || decide (common dl.ty dr.ty = .uint)) = (Expr.isAnyPtr dl.ty || Expr.isAnyPtr dr.ty || (Expr.isUint dl.ty || Expr.isUint dr.ty)) := by
      rw [common_uint]
      rcases relOk_cases hi with ⟨k1, k2⟩ | ⟨t, t', k1, k2⟩ | ⟨t, k1, -, k2, -⟩ | ⟨t, k1, -, k2, -⟩
      · rw [k1, k2, anyPtr_of_int (rty_int k1), anyPtr_of_int (rty_int k2)]; rfl
      · rw [k1, k2, (rty_ptr k1).1]; rfl
      · rw [k1, (rty_ptr k1).1]; rfl
      · rw [k1, (rty_ptr k1).1]; simp [int]
    have hck : Expr.relCheck c.W tok dl.ty dr.ty l.s r.s l.const r.const = .ok () := by
      unfold Expr.relCheck
      rcases relOk_cases hi with ⟨k1, k2⟩ | ⟨t, t', k1, k2⟩ | ⟨t, k1, k3, k2, k4⟩ | ⟨t, k1, k3, k2, k4⟩
      · have k1 := rty_int k1
        have k2 := rty_int k2
        rw [if_neg (by simp [void_of_int k1, void_of_int k2]), anyPtr_of_int k1, anyPtr_of_int k2]
        simp
      · obtain ⟨a1, a2, -, -⟩ := rty_ptr k1
        obtain ⟨b1, b2, -, -⟩ := rty_ptr k2
        rw [if_neg (by simp [a2, b2]), a1, b1]
        simp
      · obtain ⟨a1, a2, -, -⟩ := rty_ptr k1
        have k2 := rty_int k2
        obtain ⟨z1, z2⟩ := npc_zero gr k4 k2
        rw [if_neg (by simp [a2, void_of_int k2]), if_neg (by rcases k3 with rfl | rfl <;> simp), a1, anyPtr_of_int k2, z1, z2, hz]
        simp
      · obtain ⟨a1, a2, -, -⟩ := rty_ptr k1
        have k2 := rty_int k2
        obtain ⟨z1, z2⟩ := npc_zero gl k4 k2
        rw [if_neg (by simp [a2, void_of_int k2]), if_neg (by rcases k3 with rfl | rfl <;> simp), a1, anyPtr_of_int k2, z1, z2, hz]
        simp
    unfold Expr.evRel
    rw [bind_ok h1, bind_ok h2, gr.ty, gl.ty, bind_ok (chk_ok hck)]
    dsimp only
    rw [← hu]
    have ht := relTok_cg ho
    cases hc : l.const && r.const with
    | false =>
      exact ⟨_, _, .cmp o y x, rfl, good_mk_false _ (cg_cmp ht.1 _ gl.tree gr.tree) ⟨gl.ok, gr.ok⟩ fun V => ref_cmp o (gl.ref V) (gr.ref V), fun _ => ⟨rfl, fun V => ref_cmp_bool hW o (gl.ref V) (gr.ref V)⟩⟩
    | true =>
      obtain ⟨c1, c2⟩ := Bool.and_eq_true_iff.mp hc
      obtain ⟨op, rfl⟩ := rop_of_tok ho
      have hcalc : Expr.relCalc c.W op.tok (Expr.isUint dl.ty || Expr.isUint dr.ty) l.s r.s = Expr.b2v (Cg.rel o (Cg.wd c.W l.s.toInt) (Cg.wd c.W r.s.toInt)) := by
        rw [Expr.relCalc_eq hW, rel_relVal ho, toInt_wd hW, toInt_wd hW]
        congr 1
        have zero : l.s = 0#32 → r.s = 0#32 → ∀ u u', Expr.Spec.relVal op u (Expr.wd c.W l.s) (Expr.wd c.W r.s) = Expr.Spec.relVal op u' (Expr.wd c.W l.s) (Expr.wd c.W r.s) := by
          intro e1 e2 u u'
          rw [e1, e2]
          have : Expr.wd c.W 0#32 = 0#_ := by simp [Expr.wd]
          rw [this]
          cases u <;> cases u' <;> simp [Expr.Spec.relVal]
        rcases relOk_cases hi with ⟨k1, k2⟩ | ⟨t, t', k1, k2⟩ | ⟨t, k1, k3, k2, k4⟩ | ⟨t, k1, k3, k2, k4⟩
        · rw [k1, k2, common_uint]; rfl
        · exact zero (const_nul gl k1 c1) (const_nul gr k2 c2) _ _
        · exact zero (const_nul gl k1 c1) (npc_zero gr k4 (rty_int k2)).2 _ _
        · exact zero (npc_zero gl k4 (rty_int k2)).2 (const_nul gr k1 c2) _ _
      rw [if_pos rfl, hcalc]
      have href : ∀ V : Cg.Env c.W, Ref V (.num (Expr.b2v (Cg.rel o (Cg.wd c.W l.s.toInt) (Cg.wd c.W r.s.toInt))).toInt) (.cmp o dl.x dr.x) := fun V => by
        refine ref_fold2 (Cg.hole_cmpL V o) (Cg.hole_cmpR V o) (gl.refNum c1 V) (gr.refNum c2 V) fun v' w' m e1 e2 _ => ⟨_, ?_, .one (.cmp o v' w' m)⟩
        rw [e1, e2, b2v_wd hW]
      exact ⟨_, _, _, rfl, good_mk_true ht.2 href (Or.inl rfl), fun _ => ⟨b2v_isBool _, fun V => bool_b2v hW V _ (href V)⟩⟩
  · cases hd

/-! ### comma -/

theorem runs_comma {dl dr d : D} {bl br : Bool} {nl nr : Nat} {ml mr : Expr.N Expr.TR} (hl : Runs c dl bl nl ml) (hr : Runs c dr br nr mr) (hd : dComma dl dr = some d) :
    Runs c d false (nl + nr) (Expr.evComma ml mr) := by
  intro ns h0 hn
  obtain ⟨r, w, x, l, w', y, h1, h2, gr, gl, _, _⟩ := runs2 hl hr ns h0 hn
  unfold dComma at hd
  split at hd
  · cases hd
  · cases hd
    unfold Expr.evComma
    rw [bind_ok h1, bind_ok h2]
    cases c1 : l.const with
    | false =>
      simp only [Bool.false_and, Bool.false_eq_true, if_false]
      rw [← gr.ty]
      exact ⟨_, _, .comma y x, rfl, good_mk_false _ (by simp only [cg, gl.tree, gr.tree, Option.bind_some]) ⟨gl.ok, gr.ok⟩ fun V => ref_comma (gl.ref V) (gr.ref V), fun h => (nomatch h)⟩
    | true =>
      cases c2 : r.const with
      | false =>
        simp only [Bool.not_false, Bool.and_self, if_true]
        exact ⟨_, _, .un .plus x, rfl, good_of gr.ty (by simp only [cg, gr.tree, Option.bind_some, mkUn]; rfl) ⟨fun h => h.elim nofun nofun, gr.ok⟩ (fun V => plus_ref (ref_comma_num (gl.refNum c1 V) (gr.ref V))) (fun h => (nomatch h)) (fun h => (nomatch h)), fun h => (nomatch h)⟩
      | true =>
        simp only [Bool.not_true, Bool.and_false, Bool.false_eq_true, if_false, Bool.and_self]
        rw [← gr.ty]
        exact ⟨_, _, _, rfl, good_mk_true rfl (fun V => ref_comma_num (gl.refNum c1 V) (gr.refNum c2 V)) (by rw [gr.ty]; exact gr.num c2), fun h => (nomatch h)⟩

/-! ### assignment -/

theorem runs_assign (hW : c.W = 2 ∨ c.W = 4) {dl dr d : D} {bl br : Bool} {nl nr : Nat} {ml mr : Expr.N Expr.TR} (hl : Runs c dl bl nl ml) (hr : Runs c dr br nr mr) (hd : dAssign c dl dr = some d) :
    Runs c d false (nl + nr) (Expr.evAssign ml mr) := by
  intro ns h0 hn
  obtain ⟨r, w, x, l, w', y, h1, h2, gr, gl, _, _⟩ := runs2 hl hr ns h0 hn
  unfold dAssign at hd
  obtain ⟨a, ha, hd⟩ := Option.bind_eq_some_iff.mp hd
  split at hd
  · cases hd
  · rename_i hc
    cases hd
    obtain ⟨ho, _, hs⟩ := gl.loc a ha
    have har : array dl.ty = false := by simpa using fun h => hc (Or.inl h)
    obtain ⟨t', a', k1, k2, k3, k4⟩ := hs har
    have hlv : Expr.evLvalue l ⟨ns.lab + (nl + nr), w'⟩ = .ok ((), ⟨ns.lab + (nl + nr), w'⟩) := by
      unfold Expr.evLvalue
      rw [bind_ok (failIf_ok (by rw [gl.ty, isArr_eq, har]; simp))]
      exact failIf_ok (by rw [k1]; simp [Expr.T.root])
    have hv : dl.ty ≠ .void := by rintro e; rw [e] at ho; cases ho
    unfold Expr.evAssign
    rw [bind_ok h1, bind_ok h2, bind_ok hlv, gr.ty, gl.ty, bind_ok (chk_ok (scalar_ok fun h => hc (Or.inr h))), bind_ok (chk_ok (scalar_ok hv))]
    have hrt : l.t.root.2 = BitVec.ofInt 32 (acc c dl.ty) := by rw [k1]; rfl
    have hra : l.t.arg = t' := by rw [k1]; rfl
    rw [hrt, hra]
    exact ⟨_, _, .asg (acc c dl.ty) a' x, rfl, good_of rfl (by simp only [cg, k2, gr.tree, Option.bind_some, mkBin, if_true, acc_toInt hW ho]) ⟨acc_okSz ho, k3, gr.ok⟩ (fun V => ref_asg _ (acc_szOk hW ho) (k4 V) (gr.ref V)) (fun h => (nomatch h)) (fun h => (nomatch h)), fun h => (nomatch h)⟩

theorem assignTok_cg {tok : Expr.Tok} {L R : Ty} {o : Cg.Ar} (ho : asgOp (common L R = .uint) (L = .uint) tok = some o) : cgAsg (Expr.assignTok tok L R) = some o := by
  rw [common_uint] at ho
  cases tok <;> first | (cases ho; done) | (simp only [asgOp, Option.some.injEq] at ho; subst ho; unfold Expr.assignTok; dsimp only)
  all_goals first | rfl | skip
  · cases Expr.isUint L || Expr.isUint R <;> rfl
  · cases Expr.isUint L || Expr.isUint R <;> rfl
  · show cgAsg (if decide (L = .uint) = true then _ else _) = some (if decide (L = .uint) = true then _ else _)
    cases decide (L = .uint) <;> rfl

theorem runs_compound (hW : c.W = 2 ∨ c.W = 4) {tok : Expr.Tok} {dl dr d : D} {bl br : Bool} {nl nr : Nat} {ml mr : Expr.N Expr.TR} (hl : Runs c dl bl nl ml) (hr : Runs c dr br nr mr) (hd : dCompound c tok dl dr = some d) :
    Runs c d false (nl + nr) (Expr.evCompound c tok ml mr) := by
  intro ns h0 hn
  obtain ⟨r, w, x, l, w', y, h1, h2, gr, gl, _, _⟩ := runs2 hl hr ns h0 hn
  unfold dCompound at hd
  obtain ⟨a, ha, hd⟩ := Option.bind_eq_some_iff.mp hd
  obtain ⟨o, hop, hd⟩ := Option.bind_eq_some_iff.mp hd
  split at hd
  · cases hd
  · rename_i hir
    have hir : int dr.ty = true := by simpa using hir
    have hd : (∃ t, dl.ty = .ptr t ∧ obj c.W t = true ∧ (tok = .aAdd ∨ tok = .aSub) ∧ d = { ty := dl.ty, x := .asgo o (acc c dl.ty) a (scaled c t dr.x) }) ∨ (int dl.ty = true ∧ d = { ty := dl.ty, x := .asgo o (acc c dl.ty) a dr.x }) := by
      split at hd
      · rename_i t e
        split at hd
        · rename_i k; cases hd; rw [e]; exact Or.inl ⟨t, rfl, k.1, k.2, rfl⟩
        · cases hd
      · split at hd
        · rename_i k; cases hd; exact Or.inr ⟨k, rfl⟩
        · cases hd
    obtain ⟨ho, _, hs⟩ := gl.loc a ha
    have har : array dl.ty = false := by
      rcases hd with ⟨t, e, -⟩ | ⟨e, -⟩
      · rw [e]; rfl
      · exact array_of_int e
    obtain ⟨t', a', k1, k2, k3, k4⟩ := hs har
    have hlv : Expr.evLvalue l ⟨ns.lab + (nl + nr), w'⟩ = .ok ((), ⟨ns.lab + (nl + nr), w'⟩) := by
      unfold Expr.evLvalue
      rw [bind_ok (failIf_ok (by rw [gl.ty, isArr_eq, har]; simp))]
      exact failIf_ok (by rw [k1]; simp [Expr.T.root])
    have hv : dl.ty ≠ .void := by rintro e; rw [e] at ho; cases ho
    have hac : Expr.arithCheck c dl.ty = .ok () := by
      rcases hd with ⟨t, e, e2, -⟩ | ⟨e, -⟩
      · rw [e]; exact arith_ptr hW e2
      · exact arith_int e
    have hf : ¬ (Expr.isAnyPtr dr.ty = true ∨ (Expr.isAnyPtr dl.ty = true ∧ tok ≠ .aAdd ∧ tok ≠ .aSub)) := by
      rw [anyPtr_of_int hir]
      rcases hd with ⟨t, -, -, e, -⟩ | ⟨e, -⟩
      · rcases e with rfl | rfl <;> simp
      · rw [anyPtr_of_int e]; simp
    have hnw : ∀ wn, Expr.nwarn wn ⟨ns.lab + (nl + nr), w'⟩ = .ok ((), ⟨ns.lab + (nl + nr), w' ++ wn.toList⟩) := fun _ => rfl
    unfold Expr.evCompound
    rw [bind_ok h1, bind_ok h2, bind_ok hlv, gr.ty, gl.ty, bind_ok (chk_ok hac), bind_ok (chk_ok (scalar_ok (void_of_int hir))), bind_ok (chk_ok (scalar_ok hv)), bind_ok (failIf_ok hf)]
    rw [bind_ok (hnw _)]
    have hrt : l.t.root.2 = BitVec.ofInt 32 (acc c dl.ty) := by rw [k1]; rfl
    have hra : l.t.arg = t' := by rw [k1]; rfl
    rw [hrt, hra]
    have hz := acc_okSz (c := c) ho
    have hz' := acc_szOk hW ho
    have hat := acc_toInt hW ho
    have hcg := assignTok_cg hop
    unfold Expr.scaleTree
    have key : ∀ (T : Expr.T) (z x' : Cg.E), cg T = some z → z.ok c.W → (∀ V : Cg.Env c.W, Ref V z x') →
      Good c { ty := dl.ty, x := x' } ⟨0#32, dl.ty, false, T⟩ z := fun T x x' q1 q2 q3 => good_of rfl q1 q2 q3 (fun h => (nomatch h)) (fun h => (nomatch h))
    rcases hd with ⟨t, e, e2, e3, rfl⟩ | ⟨e, rfl⟩
    · have hk : (Expr.assignCalc c.W tok dr.ty r.s r.const).1 = none := by rcases e3 with rfl | rfl <;> rfl
      have htk : Expr.assignTok tok dl.ty dr.ty = tok := by rcases e3 with rfl | rfl <;> rfl
      rw [htk] at hcg
      rw [if_pos (by rw [e]; rfl), hk]
      have hds : Expr.declSize c false (Expr.pointee dl.ty) = .ok ((size c.W t : Nat) : Int) := by rw [e]; exact declSize_ok hW e2
      show ∃ r_1 w_1 x_1, (_ : Expr.N Expr.TR) _ = _ ∧ _
      rw [bind_ok (a := _) (s' := ⟨ns.lab + (nl + nr), _⟩) (by rw [bind_ok (chk_ok hds)]; rfl)]
      cases hc : r.const with
      | true =>
        have hs := ref_scaled_const hW gr hc t
        refine ⟨_, _, .asgo o (acc c dl.ty) a' (.num (r.s * BitVec.ofInt 32 ((size c.W t : Nat) : Int)).toInt), rfl, key _ _ _ ?_ ⟨hz, k3, trivial⟩ (fun V => ref_asgo o _ hz' (k4 V) (hs V)), fun h => (nomatch h)⟩
        rw [if_pos rfl, gr.const hc, ← hat]
        rw [hat]
        have := cg_asgo hcg (BitVec.ofInt 32 (acc c dl.ty)) k2 (r := .num (decide (r.ty = .uint)) (r.s * BitVec.ofInt 32 ((size c.W t : Nat) : Int))) rfl
        rw [hat] at this
        exact this
      | false =>
        obtain ⟨x', q1, q2, q3⟩ := scale_mul hW gr.tree gr.ok gr.ref t
        refine ⟨_, _, .asgo o (acc c dl.ty) a' x', rfl, key _ _ _ ?_ ⟨hz, k3, q2⟩ (fun V => ref_asgo o _ hz' (k4 V) (q3 V)), fun h => (nomatch h)⟩
        have := cg_asgo hcg (BitVec.ofInt 32 (acc c dl.ty)) k2 q1
        rw [hat] at this
        exact this
    · rw [if_neg (by rw [anyPtr_of_int e]; simp)]
      cases hk : (Expr.assignCalc c.W tok dr.ty r.s r.const).1 with
      | none =>
        refine ⟨_, _, .asgo o (acc c dl.ty) a' x, rfl, key _ _ _ ?_ ⟨hz, k3, gr.ok⟩ (fun V => ref_asgo o _ hz' (k4 V) (gr.ref V)), fun h => (nomatch h)⟩
        have := cg_asgo hcg (BitVec.ofInt 32 (acc c dl.ty)) k2 gr.tree
        rw [hat] at this
        exact this
      | some k =>
        have hsh : (tok = .aShl ∨ tok = .aShr) ∧ r.const = true ∧ (Expr.shiftCount c.W (Expr.isUint dr.ty) (if Expr.isUint dr.ty then Expr.truncUint c.W r.s else Expr.truncInt c.W r.s)).2 = true := by
          have fst : ∀ {p : Bool} {q : V}, (if p = true then (some q, some Expr.Warn.shift) else ((none : Option V), (none : Option Expr.Warn))).1 = some k → p = true := by
            intro p q h
            cases p
            · cases h
            · rfl
          cases tok <;> first | (cases hop; done) | (cases hk; done) | skip
          all_goals
            simp only [Expr.assignCalc] at hk
            have h := fst hk
            rw [Bool.and_eq_true] at h
            exact ⟨by simp, h⟩
        have ho' : o = .shl ∨ o = .shr ∨ o = .sar := by
          rcases hsh.1 with rfl | rfl
          · cases hop; exact Or.inl rfl
          · simp only [asgOp, Option.some.injEq] at hop
            subst hop
            split
            · exact Or.inr (Or.inl rfl)
            · exact Or.inr (Or.inr rfl)
        have hr : r.t.setVal? (some k) = .num (r.ty = .uint) k := by rw [gr.const hsh.2.1]; rfl
        rw [hr]
        refine ⟨_, _, .asgo o (acc c dl.ty) a' (.num k.toInt), rfl, key _ _ _ ?_ ⟨hz, k3, trivial⟩ (fun V => ref_asgo_num o _ hz' (k4 V) fun p q h => ref_bin_none o h (gr.refNum hsh.2.1 V) (shift_none hW hsh.2.2 ho')), fun h => (nomatch h)⟩
        have := cg_asgo hcg (BitVec.ofInt 32 (acc c dl.ty)) k2 (r := .num (decide (r.ty = .uint)) k) rfl
        rw [hat] at this
        exact this

end Smlr.Trans
