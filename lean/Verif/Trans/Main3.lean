import Verif.Trans.Main2
set_option autoImplicit false
/-! The outcome of `exprval`: addition, subtraction and the other arithmetic operators. -/
namespace Smlr.Trans
open Smlr.Expr (Ty Sym Cfg V bind_ok chk_ok failIf_ok)
variable {c : Cfg}

/-- the right operand is processed first -/
theorem runs2 {dl dr : D} {bl br : Bool} {nl nr : Nat} {ml mr : Expr.N Expr.TR} (hl : Runs c dl bl nl ml) (hr : Runs c dr br nr mr) (ns : Expr.NS) (h0 : 0 < ns.lab) (hn : ns.lab + (nl + nr) < 2 ^ 31) :
    ∃ r w x l w' y, mr ns = .ok (r, ⟨ns.lab + nr, w⟩) ∧ ml ⟨ns.lab + nr, w⟩ = .ok (l, ⟨ns.lab + (nl + nr), w'⟩) ∧ Good c dr r x ∧ Good c dl l y ∧
      (br = true → x.isBool = true ∧ ∀ V : Cg.Env c.W, Ref V x (.un .bool dr.x)) ∧ (bl = true → y.isBool = true ∧ ∀ V : Cg.Env c.W, Ref V y (.un .bool dl.x)) := by
  obtain ⟨r, w, x, h1, g1, b1⟩ := hr ns h0 (by omega)
  obtain ⟨l, w', y, h2, g2, b2⟩ := hl ⟨ns.lab + nr, w⟩ (by dsimp only; omega) (by dsimp only; omega)
  refine ⟨r, w, x, l, w', y, h1, ?_, g1, g2, b1, b2⟩
  rw [h2]
  dsimp only
  rw [show ns.lab + (nl + nr) = ns.lab + nr + nl by omega]

theorem cg_bin {tok : Expr.Tok} {o : Cg.Ar} (h : cgBin tok = some o) (v : V) {l r : Expr.T} {a b : Cg.E} (hl : cg l = some a) (hr : cg r = some b) : cg (.bin tok v l r) = some (.bin o a b) := by
  have h1 : tok ≠ .assign ∧ ¬ (tok = .padd ∨ tok = .psub) := by cases tok <;> first | (cases h; done) | simp
  simp only [cg, hl, hr, Option.bind_some, mkBin, if_neg h1.1, if_neg h1.2, h]

theorem cg_cmp {tok : Expr.Tok} {o : Cg.Cc} (h : cgCmp tok = some o) (v : V) {l r : Expr.T} {a b : Cg.E} (hl : cg l = some a) (hr : cg r = some b) : cg (.bin tok v l r) = some (.cmp o a b) := by
  have h1 : tok ≠ .assign ∧ ¬ (tok = .padd ∨ tok = .psub) ∧ cgBin tok = none := by cases tok <;> first | (cases h; done) | simp [cgBin]
  simp only [cg, hl, hr, Option.bind_some, mkBin, if_neg h1.1, if_neg h1.2.1, h1.2.2, h]

theorem cg_asgo {tok : Expr.Tok} {o : Cg.Ar} (h : cgAsg tok = some o) (v : V) {l r : Expr.T} {a b : Cg.E} (hl : cg l = some a) (hr : cg r = some b) : cg (.bin tok v l r) = some (.asgo o v.toInt a b) := by
  have h1 : tok ≠ .assign ∧ ¬ (tok = .padd ∨ tok = .psub) ∧ cgBin tok = none ∧ cgCmp tok = none := by cases tok <;> first | (cases h; done) | simp [cgBin, cgCmp]
  simp only [cg, hl, hr, Option.bind_some, mkBin, if_neg h1.1, if_neg h1.2.1, h1.2.2.1, h1.2.2.2, h, Option.map_some]

/-! ### addition and subtraction -/

/-- a constant, scaled -/
theorem ref_scaled_const (hW : c.W = 2 ∨ c.W = 4) {d : D} {r : Expr.TR} {x : Cg.E} (g : Good c d r x) (h : r.const = true) (t : Ty) (V : Cg.Env c.W) :
    Ref V (.num (r.s * BitVec.ofInt 32 ((size c.W t : Nat) : Int)).toInt) (scaled c t d.x) := by
  refine ref_fold_bin .mul (g.refNum h V) (.refl _) fun z hz => ?_
  obtain ⟨z', h1, h2⟩ := arith_mul (Cg.wd c.W r.s.toInt) (Cg.wd c.W ((size c.W t : Nat) : Int))
  rw [h1] at hz
  cases hz
  rw [h2, toInt_wd hW, toInt_wd hW, Expr.wd_mul hW, ← toInt_wd hW (BitVec.ofInt 32 _), ofInt_wd hW]

/-- what is not constant, scaled -/
theorem scale_mul (hW : c.W = 2 ∨ c.W = 4) {T : Expr.T} {x y : Cg.E} (h1 : cg T = some x) (h2 : x.ok c.W) (h3 : ∀ V : Cg.Env c.W, Ref V x y) (t : Ty) :
    ∃ x', cg (T.scale .mul ((size c.W t : Nat) : Int)) = some x' ∧ x'.ok c.W ∧ ∀ V : Cg.Env c.W, Ref V x' (scaled c t y) := by
  unfold Expr.T.scale
  by_cases hk : ((size c.W t : Nat) : Int) = 1
  · rw [if_pos hk]
    exact ⟨x, h1, h2, fun V => ref_mul_one (by rw [hk]) (h3 V)⟩
  · rw [if_neg hk]
    exact ⟨.bin .mul x (.num _), cg_bin rfl _ h1 rfl, ⟨h2, trivial⟩, fun V => ref_bin .mul (h3 V) (ref_num_eq (ofInt_wd hW _))⟩

theorem wd_not_sub (hW : c.W = 2 ∨ c.W = 4) (d : V) : Cg.wd c.W (~~~ (d - 1#32)).toInt = - Cg.wd c.W d.toInt := by
  have e : ~~~ (d - 1#32) = - d := by
    have := BitVec.neg_eq_not_add (d - 1#32)
    rw [BitVec.neg_sub] at this
    have h2 := congrArg (· - 1#32) this
    simp only [BitVec.add_sub_cancel] at h2
    exact h2.symm
  rw [e, toInt_wd hW, toInt_wd hW, Expr.wd_neg hW]

theorem add_ptr_int (hW : c.W = 2 ∨ c.W = 4) {dl dr : D} {l r : Expr.TR} {x y : Cg.E} (gl : Good c dl l y) (gr : Good c dr r x) {tok : Expr.Tok} {o : Cg.Ar} (ho : addOp tok = some o) {t : Ty} (ht : obj c.W t = true) (ns : Expr.NS) :
    ∃ T z, Expr.evPtrNum c tok (.ptr t) l r ns = .ok ((.ptr t, T), ns) ∧ cg T = some z ∧ z.ok c.W ∧ ∀ V : Cg.Env c.W, Ref V z (.bin o dl.x (scaled c t dr.x)) := by
  unfold Expr.evPtrNum
  rw [bind_ok (chk_ok (declSize_ok hW (t := Expr.pointee (.ptr t)) ht))]
  have hcb : cgBin tok = some o ∧ ((tok = .plus ∧ o = .add) ∨ (tok = .minus ∧ o = .sub)) := by
    cases tok <;> first | (cases ho; done) | (cases ho; simp [cgBin])
  refine ⟨_, Exists.imp (fun z h => ⟨rfl, h⟩) ?_⟩
  show ∃ z, cg (if r.const = true then _ else _) = some z ∧ _
  cases hc : r.const with
  | false =>
    obtain ⟨x', k1, k2, k3⟩ := scale_mul hW gr.tree gr.ok gr.ref t
    exact ⟨_, cg_bin hcb.1 _ gl.tree k1, ⟨gl.ok, k2⟩, fun V => ref_bin o (gl.ref V) (k3 V)⟩
  | true =>
    have hs := ref_scaled_const hW gr hc t
    simp only [if_true]
    split
    · rename_i t' ha
      obtain ⟨x', k1, k2, k3⟩ := absorb_ref hW _ _ _ _ gl.tree ha gl.ok
      refine ⟨x', k1, k2, fun V => (k3 V).trans ?_⟩
      rcases hcb.2 with ⟨rfl, rfl⟩ | ⟨rfl, rfl⟩
      · exact ref_bin .add (gl.ref V) (hs V)
      · exact (ref_sub_neg (wd_not_sub hW _) (.refl _)).trans (ref_bin .sub (gl.ref V) (hs V))
    · refine ⟨.bin o y (.num _), cg_bin hcb.1 _ gl.tree ?_, ⟨gl.ok, trivial⟩, fun V => ref_bin o (gl.ref V) (hs V)⟩
      rw [gr.const hc]; rfl

theorem add_int_ptr (hW : c.W = 2 ∨ c.W = 4) {dl dr : D} {l r : Expr.TR} {x y : Cg.E} (gl : Good c dl l y) (gr : Good c dr r x) {t : Ty} (ht : obj c.W t = true) (ns : Expr.NS) :
    ∃ T z, Expr.evNumPtr c (.ptr t) l r ns = .ok ((.ptr t, T), ns) ∧ cg T = some z ∧ z.ok c.W ∧ ∀ V : Cg.Env c.W, Ref V z (.bin .add (scaled c t dl.x) dr.x) := by
  unfold Expr.evNumPtr
  rw [bind_ok (chk_ok (declSize_ok hW (t := Expr.pointee (.ptr t)) ht))]
  refine ⟨_, Exists.imp (fun z h => ⟨rfl, h⟩) ?_⟩
  show ∃ z, cg (if l.const = true then _ else _) = some z ∧ _
  cases hc : l.const with
  | false =>
    obtain ⟨x', k1, k2, k3⟩ := scale_mul hW gl.tree gl.ok gl.ref t
    exact ⟨_, cg_bin rfl _ k1 gr.tree, ⟨k2, gr.ok⟩, fun V => ref_bin .add (k3 V) (gr.ref V)⟩
  | true =>
    have hs := ref_scaled_const hW gl hc t
    simp only [if_true]
    split
    · rename_i t' ha
      obtain ⟨x', k1, k2, k3⟩ := absorb_ref hW _ _ _ _ gr.tree ha gr.ok
      exact ⟨x', k1, k2, fun V => ((k3 V).trans (ref_add_comm (gr.ref V))).trans (ref_bin .add (hs V) (.refl _))⟩
    · refine ⟨.bin .add (.num _) x, cg_bin rfl _ ?_ gr.tree, ⟨trivial, gr.ok⟩, fun V => ref_bin .add (hs V) (gr.ref V)⟩
      rw [gl.const hc]; rfl

theorem sub_ptr (hW : c.W = 2 ∨ c.W = 4) {dl dr : D} {l r : Expr.TR} {x y : Cg.E} (gl : Good c dl l y) (gr : Good c dr r x) {t t' : Ty} (ht : obj c.W t = true) (ht' : obj c.W t' = true) (hs : size c.W t = size c.W t') (ns : Expr.NS) :
    ∃ T z, Expr.evSubPtr c .minus (.ptr t) (.ptr t') l r ns = .ok ((.int, T), ns) ∧ Expr.isNum T.root.1 = false ∧ cg T = some z ∧ z.ok c.W ∧ ∀ V : Cg.Env c.W, Ref V z (.bin .div (.bin .sub dl.x dr.x) (.num (size c.W t))) := by
  unfold Expr.evSubPtr
  rw [bind_ok (chk_ok (declSize_ok hW (t := Expr.pointee (.ptr t)) ht)), bind_ok (chk_ok (declSize_ok hW (t := Expr.pointee (.ptr t')) ht'))]
  have hs' : ¬ ((size c.W (Expr.pointee (.ptr t)) : Nat) : Int) ≠ ((size c.W (Expr.pointee (.ptr t')) : Nat) : Int) := by
    show ¬ ((size c.W t : Nat) : Int) ≠ ((size c.W t' : Nat) : Int)
    rw [hs]; simp
  rw [bind_ok (failIf_ok hs')]
  refine ⟨_, Exists.imp (fun z h => ⟨rfl, h⟩) ?_⟩
  have h1 : cg (.bin .minus 0#32 l.t r.t) = some (.bin .sub y x) := cg_bin rfl _ gl.tree gr.tree
  have h2 : ∀ V : Cg.Env c.W, Ref V (.bin .sub y x) (.bin .sub dl.x dr.x) := fun V => ref_bin .sub (gl.ref V) (gr.ref V)
  by_cases hk : ((size c.W t : Nat) : Int) = 1
  · refine ⟨.bin .sub y x, ?_, ?_, ⟨gl.ok, gr.ok⟩, fun V => ref_div_one hW hk (h2 V)⟩
    · show Expr.isNum (Expr.T.root (if ((size c.W t : Nat) : Int) = 1 then _ else _)).1 = _
      rw [if_pos hk]; rfl
    · show cg (if ((size c.W t : Nat) : Int) = 1 then _ else _) = _
      rw [if_pos hk]; exact h1
  · refine ⟨.bin .div (.bin .sub y x) (.num _), ?_, ?_, ⟨⟨gl.ok, gr.ok⟩, trivial⟩, fun V => ref_bin .div (h2 V) (ref_num_eq (ofInt_wd hW _))⟩
    · show Expr.isNum (Expr.T.root (if ((size c.W t : Nat) : Int) = 1 then _ else _)).1 = _
      rw [if_neg hk]; rfl
    · show cg (if ((size c.W t : Nat) : Int) = 1 then _ else _) = _
      rw [if_neg hk]; exact cg_bin rfl _ h1 rfl

theorem arithCheck_rty (hW : c.W = 2 ∨ c.W = 4) {t : Ty} (h : int (rty t) = true ∨ ∃ u, rty t = .ptr u ∧ obj c.W u = true) : Expr.arithCheck c (Expr.decay t) = .ok () ∧ Expr.scalarCheck (Expr.decay t) = .ok () := by
  rw [decay_eq]
  rcases h with h | ⟨u, h, ho⟩
  · exact ⟨arith_int h, scalar_ok (void_of_int h)⟩
  · rw [h]; exact ⟨arith_ptr hW ho, scalar_ok (by simp)⟩

theorem const_ptr {d : D} {r : Expr.TR} {x : Cg.E} (g : Good c d r x) {t : Ty} (h : rty d.ty = .ptr t) (hn : ¬ d.nul = true) : r.const = false := by
  cases hc : r.const with
  | false => rfl
  | true =>
    rcases g.num hc with k | k
    · rw [rty_of_int k] at h; rw [h] at k; cases k
    · exact absurd k.1 hn

theorem const_nul {d : D} {r : Expr.TR} {x : Cg.E} (g : Good c d r x) {t : Ty} (h : rty d.ty = .ptr t) (hc : r.const = true) : r.s = 0#32 := by
  rcases g.num hc with k | k
  · rw [rty_of_int k] at h; rw [h] at k; cases k
  · exact k.2

theorem good_mk_false {ty : Ty} {x' x : Cg.E} {nul : Bool} (s : V) {t : Expr.T} (h1 : cg t = some x) (h2 : x.ok c.W) (h3 : ∀ V : Cg.Env c.W, Ref V x x') :
    Good c { ty := ty, x := x', nul := nul } (Expr.mk s ty false t) x :=
  good_of rfl (by simpa [Expr.mk] using h1) h2 h3 (fun h => (nomatch h)) (fun h => (nomatch h))

/-- the four cases of `dAdd` -/
theorem dAdd_cases {tok : Expr.Tok} {l r d : D} (h : dAdd c tok l r = some d) : ∃ o, addOp tok = some o ∧
    ((∃ t t', rty l.ty = .ptr t ∧ rty r.ty = .ptr t' ∧ o = .sub ∧ obj c.W t = true ∧ obj c.W t' = true ∧ size c.W t = size c.W t' ∧ d = { ty := .int, x := .bin .div (.bin .sub l.x r.x) (.num (size c.W t)) }) ∨
    (∃ t, rty l.ty = .ptr t ∧ obj c.W t = true ∧ int (rty r.ty) = true ∧ ¬ l.nul = true ∧ d = { ty := .ptr t, x := .bin o l.x (scaled c t r.x) }) ∨
    (∃ t, rty r.ty = .ptr t ∧ o = .add ∧ obj c.W t = true ∧ int (rty l.ty) = true ∧ ¬ r.nul = true ∧ d = { ty := .ptr t, x := .bin .add (scaled c t l.x) r.x }) ∨
    (int (rty l.ty) = true ∧ int (rty r.ty) = true ∧ d = { ty := common (rty l.ty) (rty r.ty), x := .bin o l.x r.x })) := by
  unfold dAdd at h
  obtain ⟨o, ho, h⟩ := Option.bind_eq_some_iff.mp h
  refine ⟨o, ho, ?_⟩
  generalize rty l.ty = L at h ⊢
  generalize rty r.ty = R at h ⊢
  split at h
  · split at h
    · rename_i k; cases h; exact Or.inl ⟨_, _, rfl, rfl, k.1, k.2.1, k.2.2.1, k.2.2.2, rfl⟩
    · cases h
  · split at h
    · rename_i k; cases h; exact Or.inr (Or.inl ⟨_, rfl, k.1, k.2.1, k.2.2, rfl⟩)
    · cases h
  · split at h
    · rename_i k; cases h; obtain ⟨rfl, k⟩ := k; exact Or.inr (Or.inr (Or.inl ⟨_, rfl, rfl, k.1, k.2.1, k.2.2, rfl⟩))
    · cases h
  · split at h
    · rename_i k; cases h; exact Or.inr (Or.inr (Or.inr ⟨k.1, k.2, rfl⟩))
    · cases h

theorem runs_add (hW : c.W = 2 ∨ c.W = 4) {tok : Expr.Tok} {dl dr d : D} {bl br : Bool} {nl nr : Nat} {ml mr : Expr.N Expr.TR} (hl : Runs c dl bl nl ml) (hr : Runs c dr br nr mr) (hd : dAdd c tok dl dr = some d) :
    Runs c d false (nl + nr) (Expr.evAdd c tok ml mr) := by
  intro ns h0 hn
  obtain ⟨r, w, x, l, w', y, h1, h2, gr, gl, _, _⟩ := runs2 hl hr ns h0 hn
  obtain ⟨o, ho, hd⟩ := dAdd_cases hd
  have hcb : cgBin tok = some o ∧ ((tok = .plus ∧ o = .add) ∨ (tok = .minus ∧ o = .sub)) := by
    cases tok <;> first | (cases ho; done) | (cases ho; simp [cgBin])
  have hR : int (rty dr.ty) = true ∨ ∃ u, rty dr.ty = .ptr u ∧ obj c.W u = true := by
    rcases hd with ⟨t, t', k⟩ | ⟨t, k⟩ | ⟨t, k⟩ | k
    · exact Or.inr ⟨t', k.2.1, k.2.2.2.2.1⟩
    · exact Or.inl k.2.2.1
    · exact Or.inr ⟨t, k.1, k.2.2.1⟩
    · exact Or.inl k.2.1
  have hL : int (rty dl.ty) = true ∨ ∃ u, rty dl.ty = .ptr u ∧ obj c.W u = true := by
    rcases hd with ⟨t, t', k⟩ | ⟨t, k⟩ | ⟨t, k⟩ | k
    · exact Or.inr ⟨t, k.1, k.2.2.2.1⟩
    · exact Or.inr ⟨t, k.1, k.2.1⟩
    · exact Or.inl k.2.2.2.1
    · exact Or.inl k.1
  unfold Expr.evAdd
  rw [bind_ok h1, bind_ok h2, gr.ty, gl.ty, bind_ok (chk_ok (arithCheck_rty hW hR).1), bind_ok (chk_ok (arithCheck_rty hW hL).1), bind_ok (chk_ok (arithCheck_rty hW hR).2), bind_ok (chk_ok (arithCheck_rty hW hL).2)]
  rw [decay_eq, decay_eq]
  unfold Expr.evAddPtr
  rcases hd with ⟨t, t', k1, k2, rfl, k4, k5, k6, rfl⟩ | ⟨t, k1, k2, k3, k4, rfl⟩ | ⟨t, k1, rfl, k3, k4, k5, rfl⟩ | ⟨k1, k2, rfl⟩
  · obtain ⟨rfl, -⟩ | ⟨rfl, -⟩ := hcb.2
    · cases ho
    obtain ⟨T, z, q1, q0, q2, q3, q4⟩ := sub_ptr hW gl gr k4 k5 k6 ⟨ns.lab + (nl + nr), w'⟩
    rw [k1, k2, if_neg (by simp), if_neg (by simp [Expr.isAnyPtr]), if_pos (by simp [Expr.isAnyPtr]), bind_ok q1]
    have e : Expr.promote .int (.ptr t') = .int := rfl
    dsimp only
    rw [e]
    cases hc : l.const && r.const with
    | false => exact ⟨_, _, z, rfl, good_mk_false _ q2 q3 q4, fun h => (nomatch h)⟩
    | true =>
      obtain ⟨c1, c2⟩ := Bool.and_eq_true_iff.mp hc
      have hn : (if Expr.Tok.minus = .plus then l.s + r.s else l.s - r.s) = 0#32 := by
        rw [if_neg (by simp), const_nul gl k1 c1, const_nul gr k2 c2]; rfl
      have f1 : ∀ V : Cg.Env c.W, Ref V (.num 0) (.bin .sub dl.x dr.x) := fun V => by
        have a1 := gl.refNum c1 V
        have a2 := gr.refNum c2 V
        rw [const_nul gl k1 c1] at a1
        rw [const_nul gr k2 c2] at a2
        refine ref_fold_bin .sub a1 a2 fun z hz => ?_
        cases hz
        simp [Cg.wd]
      have f2 : ∀ V : Cg.Env c.W, Ref V (.num 0) (.bin .div (.bin .sub dl.x dr.x) (.num (size c.W t))) := fun V => by
        refine ref_fold_bin .div (f1 V) (.refl _) fun z hz => ?_
        unfold Cg.arith at hz
        dsimp only at hz
        split at hz
        · cases hz
        · cases hz
          simp [Cg.wd]
      rw [hn]
      obtain ⟨x', g'⟩ := good_mk (c := c) (ty := .int) (nul := false) (const := true) (s := 0#32) q0 (fun _ => ⟨f2, Or.inl rfl⟩) (fun h => (nomatch h))
      exact ⟨_, _, x', rfl, g', fun h => (nomatch h)⟩
  · have hcl := const_ptr gl k1 k4
    obtain ⟨T, z, q1, q2, q3, q4⟩ := add_ptr_int hW gl gr ho k2 ⟨ns.lab + (nl + nr), w'⟩
    rw [k1, if_neg (by simp [Expr.isAnyPtr]), if_pos ⟨rfl, by rw [anyPtr_of_int k3]; simp⟩, bind_ok q1]
    have e : ∀ R, Expr.promote (.ptr t) R = .ptr t := fun R => by simp [Expr.promote]
    dsimp only
    rw [e, hcl]
    exact ⟨_, _, z, rfl, good_mk_false _ q2 q3 q4, fun h => (nomatch h)⟩
  · have hcr := const_ptr gr k1 k5
    obtain ⟨T, z, q1, q2, q3, q4⟩ := add_int_ptr hW gl gr k3 ⟨ns.lab + (nl + nr), w'⟩
    obtain ⟨rfl, -⟩ | ⟨rfl, -⟩ := hcb.2
    · rw [k1, if_pos ⟨rfl, by rw [anyPtr_of_int k4]; simp⟩, bind_ok q1]
      have e : ∀ R, Expr.promote (.ptr t) R = .ptr t := fun R => by simp [Expr.promote]
      dsimp only
      rw [e, hcr, Bool.and_false]
      exact ⟨_, _, z, rfl, good_mk_false _ q2 q3 q4, fun h => (nomatch h)⟩
    · cases ho
  · have p1 := anyPtr_of_int k1
    have p2 := anyPtr_of_int k2
    simp only [p1, p2, Bool.false_eq_true, false_and, and_false, or_self, if_false, not_false_eq_true, true_and]
    show ∃ r_1 w_1 x, Except.ok (Expr.mk _ (Expr.promote (rty dl.ty) (rty dr.ty)) _ (.bin tok 0#32 l.t r.t), (⟨ns.lab + (nl + nr), w'⟩ : Expr.NS)) = _ ∧ _
    rw [promote_int k1]
    obtain ⟨x', g'⟩ := good_mk (c := c) (ty := common (rty dl.ty) (rty dr.ty)) (x' := .bin o dl.x dr.x) (nul := false) (s := if tok = .plus then l.s + r.s else l.s - r.s) (const := l.const && r.const) (t := .bin tok 0#32 l.t r.t)
      (by rcases hcb.2 with ⟨rfl, -⟩ | ⟨rfl, -⟩ <;> rfl)
      (fun hc => by
        obtain ⟨c1, c2⟩ := Bool.and_eq_true_iff.mp hc
        refine ⟨fun V => ref_fold_bin o (gl.refNum c1 V) (gr.refNum c2 V) fun z hz => ?_, Or.inl (int_common _ _)⟩
        rcases hcb.2 with ⟨rfl, rfl⟩ | ⟨rfl, rfl⟩
        · cases hz
          rw [wd_add', wd_word, wd_word, if_pos rfl, toInt_wd hW, toInt_wd hW, toInt_wd hW, Expr.wd_add hW]
        · cases hz
          rw [wd_sub', wd_word, wd_word, if_neg (by simp), toInt_wd hW, toInt_wd hW, toInt_wd hW, Expr.wd_sub hW])
      (fun _ => ⟨.bin o y x, cg_bin hcb.1 _ gl.tree gr.tree, ⟨gl.ok, gr.ok⟩, fun V => ref_bin o (gl.ref V) (gr.ref V)⟩)
    exact ⟨_, _, x', rfl, g', fun h => (nomatch h)⟩

end Smlr.Trans
