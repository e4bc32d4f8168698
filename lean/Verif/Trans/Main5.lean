import Verif.Trans.Main4
set_option autoImplicit false
/-! The outcome of `exprval`: logical operators and ?:, and all expressions. -/
namespace Smlr.Trans
open Smlr.Expr (Ty Sym Cfg V bind_ok chk_ok failIf_ok)
variable {c : Cfg}

theorem truncInt_ne {W : Nat} (hW : W = 2 ∨ W = 4) (s : V) : (Expr.truncInt W s != 0#32) = decide (Cg.wd W s.toInt ≠ 0) := by
  rw [toInt_wd hW, Bool.eq_iff_iff, bne_iff_ne, decide_eq_true_iff, ne_eq, ne_eq, Expr.truncInt_zero hW]; rfl

theorem truncUint_ne {W : Nat} (hW : W = 2 ∨ W = 4) (s : V) : (Expr.truncUint W s != 0#32) = decide (Cg.wd W s.toInt ≠ 0) := by
  rw [toInt_wd hW, Bool.eq_iff_iff, bne_iff_ne, decide_eq_true_iff, ne_eq, ne_eq, Expr.truncUint_zero hW]; rfl

/-- an operand of && or || -/
theorem runs_op (hW : c.W = 2 ∨ c.W = 4) {d : D} {root : Expr.Tok} {n : Nat} {m : Expr.N Expr.TR} (h : Runs c d (Expr.isRel root) n m) (hv : d.ty ≠ .void) (ns : Expr.NS) (h0 : 0 < ns.lab) (hl : ns.lab + n < 2 ^ 31) :
    ∃ r w x, Expr.evCondOp c root m ns = .ok (r, ⟨ns.lab + n, w⟩) ∧ cg r.t = some x ∧ x.ok c.W ∧ x.isBool = true ∧ (∀ V : Cg.Env c.W, Ref V x (.un .bool d.x)) ∧ (r.const = true → x = .num r.s.toInt ∧ ∃ b, r.s = Expr.b2v b) := by
  obtain ⟨r, w, x, h1, g, hb⟩ := h ns h0 hl
  unfold Expr.evCondOp
  cases hr : Expr.isRel root with
  | true =>
    obtain ⟨b1, b2⟩ := hb hr
    refine ⟨r, w, x, h1, g.tree, g.ok, b1, b2, fun hc => ⟨g.xnum hc, ?_⟩⟩
    rw [g.xnum hc] at b1
    have b1 : r.s.toInt = 0 ∨ r.s.toInt = 1 := by simpa [Cg.E.isBool] using b1
    rcases b1 with e | e
    · exact ⟨false, BitVec.eq_of_toInt_eq (by rw [e]; rfl)⟩
    · exact ⟨true, BitVec.eq_of_toInt_eq (by rw [e]; rfl)⟩
  | false =>
    simp only [Bool.false_eq_true, if_false]
    unfold Expr.evBool
    rw [bind_ok h1, g.ty, bind_ok (chk_ok (scalar_ok hv)), truncInt_ne hW]
    cases hc : r.const with
    | true =>
      refine ⟨_, _, .num (Expr.b2v (decide (Cg.wd c.W r.s.toInt ≠ 0))).toInt, rfl, rfl, trivial, b2v_isBool _, fun V => ?_, fun _ => ⟨rfl, _, rfl⟩⟩
      refine ref_fold1 (g := .un .bool) (Cg.hole_un V .bool) (g.refNum hc V) fun v m e => ⟨_, ?_, .one (.un .bool v m)⟩
      rw [e, b2v_wd hW, unary_bool]
    | false =>
      exact ⟨_, _, .un .bool x, rfl, by simp [Expr.mk, cg, g.tree, mkUn, cgUn], ⟨fun h => h.elim nofun nofun, g.ok⟩, rfl, fun V => ref_un .bool (g.ref V), fun h => (nomatch h)⟩

theorem b2v_ne {W : Nat} (hW : W = 2 ∨ W = 4) (b : Bool) : (Cg.wd W (Expr.b2v b).toInt = 0 ↔ b = false) ∧ ((Expr.b2v b != 0#32) = b) ∧ ((Expr.b2v b == 0#32) = !b) := by
  rcases hW with rfl | rfl <;> cases b <;> decide

theorem runs_logic (hW : c.W = 2 ∨ c.W = 4) {isAnd : Bool} {dl dr d : D} {tl tr : Expr.Tok} {nl nr : Nat} {ml mr : Expr.N Expr.TR} (hl : Runs c dl (Expr.isRel tl) nl ml) (hr : Runs c dr (Expr.isRel tr) nr mr) (hd : dLogic isAnd dl dr = some d) :
    Runs c d false (nl + nr + 1) (Expr.evLogic c isAnd tl tr ml mr) := by
  intro ns h0 hn
  unfold dLogic at hd
  split at hd
  · cases hd
  · rename_i hv
    have hv := not_or.mp hv
    cases hd
    obtain ⟨r, w, x, h1, r1, r2, r3, r4, r5⟩ := runs_op hW hr hv.2 ⟨ns.lab + 1, ns.warns⟩ (by dsimp only; omega) (by dsimp only; omega)
    obtain ⟨l, w', y, h2, l1, l2, l3, l4, l5⟩ := runs_op hW hl hv.1 ⟨ns.lab + 1 + nr, w⟩ (by dsimp only; omega) (by dsimp only; omega)
    dsimp only at h1 h2
    have hlab : Expr.nlab 1 ns = .ok (ns.lab, ⟨ns.lab + 1, ns.warns⟩) := rfl
    unfold Expr.evLogic
    rw [bind_ok hlab, bind_ok h1, bind_ok h2]
    have en : ns.lab + 1 + nr + nl = ns.lab + (nl + nr + 1) := by omega
    rw [en]
    cases hc : (l.const && r.const) || Expr.decides isAnd l.const l.s with
    | false =>
      have hs : ns.lab < 2 ^ 31 := by omega
      refine ⟨_, _, if isAnd then .land ns.lab y x else .lor ns.lab y x, rfl, good_mk_false _ ?_ ?_ fun V => ?_, fun h => (nomatch h)⟩
      · simp only [cg, l1, r1, Option.bind_some, mkLogic, if_pos hs]
      · cases isAnd
        · exact ⟨⟨by omega, l3, r3⟩, l2, r2⟩
        · exact ⟨⟨by omega, l3, r3⟩, l2, r2⟩
      · cases isAnd
        · exact (ref_lor _ 0 (l4 V) (r4 V)).trans (lor_bool hW 0 _ _)
        · exact (ref_land _ 0 (l4 V) (r4 V)).trans (land_bool hW 0 _ _)
    | true =>
      refine ⟨_, _, _, rfl, good_mk_true (by cases isAnd <;> rfl) (fun V => ?_) (Or.inl rfl), fun h => (nomatch h)⟩
      have hcl : l.const = true := by
        cases h : l.const with
        | true => rfl
        | false => rw [h] at hc; cases hc
      obtain ⟨e1, p, e2⟩ := l5 hcl
      have t0 : ∀ q, decide (Cg.wd c.W (Expr.b2v q).toInt ≠ 0) = q := fun q => by
        have := (b2v_ne hW q).1
        cases q with
        | true => exact decide_eq_true (fun h => Bool.noConfusion (this.mp h))
        | false => exact decide_eq_false (fun h => h (this.mpr rfl))
      have hyl := l4 V
      rw [e1, e2] at hyl
      rw [hcl] at hc ⊢
      rw [e2] at hc ⊢
      obtain ⟨q1, q2, q3⟩ := b2v_ne hW p
      cases isAnd with
      | true =>
        simp only [Expr.logicCalc, Expr.decides, if_true, Bool.true_and, q2, q3] at hc ⊢
        cases p with
        | false => exact (ref_land_zero hyl (q1.mpr rfl)).trans (land_bool hW 0 _ _)
        | true =>
          have hcr : r.const = true := by simpa using hc
          obtain ⟨e3, q, e4⟩ := r5 hcr
          have hyr := r4 V
          rw [e3, e4] at hyr
          obtain ⟨t1, t2, t3⟩ := b2v_ne hW q
          have := (ref_land_num hyl hyr (fun h => absurd (q1.mp h) (by simp)) (lab := 0)).trans (land_bool hW 0 _ _)
          refine Ref.trans (ref_num_eq ?_) this
          simp only [Bool.not_true, Bool.false_eq_true, if_false, e4, t2, Bool.true_and]
          rw [b2v_wd hW]
          congr 2
          rw [← b2v_wd hW, t0]
      | false =>
        simp only [Expr.logicCalc, Expr.decides, Bool.false_eq_true, if_false, Bool.true_and, q2] at hc ⊢
        cases p with
        | true => exact (ref_lor_one hyl (fun h => absurd (q1.mp h) (by simp))).trans (lor_bool hW 0 _ _)
        | false =>
          have hcr : r.const = true := by simpa using hc
          obtain ⟨e3, q, e4⟩ := r5 hcr
          have hyr := r4 V
          rw [e3, e4] at hyr
          obtain ⟨t1, t2, t3⟩ := b2v_ne hW q
          have := (ref_lor_num hyl hyr (q1.mpr rfl) (lab := 0)).trans (lor_bool hW 0 _ _)
          refine Ref.trans (ref_num_eq ?_) this
          simp only [Bool.false_eq_true, if_false, e4, t2, Bool.false_or]
          rw [b2v_wd hW]
          congr 2
          rw [← b2v_wd hW, t0]

/-! ### ?: -/

theorem promote_ptr (t : Ty) (R : Ty) : Expr.promote (.ptr t) R = .ptr t := by simp [Expr.promote]

theorem common_comm (a b : Ty) : common a (common b a) = common a b := by
  unfold common
  by_cases ha : a = .uint <;> by_cases hb : b = .uint <;> simp [ha, hb]

theorem num_common (a b : Ty) : (decide (common a b = .int) || decide (common a b = .uint)) = true := by
  unfold common; split <;> rfl

theorem zero_root (hW : c.W = 2 ∨ c.W = 4) {d : D} {r : Expr.TR} {x : Cg.E} (g : Good c d r x) (h : d.npc = true) : Expr.isZero c.W r.t.root = true := by
  obtain ⟨_, u, e⟩ := g.npc h
  rw [e]
  have hz : Expr.truncInt c.W 0#32 = 0#32 := by rcases hW with h | h <;> rw [h] <;> decide
  cases u <;> simp [Expr.isZero, Expr.T.root, Expr.numTok, Expr.isNum, hz]

theorem obj_root {d : D} {r : Expr.TR} {x : Cg.E} (g : Good c d r x) (h : (d.loc.isSome && !array d.ty) = true) : Expr.isZero c.W r.t.root = false := by
  obtain ⟨h1, h2⟩ := Bool.and_eq_true_iff.mp h
  obtain ⟨a, ha⟩ := Option.isSome_iff_exists.mp h1
  obtain ⟨t', a', e, -⟩ := (g.loc a ha).2.2 (by simpa using h2)
  rw [e]; rfl

theorem condTy_ok (hW : c.W = 2 ∨ c.W = 4) {dm dr : D} {m r : Expr.TR} {x y : Cg.E} (gm : Good c dm m y) (gr : Good c dr r x) {t : Ty}
    (h : condType (rty dm.ty) (rty dr.ty) dm.npc dr.npc (dm.loc.isSome && !array dm.ty) (dr.loc.isSome && !array dr.ty) = some t) :
    Expr.condTy c.W dm.ty dr.ty m.const r.const m.t.root r.t.root = .ok t ∧ (int t = false → (int dm.ty = true → dm.npc = true) ∧ (int dr.ty = true → dr.npc = true)) := by
  have npm : ∀ {u}, int (rty dm.ty) = true → rty dm.ty = u → dm.npc = true → m.const = true := fun hi _ hn => (npc_zero gm hn (rty_int hi)).1
  have npr : ∀ {u}, int (rty dr.ty) = true → rty dr.ty = u → dr.npc = true → r.const = true := fun hi _ hn => (npc_zero gr hn (rty_int hi)).1
  have zm := zero_root hW gm
  have zr := zero_root hW gr
  have om := obj_root gm
  have or' := obj_root gr
  have hpm : int dm.ty = true → int (rty dm.ty) = true := fun h => by rw [rty_of_int h]; exact h
  have hpr : int dr.ty = true → int (rty dr.ty) = true := fun h => by rw [rty_of_int h]; exact h
  unfold Expr.condTy
  dsimp only
  rw [decay_eq, decay_eq]
  generalize rty dm.ty = M at *
  generalize rty dr.ty = R at *
  generalize dm.npc = nm at *
  generalize dr.npc = nr at *
  generalize (dm.loc.isSome && !array dm.ty) = vm at *
  generalize (dr.loc.isSome && !array dr.ty) = vr at *
  generalize Expr.isZero c.W m.t.root = p at *
  generalize Expr.isZero c.W r.t.root = q at *
  have cint : ∀ {a b}, int a = true → int b = true → Expr.compat (Expr.promote a (Expr.promote b a)) (Expr.promote b a) m.const r.const p q = .ok (common a b) := by
    intro a b ha hb
    rw [promote_int hb, promote_int ha, common_comm]
    unfold Expr.compat common
    split <;> split <;> simp
  have cptr : ∀ {a b}, int b = true → r.const = true → q = true → Expr.compat (Expr.promote (.ptr a) (Expr.promote b (.ptr a))) (Expr.promote b (.ptr a)) m.const r.const p q = .ok (.ptr a) := by
    intro a b hb h1 h2
    rw [promote_int hb, promote_ptr]
    have e : common b (.ptr a) = .int ∨ common b (.ptr a) = .uint := by unfold common; split <;> simp
    rw [h1, h2]
    rcases e with e | e <;> rw [e] <;> simp [Expr.compat]
  have cptr' : ∀ {a b}, int a = true → m.const = true → p = true → Expr.compat (Expr.promote a (Expr.promote (.ptr b) a)) (Expr.promote (.ptr b) a) m.const r.const p q = .ok (.ptr b) := by
    intro a b ha h1 h2
    rw [promote_ptr, promote_int ha]
    have e : common a (.ptr b) = .int ∨ common a (.ptr b) = .uint := by unfold common; split <;> simp
    rw [h1, h2]
    rcases e with e | e <;> rw [e] <;> simp [Expr.compat]
  have ni : int (.ptr .void) = true → False := nofun
  unfold condType at h
  split at h
  · cases h
    exact ⟨rfl, fun _ => ⟨fun h => (nomatch hpm h), fun h => (nomatch hpr h)⟩⟩
  · rename_i a b
    rw [promote_ptr, promote_ptr]
    refine ⟨?_, fun _ => ⟨fun h => (nomatch hpm h), fun h => (nomatch hpr h)⟩⟩
    simp only [Expr.compat, reduceCtorEq, decide_false, Bool.or_self, Bool.and_self, Bool.false_eq_true, if_false]
    split at h
    · rename_i e
      cases h
      subst e
      by_cases hv : a = .void
      · subst hv; split <;> first | rfl | (split <;> rfl)
      · simp [hv]
    · rename_i hne
      split at h
      · rename_i e
        subst e
        have hb : b ≠ .void := fun e => hne e.symm
        rw [if_neg (by simp [hb])]
        split at h
        · rename_i hn
          cases h
          rw [zm hn, if_pos ⟨rfl, rfl⟩]
        · split at h
          · rename_i hn
            cases h
            rw [om hn, if_neg (by simp), if_pos rfl]
          · cases h
      · rename_i ha
        split at h
        · rename_i e
          subst e
          split at h
          · rename_i hn
            cases h
            rw [zr hn, if_pos ⟨rfl, rfl⟩]
          · split at h
            · rename_i hn
              cases h
              rw [or' hn, if_neg (by simp), if_neg (by simp [ha]), if_neg ha, if_pos rfl]
            · cases h
        · cases h
  · split at h
    · rename_i hk
      cases h
      exact ⟨cptr hk.1 (npr hk.1 rfl hk.2) (zr hk.2), fun _ => ⟨fun h => (nomatch hpm h), fun _ => hk.2⟩⟩
    · cases h
  · split at h
    · rename_i hk
      cases h
      exact ⟨cptr' hk.1 (npm hk.1 rfl hk.2) (zm hk.2), fun _ => ⟨fun _ => hk.2, fun h => (nomatch hpr h)⟩⟩
    · cases h
  · split at h
    · rename_i hk
      cases h
      exact ⟨cint hk.1 hk.2, fun hi => (by rw [int_common] at hi; cases hi)⟩
    · cases h

theorem hide_cg {T : Expr.T} {x y : Cg.E} (sc : Nat) (h1 : cg T = some x) (h2 : x.ok c.W) (h3 : ∀ V : Cg.Env c.W, Ref V x y) : ∃ z, cg (T.hide sc) = some z ∧ z.ok c.W ∧ ∀ V : Cg.Env c.W, Ref V z y := by
  unfold Expr.T.hide
  split
  · exact ⟨.un .plus x, by simp only [cg, h1, Option.bind_some, mkUn]; rfl, ⟨fun h => h.elim nofun nofun, h2⟩, fun V => plus_ref (h3 V)⟩
  · exact ⟨x, h1, h2, h3⟩

theorem runs_cond (hW : c.W = 2 ∨ c.W = 4) {dc dm dr d : D} {bc bm br : Bool} {nc nm nr : Nat} {mc mm mr : Expr.N Expr.TR} (hc : Runs c dc bc nc mc) (hm : Runs c dm bm nm mm) (hr : Runs c dr br nr mr) (hd : dCond dc dm dr = some d) :
    Runs c d false (nc + nm + nr + 2) (Expr.evCond c mc mm mr) := by
  intro ns h0 hn
  unfold dCond at hd
  split at hd
  · cases hd
  · rename_i hv
    obtain ⟨t, ht, hd⟩ := Option.map_eq_some_iff.mp hd
    subst hd
    obtain ⟨m, w1, y, h1, gm, _⟩ := hm ⟨ns.lab + 2, ns.warns⟩ (by dsimp only; omega) (by dsimp only; omega)
    obtain ⟨r, w2, x, h2, gr, _⟩ := hr ⟨ns.lab + 2 + nm, w1⟩ (by dsimp only; omega) (by dsimp only; omega)
    obtain ⟨cd, w3, k, h3, gc, _⟩ := hc ⟨ns.lab + 2 + nm + nr, w2⟩ (by dsimp only; omega) (by dsimp only; omega)
    dsimp only at h1 h2 h3
    obtain ⟨hty, hnp⟩ := condTy_ok hW gm gr ht
    have hlab : Expr.nlab 2 ns = .ok (ns.lab, ⟨ns.lab + 2, ns.warns⟩) := rfl
    unfold Expr.evCond
    rw [bind_ok hlab, bind_ok h1, bind_ok h2, gm.ty, gr.ty, bind_ok (chk_ok hty), bind_ok h3, gc.ty, bind_ok (chk_ok (scalar_ok hv)), truncUint_ne hW]
    dsimp only
    rw [show ns.lab + 2 + nm + nr + nc = ns.lab + (nc + nm + nr + 2) by omega]
    have hs : ns.lab + 1 < 2 ^ 31 := by omega
    have nulM : m.const = true → int t = true ∨ ((!int t && (int dm.ty || int dr.ty || dm.nul || dr.nul)) = true ∧ m.s = 0#32) := fun hmc => by
      cases hi : int t with
      | true => exact Or.inl rfl
      | false =>
        right
        rcases gm.num hmc with k | k
        · exact ⟨by simp [k], (npc_zero gm ((hnp hi).1 k) k).2⟩
        · exact ⟨by simp [k.1], k.2⟩
    have nulR : r.const = true → int t = true ∨ ((!int t && (int dm.ty || int dr.ty || dm.nul || dr.nul)) = true ∧ r.s = 0#32) := fun hrc => by
      cases hi : int t with
      | true => exact Or.inl rfl
      | false =>
        right
        rcases gr.num hrc with k | k
        · exact ⟨by simp [k], (npc_zero gr ((hnp hi).2 k) k).2⟩
        · exact ⟨by simp [k.1], k.2⟩
    cases hcc : cd.const with
    | false =>
      simp only [Bool.false_and, Bool.false_eq_true, if_false]
      refine ⟨_, _, .cond ns.lab k y x, rfl, ?_, fun h => (nomatch h)⟩
      simp only [Expr.condRes, Bool.false_eq_true, if_false]
      refine good_mk_false _ ?_ ⟨by omega, gc.ok, gm.ok, gr.ok⟩ fun V => ref_cond _ 0 (gc.ref V) (gm.ref V) (gr.ref V)
      simp only [cg, gc.tree, gm.tree, gr.tree, Option.bind_some, mkCond, if_pos hs]
    | true =>
      have hv := gc.refNum hcc
      simp only [Bool.true_and]
      by_cases hz : Cg.wd c.W cd.s.toInt = 0
      · have ht : decide (Cg.wd c.W cd.s.toInt ≠ 0) = false := by simp [hz]
        rw [ht]
        have pick : ∀ {V : Cg.Env c.W} {a}, Ref V a dr.x → Ref V a (.cond 0 dc.x dm.x dr.x) := fun h => ref_cond_num (hv _) (by rw [if_pos hz]; exact h)
        simp only [Bool.false_eq_true, if_false]
        cases hrc : r.const with
        | true =>
          simp only [Expr.condRes, Bool.not_true, Bool.false_eq_true, if_false, if_true]
          exact ⟨_, _, _, rfl, good_mk_true rfl (fun V => pick (gr.refNum hrc V)) (nulR hrc), fun h => (nomatch h)⟩
        | false =>
          simp only [Expr.condRes, Bool.not_false, if_true, Bool.false_eq_true, if_false]
          obtain ⟨z, z1, z2, z3⟩ := hide_cg ns.lab gr.tree gr.ok gr.ref
          exact ⟨_, _, z, rfl, good_of rfl z1 z2 (fun V => pick (z3 V)) (fun h => (nomatch h)) (fun h => (nomatch h)), fun h => (nomatch h)⟩
      · have ht : decide (Cg.wd c.W cd.s.toInt ≠ 0) = true := decide_eq_true hz
        rw [ht]
        have pick : ∀ {V : Cg.Env c.W} {a}, Ref V a dm.x → Ref V a (.cond 0 dc.x dm.x dr.x) := fun h => ref_cond_num (hv _) (by rw [if_neg hz]; exact h)
        simp only [if_true]
        cases hmc : m.const with
        | true =>
          simp only [Expr.condRes, Bool.not_true, Bool.false_eq_true, if_false, if_true]
          exact ⟨_, _, _, rfl, good_mk_true rfl (fun V => pick (gm.refNum hmc V)) (nulM hmc), fun h => (nomatch h)⟩
        | false =>
          simp only [Expr.condRes, Bool.not_false, if_true, Bool.false_eq_true, if_false]
          obtain ⟨z, z1, z2, z3⟩ := hide_cg ns.lab gm.tree gm.ok gm.ref
          exact ⟨_, _, z, rfl, good_of rfl z1 z2 (fun V => pick (z3 V)) (fun h => (nomatch h)) (fun h => (nomatch h)), fun h => (nomatch h)⟩

/-! ### all expressions -/

theorem runs_ev (hW : c.W = 2 ∨ c.W = 4) : ∀ (e : Expr.E) (d : D), den c e = some d → Runs c d (Expr.isRel e.root) (labels e) (Expr.ev c e) := by
  intro e
  induction e with
  | num u v => intro d h; cases h; cases u <;> exact runs_num _ v
  | id s => intro d h; exact runs_id hW h
  | cast s e ih =>
    intro d h
    obtain ⟨a, ha, h⟩ := Option.bind_eq_some_iff.mp h
    split at h
    · rename_i t ht
      have : Expr.ev c (.cast s e) = Expr.evCast c s t (Expr.ev c e) := by simp only [Expr.ev, ht]
      rw [this]
      exact runs_cast hW s (ih a ha) h
    · cases h
  | sizeof e ih => intro d h; obtain ⟨a, ha, h⟩ := Option.bind_eq_some_iff.mp h; exact runs_sizeof hW (ih a ha) h
  | addr e ih => intro d h; obtain ⟨a, ha, h⟩ := Option.bind_eq_some_iff.mp h; exact runs_addr (ih a ha) h
  | deref e ih => intro d h; obtain ⟨a, ha, h⟩ := Option.bind_eq_some_iff.mp h; exact runs_deref hW (ih a ha) h
  | inc tok e ih =>
    intro d h
    obtain ⟨a, ha, h⟩ := Option.bind_eq_some_iff.mp h
    have : Expr.isRel tok = false := by
      unfold dInc at h
      obtain ⟨_, _, h⟩ := Option.bind_eq_some_iff.mp h
      obtain ⟨_, _, h⟩ := Option.bind_eq_some_iff.mp h
      cases tok <;> first | rfl | cases h
    show Runs c d (Expr.isRel tok) _ _
    rw [this]
    exact runs_inc hW (ih a ha) h
  | un tok e ih =>
    intro d h
    obtain ⟨a, ha, h⟩ := Option.bind_eq_some_iff.mp h
    have : Expr.isRel tok = false := by
      unfold dUn at h
      obtain ⟨_, h, _⟩ := Option.bind_eq_some_iff.mp h
      cases tok <;> first | rfl | cases h
    show Runs c d (Expr.isRel tok) _ _
    rw [this]
    exact runs_un hW (ih a ha) h
  | bool e ih => intro d h; cases h
  | add tok l r ihl ihr =>
    intro d h
    obtain ⟨a, ha, h⟩ := Option.bind_eq_some_iff.mp h
    obtain ⟨b, hb, h⟩ := Option.bind_eq_some_iff.mp h
    have : Expr.isRel tok = false := by
      unfold dAdd at h
      obtain ⟨_, h, _⟩ := Option.bind_eq_some_iff.mp h
      cases tok <;> first | rfl | cases h
    show Runs c d (Expr.isRel tok) _ _
    rw [this]
    exact runs_add hW (ihl a ha) (ihr b hb) h
  | bin tok l r ihl ihr =>
    intro d h
    obtain ⟨a, ha, h⟩ := Option.bind_eq_some_iff.mp h
    obtain ⟨b, hb, h⟩ := Option.bind_eq_some_iff.mp h
    have : Expr.isRel tok = false := by
      unfold dBin at h
      obtain ⟨_, h, _⟩ := Option.bind_eq_some_iff.mp h
      cases tok <;> first | rfl | cases h
    show Runs c d (Expr.isRel tok) _ _
    rw [this]
    exact runs_bin hW (ihl a ha) (ihr b hb) h
  | rel tok l r ihl ihr =>
    intro d h
    obtain ⟨a, ha, h⟩ := Option.bind_eq_some_iff.mp h
    obtain ⟨b, hb, h⟩ := Option.bind_eq_some_iff.mp h
    exact runs_rel hW (ihl a ha) (ihr b hb) h _
  | logic isAnd l r ihl ihr =>
    intro d h
    obtain ⟨a, ha, h⟩ := Option.bind_eq_some_iff.mp h
    obtain ⟨b, hb, h⟩ := Option.bind_eq_some_iff.mp h
    have : Expr.isRel (Expr.logTok isAnd) = false := by cases isAnd <;> rfl
    show Runs c d (Expr.isRel (Expr.logTok isAnd)) _ _
    rw [this]
    exact runs_logic hW (ihl a ha) (ihr b hb) h
  | comma l r ihl ihr =>
    intro d h
    obtain ⟨a, ha, h⟩ := Option.bind_eq_some_iff.mp h
    obtain ⟨b, hb, h⟩ := Option.bind_eq_some_iff.mp h
    exact runs_comma (ihl a ha) (ihr b hb) h
  | assign l r ihl ihr =>
    intro d h
    obtain ⟨a, ha, h⟩ := Option.bind_eq_some_iff.mp h
    obtain ⟨b, hb, h⟩ := Option.bind_eq_some_iff.mp h
    exact runs_assign hW (ihl a ha) (ihr b hb) h
  | compound tok l r ihl ihr =>
    intro d h
    obtain ⟨a, ha, h⟩ := Option.bind_eq_some_iff.mp h
    obtain ⟨b, hb, h⟩ := Option.bind_eq_some_iff.mp h
    have : Expr.isRel tok = false := by
      unfold dCompound at h
      obtain ⟨_, _, h⟩ := Option.bind_eq_some_iff.mp h
      obtain ⟨_, h, _⟩ := Option.bind_eq_some_iff.mp h
      cases tok <;> first | rfl | cases h
    show Runs c d (Expr.isRel tok) _ _
    rw [this]
    exact runs_compound hW (ihl a ha) (ihr b hb) h
  | cond k m r ihk ihm ihr =>
    intro d h
    obtain ⟨a, ha, h⟩ := Option.bind_eq_some_iff.mp h
    obtain ⟨b, hb, h⟩ := Option.bind_eq_some_iff.mp h
    obtain ⟨e, he, h⟩ := Option.bind_eq_some_iff.mp h
    exact runs_cond hW (ihk a ha) (ihm b hb) (ihr e he) h

/-- expressions with a meaning have the form that the parser leaves -/
theorem wf_den : ∀ (e : Expr.E) (d : D), den c e = some d → e.WF c.env := by
  intro e
  induction e with
  | num u v => intro d h; trivial
  | id s =>
    intro d h t ht
    change dId c s = some d at h
    unfold dId at h
    rw [ht] at h
    cases h
  | cast s e ih =>
    intro d h
    obtain ⟨a, ha, h⟩ := Option.bind_eq_some_iff.mp h
    split at h
    · rename_i t ht
      exact ⟨⟨t, ht⟩, ih a ha⟩
    · cases h
  | sizeof e ih | addr e ih | deref e ih => intro d h; obtain ⟨a, ha, h⟩ := Option.bind_eq_some_iff.mp h; exact ih a ha
  | inc tok e ih =>
    intro d h
    obtain ⟨a, ha, h⟩ := Option.bind_eq_some_iff.mp h
    refine ⟨?_, ih a ha⟩
    unfold dInc at h
    obtain ⟨_, _, h⟩ := Option.bind_eq_some_iff.mp h
    obtain ⟨_, _, h⟩ := Option.bind_eq_some_iff.mp h
    cases tok <;> first | (cases h; done) | simp
  | un tok e ih =>
    intro d h
    obtain ⟨a, ha, h⟩ := Option.bind_eq_some_iff.mp h
    refine ⟨?_, ih a ha⟩
    unfold dUn at h
    obtain ⟨_, h, _⟩ := Option.bind_eq_some_iff.mp h
    cases tok <;> first | (cases h; done) | simp
  | bool e ih => intro d h; cases h
  | add tok l r ihl ihr =>
    intro d h
    obtain ⟨a, ha, h⟩ := Option.bind_eq_some_iff.mp h
    obtain ⟨b, hb, h⟩ := Option.bind_eq_some_iff.mp h
    refine ⟨?_, ihl a ha, ihr b hb⟩
    unfold dAdd at h
    obtain ⟨_, h, _⟩ := Option.bind_eq_some_iff.mp h
    cases tok <;> first | (cases h; done) | simp
  | bin tok l r ihl ihr =>
    intro d h
    obtain ⟨a, ha, h⟩ := Option.bind_eq_some_iff.mp h
    obtain ⟨b, hb, h⟩ := Option.bind_eq_some_iff.mp h
    refine ⟨?_, ihl a ha, ihr b hb⟩
    unfold dBin at h
    obtain ⟨_, h, _⟩ := Option.bind_eq_some_iff.mp h
    cases tok <;> first | (cases h; done) | simp
  | rel tok l r ihl ihr =>
    intro d h
    obtain ⟨a, ha, h⟩ := Option.bind_eq_some_iff.mp h
    obtain ⟨b, hb, h⟩ := Option.bind_eq_some_iff.mp h
    refine ⟨?_, ihl a ha, ihr b hb⟩
    unfold dRel at h
    obtain ⟨_, h, _⟩ := Option.bind_eq_some_iff.mp h
    cases tok <;> first | (cases h; done) | simp
  | logic _ l r ihl ihr | comma l r ihl ihr | assign l r ihl ihr =>
    intro d h
    obtain ⟨a, ha, h⟩ := Option.bind_eq_some_iff.mp h
    obtain ⟨b, hb, h⟩ := Option.bind_eq_some_iff.mp h
    exact ⟨ihl a ha, ihr b hb⟩
  | compound tok l r ihl ihr =>
    intro d h
    obtain ⟨a, ha, h⟩ := Option.bind_eq_some_iff.mp h
    obtain ⟨b, hb, h⟩ := Option.bind_eq_some_iff.mp h
    refine ⟨?_, ihl a ha, ihr b hb⟩
    unfold dCompound at h
    obtain ⟨_, _, h⟩ := Option.bind_eq_some_iff.mp h
    obtain ⟨_, h, _⟩ := Option.bind_eq_some_iff.mp h
    cases tok <;> first | (cases h; done) | simp
  | cond k m r ihk ihm ihr =>
    intro d h
    obtain ⟨a, ha, h⟩ := Option.bind_eq_some_iff.mp h
    obtain ⟨b, hb, h⟩ := Option.bind_eq_some_iff.mp h
    obtain ⟨e, he, h⟩ := Option.bind_eq_some_iff.mp h
    exact ⟨ihk a ha, ihm b hb, ihr e he⟩

end Smlr.Trans
