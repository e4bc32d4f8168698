import Verif.Trans.Main1
set_option autoImplicit false
/-! The outcome of `exprval`: casts, increments, arithmetic unary operators. -/
namespace Smlr.Trans
open Smlr.Expr (Ty Sym Cfg V bind_ok chk_ok failIf_ok)
variable {c : Cfg}

theorem emod_word {W : Nat} (hW : W = 2 ∨ W = 4) (x : Cg.Wd W) {m : Nat} (hm : m ∣ 2 ^ (8 * W)) : x.toInt % (m : Int) = ((x.toNat % m : Nat) : Int) := by
  rw [BitVec.toInt_eq_toNat_bmod, Int.natCast_emod]
  rw [Int.bmod_def]
  have hd : ((2 ^ (8 * W) : Nat) : Int) % (m : Int) = 0 := Int.emod_eq_zero_of_dvd (Int.natCast_dvd_natCast.mpr hm)
  split
  · rw [Int.emod_emod_of_dvd _ (Int.natCast_dvd_natCast.mpr hm)]
  · rw [Int.sub_emod, hd, Int.sub_zero, Int.emod_emod_of_dvd _ (Int.natCast_dvd_natCast.mpr hm), Int.emod_emod_of_dvd _ (Int.dvd_refl _)]

theorem conv_u {W : Nat} (hW : W = 2 ∨ W = 4) (x : Cg.Wd W) (k : Nat) (hk : 0 < k) (hb : k ≤ W) : Cg.wd W (Cg.conv k x.toInt) = Expr.Spec.conv (8 * k) false x := by
  have h0 : (0 : Int) < (k : Int) := by omega
  have h1 : (256 : Int) ^ ((k : Int)).natAbs = ((2 ^ (8 * k) : Nat) : Int) := by
    rw [Int.natAbs_natCast, Nat.pow_mul, Int.natCast_pow]; rfl
  unfold Cg.conv
  rw [if_pos h0, h1, emod_word hW x (Nat.pow_dvd_pow 2 (by omega))]
  show BitVec.ofInt _ _ = BitVec.ofNat _ _
  rw [BitVec.ofInt_natCast]

theorem conv_s {W : Nat} (x : Cg.Wd W) (k : Nat) (hk : 0 < k) : Cg.wd W (Cg.conv (-(k : Int)) x.toInt) = Expr.Spec.conv (8 * k) true x := by
  have h0 : ¬ (0 : Int) < -(k : Int) := by omega
  have h1 : 256 ^ (-(k : Int)).natAbs = 2 ^ (8 * k) := by
    rw [Int.natAbs_neg, Int.natAbs_natCast, Nat.pow_mul]
  unfold Cg.conv
  rw [if_neg h0, h1]
  rfl

/-- conversion of a constant -/
theorem cast_num (hW : c.W = 2 ∨ c.W = 4) {t : Ty} (ht : t = .void ∨ (obj c.W t = true ∧ array t = false)) {sz : Int} (hz : Expr.declSize c true t = .ok sz) (dr : Bool) {s : V} {y : Cg.E} (V : Cg.Env c.W) (h : Ref V (.num s.toInt) y) :
    Ref V (.num (Expr.castCalc c.W sz dr s).1.toInt) (convert c t y) := by
  by_cases hi : int t = true
  · have hs : t = .short ∨ t = .ushort → c.W = 4 := by
      rintro (rfl | rfl) <;> simpa [obj, array] using ht
    have hz' := hz
    rw [← toIT_toTy hi, Expr.declSize_cast hW c.charSigned c.env] at hz'
    cases hz'
    have sp := Expr.castCalc_spec hW c.charSigned (toIT t) (fun h2 => by
      refine ⟨fun e => ?_, fun e => ?_⟩
      · have := hs (Or.inl (by rw [← toIT_toTy hi, e]; rfl)); omega
      · have := hs (Or.inr (by rw [← toIT_toTy hi, e]; rfl)); omega) dr s
    have fin : ∀ u, (∀ v' : Int, Cg.wd c.W v' = Cg.wd c.W s.toInt → Cg.wd c.W (Cg.unary u (Cg.wd c.W v')) = Expr.Spec.conv ((toIT t).bits c.W) ((toIT t).signed c.charSigned) (Expr.wd c.W s)) →
        Ref V (.num (Expr.castCalc c.W (Expr.castSize c.W c.charSigned (toIT t)) dr s).1.toInt) (.un u y) := by
      intro u hu
      refine ref_fold1 (g := .un u) (Cg.hole_un V u) h fun v' m e => ⟨_, ?_, .one (.un u v' m)⟩
      rw [hu v' e, toInt_wd hW, sp]
    have idc : ((toIT t).bits c.W) = 8 * c.W → Ref V (.num (Expr.castCalc c.W (Expr.castSize c.W c.charSigned (toIT t)) dr s).1.toInt) y := by
      intro hb
      refine Ref.trans (ref_num_eq ?_) h
      rw [toInt_wd hW, toInt_wd hW, sp, hb, Expr.conv_word hW]
    have u8 : ∀ v' : Int, Cg.wd c.W v' = Cg.wd c.W s.toInt → Cg.wd c.W (Cg.unary .uchar (Cg.wd c.W v')) = Expr.Spec.conv 8 false (Expr.wd c.W s) := fun v' e => by
      rw [e, toInt_wd hW]; exact conv_u hW _ 1 (by omega) (by omega)
    have s8 : ∀ v' : Int, Cg.wd c.W v' = Cg.wd c.W s.toInt → Cg.wd c.W (Cg.unary .schar (Cg.wd c.W v')) = Expr.Spec.conv 8 true (Expr.wd c.W s) := fun v' e => by
      rw [e, toInt_wd hW]; exact conv_s _ 1 (by omega)
    cases t with
    | char =>
      unfold convert
      dsimp only
      cases hcs : c.charSigned with
      | true => rw [hcs] at fin; exact fin .schar s8
      | false => rw [hcs] at fin; exact fin .uchar u8
    | schar => exact fin .schar s8
    | uchar => exact fin .uchar u8
    | short =>
      refine fin .short fun v' e => ?_
      rw [e, toInt_wd hW]; exact conv_s _ 2 (by omega)
    | ushort =>
      refine fin .ushort fun v' e => ?_
      rw [e, toInt_wd hW]; exact conv_u hW _ 2 (by omega) (by have := hs (Or.inr rfl); omega)
    | int => exact idc rfl
    | uint => exact idc rfl
    | _ => cases hi
  · have hk : (Expr.castCalc c.W sz dr s).1 = s ∧ (convert c t y = y ∨ convert c t y = .un .void y) := by
      rcases ht with rfl | ⟨h1, h2⟩
      · cases hz
        exact ⟨by simp [Expr.castCalc], Or.inr rfl⟩
      · rw [declSize_acc hW h1 h2] at hz
        cases hz
        cases t with
        | ptr t => exact ⟨by rcases hW with h | h <;> simp [Expr.castCalc, acc, h], Or.inl rfl⟩
        | arr => cases h2
        | void => cases h1
        | _ => exact absurd rfl hi
    rw [hk.1]
    rcases hk.2 with e | e <;> rw [e]
    · exact h
    · exact ref_void h

/-- conversion of what is not constant -/
theorem cast_tree (hW : c.W = 2 ∨ c.W = 4) {t : Ty} (ht : t = .void ∨ (obj c.W t = true ∧ array t = false)) {sz : Int} (hz : Expr.declSize c true t = .ok sz) (dr : Bool) (s v : V) {T : Expr.T} {x y : Cg.E}
    (h1 : cg T = some x) (h2 : x.ok c.W) (h3 : ∀ V : Cg.Env c.W, Ref V x y) :
    ∃ x', cg (Expr.castTree (Expr.castCalc c.W sz dr s).2 v T) = some x' ∧ x'.ok c.W ∧ ∀ V : Cg.Env c.W, Ref V x' (convert c t y) := by
  have un : ∀ tok u, cgUn tok = some u → tok ≠ .star → ((u = .short ∨ u = .ushort) → c.W = 4) → ∃ x', cg (Expr.castTree (some tok) v T) = some x' ∧ x'.ok c.W ∧ ∀ V : Cg.Env c.W, Ref V x' (.un u y) := by
    intro tok u hu hs h4
    refine ⟨.un u x, ?_, ⟨h4, h2⟩, fun V => ref_un u (h3 V)⟩
    simp only [Expr.castTree, cg, h1, Option.bind_some, mkUn, if_neg hs, hu]
  have pl : ∀ y', (∀ V : Cg.Env c.W, Ref V y y') → ∃ x', cg (Expr.castTree (if dr then some .uplus else none) v T) = some x' ∧ x'.ok c.W ∧ ∀ V : Cg.Env c.W, Ref V x' y' := by
    intro y' hy
    cases dr with
    | true =>
      obtain ⟨x', k1, k2, k3⟩ := un .uplus .plus rfl (by simp) (by simp)
      exact ⟨x', k1, k2, fun V => (k3 V).trans (plus_ref (hy V))⟩
    | false => exact ⟨x, h1, h2, fun V => (h3 V).trans (hy V)⟩
  rcases ht with rfl | ⟨ho, ha⟩
  · cases hz
    have : (Expr.castCalc c.W 0 dr s).2 = if dr then some .uplus else none := by simp [Expr.castCalc]
    rw [this]
    exact pl _ fun V => ref_void (.refl _)
  · have hs : t = .short ∨ t = .ushort → c.W = 4 := by
      rintro (rfl | rfl) <;> simpa [obj] using ho
    rw [declSize_acc hW ho ha] at hz
    cases hz
    have word : acc c t = c.W → convert c t y = y → ∃ x', cg (Expr.castTree (Expr.castCalc c.W (acc c t) dr s).2 v T) = some x' ∧ x'.ok c.W ∧ ∀ V : Cg.Env c.W, Ref V x' (convert c t y) := by
      intro e1 e2
      have : (Expr.castCalc c.W (acc c t) dr s).2 = if dr then some .uplus else none := by
        rw [e1]; rcases hW with h | h <;> simp [Expr.castCalc, h]
      rw [this, e2]
      exact pl _ fun V => .refl _
    cases t with
    | void => cases ho
    | arr => cases ha
    | ptr | int | uint => exact word rfl rfl
    | schar => exact un .schar .schar rfl (by simp) (by simp)
    | uchar => exact un .uchar .uchar rfl (by simp) (by simp)
    | char =>
      simp only [acc, convert]
      cases c.charSigned
      · exact un .uchar .uchar rfl (by simp) (by simp)
      · exact un .schar .schar rfl (by simp) (by simp)
    | short =>
      have h4 := hs (Or.inl rfl)
      have : (Expr.castCalc c.W (acc c .short) dr s).2 = some .short := by rw [h4]; rfl
      rw [this]
      exact un .short .short rfl (by simp) (fun _ => h4)
    | ushort =>
      have h4 := hs (Or.inr rfl)
      have : (Expr.castCalc c.W (acc c .ushort) dr s).2 = some .ushort := by rw [h4]; rfl
      rw [this]
      exact un .ushort .ushort rfl (by simp) (fun _ => h4)

theorem runs_cast (hW : c.W = 2 ∨ c.W = 4) {t : Ty} {d d' : D} {b : Bool} {n : Nat} {m : Expr.N Expr.TR} (v : V) (h : Runs c d b n m) (hd : dCast c t d = some d') : Runs c d' false n (Expr.evCast c v t m) := by
  intro ns h0 hl
  obtain ⟨r, w, x, h1, g, _⟩ := h ns h0 hl
  unfold dCast at hd
  split at hd
  · rename_i hc
    cases hd
    have ht : t = .void ∨ (obj c.W t = true ∧ array t = false) := hc.imp id fun h => ⟨h.1, by simpa using h.2.1⟩
    have hv : ¬ (r.ty = .void ∧ t ≠ .void) := by
      rw [g.ty]; rintro ⟨k1, k2⟩
      rcases hc with h | h
      · exact k2 h
      · exact h.2.2 k1
    have ha : ¬ Expr.isArr t = true := by
      rw [isArr_eq]
      rcases ht with rfl | h
      · simp [array]
      · simp [h.2]
    obtain ⟨sz, hz⟩ : ∃ sz, Expr.declSize c true t = .ok sz := by
      rcases ht with rfl | h
      · exact ⟨0, rfl⟩
      · exact ⟨_, declSize_acc hW h.1 h.2⟩
    unfold Expr.evCast
    rw [bind_ok h1, bind_ok (failIf_ok hv), bind_ok (failIf_ok ha), bind_ok (chk_ok hz)]
    cases hn : r.const || Expr.isNum r.t.root.1 with
    | true =>
      have hnum : ∃ u, r.t = .num u (if (!r.const && Expr.isNum r.t.root.1) = true then r.t.root.2 else r.s) := by
        cases hc : r.const with
        | true => exact ⟨_, by simpa using g.const hc⟩
        | false =>
          rw [hc, Bool.false_or] at hn
          have := g.tree
          cases ht : r.t <;> rw [ht] at hn this
          case num u s => exact ⟨u, by simp [Expr.T.root, Expr.numTok]; cases u <;> simp [Expr.isNum]⟩
          case un tok _ _ =>
            obtain ⟨a, h1, h⟩ := Option.bind_eq_some_iff.mp this
            cases tok <;> first | (cases hn; done) | (cases h)
          case bin tok _ _ _ =>
            obtain ⟨a, h1, h⟩ := Option.bind_eq_some_iff.mp this
            obtain ⟨a, h1, h⟩ := Option.bind_eq_some_iff.mp h
            cases tok <;> first | (cases hn; done) | (cases h)
          case logic b _ _ _ => cases b <;> cases hn
          all_goals cases hn
      obtain ⟨u, hu⟩ := hnum
      generalize hs : (if (!r.const && Expr.isNum r.t.root.1) = true then r.t.root.2 else r.s) = s at hu
      have hx : x = .num s.toInt := by
        have := g.tree
        rw [hu] at this
        cases this; rfl
      dsimp only
      refine ⟨_, _, .num _, rfl, ⟨rfl, rfl, trivial, fun V => cast_num hW ht hz _ V (hx ▸ g.ref V), fun h => ?_, fun h => ?_, fun a h => (nomatch h), fun h => ?_⟩, fun h => (nomatch h)⟩
      · rfl
      · left
        rw [← isNumeric_eq]
        simpa [Expr.castConst] using h
      · have h := of_decide_eq_true h
        obtain ⟨e, k1, k2⟩ := h
        subst e
        refine ⟨fun h => (nomatch h), decide (Ty.ptr Ty.void = Ty.uint), ?_⟩
        obtain ⟨_, u', k3⟩ := g.npc k1
        rw [k3] at hu
        cases hu
        rw [declSize_acc hW rfl rfl] at hz
        cases hz
        have e0 : (Expr.castCalc c.W (acc c (.ptr .void)) (decide (r.t.root.1 = .star)) 0#32).1 = 0#32 := by
          rcases hW with h | h <;> simp [Expr.castCalc, acc, h]
        simp only [if_true]
        rw [e0]
    | false =>
      obtain ⟨hc, hr⟩ := Bool.or_eq_false_iff.mp hn
      obtain ⟨x', k1, k2, k3⟩ := cast_tree hW ht hz (decide (r.t.root.1 = .star)) (if (!r.const && Expr.isNum r.t.root.1) = true then r.t.root.2 else r.s) v g.tree g.ok g.ref
      refine ⟨_, _, x', rfl, ⟨rfl, by simpa using k1, k2, k3, fun h => (nomatch h), fun h => (nomatch h), fun a h => (nomatch h), fun h => ?_⟩, fun h => (nomatch h)⟩
      have h := (of_decide_eq_true h).2.1
      obtain ⟨_, u', k3⟩ := g.npc h
      rw [k3] at hr
      cases u' <;> cases hr
  · cases hd

theorem runs_inc (hW : c.W = 2 ∨ c.W = 4) {tok : Expr.Tok} {d d' : D} {b : Bool} {n : Nat} {m : Expr.N Expr.TR} (h : Runs c d b n m) (hd : dInc c tok d = some d') : Runs c d' false n (Expr.evInc c tok m) := by
  intro ns h0 hl
  obtain ⟨r, w, x, h1, g, _⟩ := h ns h0 hl
  unfold dInc at hd
  obtain ⟨a, ha, hd⟩ := Option.bind_eq_some_iff.mp hd
  obtain ⟨k, hk, hd⟩ := Option.bind_eq_some_iff.mp hd
  obtain ⟨ho, _, hs⟩ := g.loc a ha
  have hty : array d.ty = false ∧ d.ty ≠ .void ∧ Expr.arithCheck c d.ty = .ok () ∧ Expr.incSize c d.ty = .ok k := by
    unfold incBy at hk
    split at hk
    · rename_i t e
      split at hk
      · rename_i hot
        cases hk
        rw [e]
        exact ⟨rfl, by simp, arith_ptr hW hot, declSize_ok hW hot⟩
      · cases hk
    · split at hk
      · rename_i hi
        cases hk
        refine ⟨array_of_int hi, void_of_int hi, arith_int hi, ?_⟩
        unfold Expr.incSize
        rw [anyPtr_of_int hi]; rfl
      · cases hk
  obtain ⟨har, hv, hac, hin⟩ := hty
  obtain ⟨t', a', k1, k2, k3, k4⟩ := hs har
  have hlv : Expr.evLvalue r ⟨ns.lab + n, w⟩ = .ok ((), ⟨ns.lab + n, w⟩) := by
    unfold Expr.evLvalue
    rw [bind_ok (failIf_ok (by rw [g.ty, isArr_eq, har]; simp))]
    exact failIf_ok (by rw [k1]; simp [Expr.T.root])
  unfold Expr.evInc
  rw [bind_ok h1, bind_ok hlv, g.ty, bind_ok (chk_ok hac), bind_ok (chk_ok (scalar_ok hv)), bind_ok (chk_ok hin)]
  have hz := acc_okSz (c := c) ho
  have hz' := acc_szOk hW ho
  have key : ∀ (T : Expr.T) (x x' : Cg.E), cg T = some x → x.ok c.W → (∀ V : Cg.Env c.W, Ref V x x') →
      Good c { ty := d.ty, x := x' } ⟨0#32, d.ty, false, T⟩ x := fun T x x' q1 q2 q3 => good_of rfl q1 q2 q3 (fun h => (nomatch h)) (fun h => (nomatch h))
  have hrt : r.t.root.2 = BitVec.ofInt 32 (acc c d.ty) := by rw [k1]; rfl
  have hra : r.t.arg = t' := by rw [k1]; rfl
  rw [hrt, hra]
  have hai := acc_toInt hW ho
  by_cases hk1 : k = 1
  · rw [if_pos hk1]
    split at hd <;> first | (cases hd; done) | cases hd
    · exact ⟨_, _, .inc .inc (acc c d.ty) a', rfl, key _ _ _ (by simp only [cg, k2, Option.bind_some, mkUn, cgUn, cgInc, hai]; rfl) ⟨hz, k3⟩ (fun V => ref_preInc .inc (Or.inl rfl) _ _ hk1 hz' (k4 V)), fun h => (nomatch h)⟩
    · exact ⟨_, _, .inc .dec (acc c d.ty) a', rfl, key _ _ _ (by simp only [cg, k2, Option.bind_some, mkUn, cgUn, cgInc, hai]; rfl) ⟨hz, k3⟩ (fun V => ref_preInc .dec (Or.inr rfl) _ _ hk1 hz' (k4 V)), fun h => (nomatch h)⟩
    · exact ⟨_, _, .inc .pinc (acc c d.ty) a', rfl, key _ _ _ (by simp only [cg, k2, Option.bind_some, mkUn, cgUn, cgInc, hai]; rfl) ⟨hz, k3⟩ (fun V => ref_postInc .pinc (Or.inl rfl) _ _ hk1 (k4 V)), fun h => (nomatch h)⟩
    · exact ⟨_, _, .inc .pdec (acc c d.ty) a', rfl, key _ _ _ (by simp only [cg, k2, Option.bind_some, mkUn, cgUn, cgInc, hai]; rfl) ⟨hz, k3⟩ (fun V => ref_postInc .pdec (Or.inr rfl) _ _ hk1 (k4 V)), fun h => (nomatch h)⟩
  · rw [if_neg hk1]
    have hn := ofInt_wd hW k
    split at hd <;> first | (cases hd; done) | cases hd
    · exact ⟨_, _, .asgo .add (acc c d.ty) a' (.num _), rfl, key _ _ _ (by simp only [cg, k2, Option.bind_some, mkBin, Expr.incTok, cgBin, cgCmp, cgAsg, hai]; rfl) ⟨hz, k3, trivial⟩ (fun V => ref_asgo _ _ hz' (k4 V) (ref_num_eq hn)), fun h => (nomatch h)⟩
    · exact ⟨_, _, .asgo .sub (acc c d.ty) a' (.num _), rfl, key _ _ _ (by simp only [cg, k2, Option.bind_some, mkBin, Expr.incTok, cgBin, cgCmp, cgAsg, hai]; rfl) ⟨hz, k3, trivial⟩ (fun V => ref_asgo _ _ hz' (k4 V) (ref_num_eq hn)), fun h => (nomatch h)⟩
    · exact ⟨_, _, .padd false (acc c d.ty) _ a', rfl, key _ _ _ (by simp only [cg, k2, Option.bind_some, mkBin, Expr.incTok, hai]; rfl) ⟨hz, k3⟩ (fun V => ref_padd _ _ hn (k4 V)), fun h => (nomatch h)⟩
    · exact ⟨_, _, .padd true (acc c d.ty) _ a', rfl, key _ _ _ (by simp only [cg, k2, Option.bind_some, mkBin, Expr.incTok, hai]; rfl) ⟨hz, k3⟩ (fun V => ref_padd _ _ hn (k4 V)), fun h => (nomatch h)⟩

theorem unary_calc (hW : c.W = 2 ∨ c.W = 4) {tok : Expr.Tok} {o : Cg.Un} (h : unOp tok = some o) (s : V) : Cg.wd c.W (Cg.unary o (Cg.wd c.W s.toInt)) = Cg.wd c.W (Expr.unCalc tok s).toInt := by
  rw [toInt_wd hW, toInt_wd hW]
  cases tok <;> first | (cases h; done) | cases h
  · show Cg.wd c.W (- _ - 1) = Expr.wd c.W (~~~ s)
    rw [wd_sub', wd_neg', wd_word, Expr.wd_not hW]
    have : Cg.wd c.W 1 = 1#_ := by simp [Cg.wd]
    rw [this, BitVec.neg_eq_not_add, BitVec.add_sub_cancel]
  · show Cg.wd c.W _ = _
    rw [Cg.unary, wd_word]; rfl
  · show Cg.wd c.W (- _) = Expr.wd c.W (~~~ (s - 1#32))
    rw [wd_neg', wd_word, ← Expr.wd_neg hW]
    congr 1
    have := BitVec.neg_eq_not_add (s - 1#32)
    rw [BitVec.neg_sub] at this
    have h2 := congrArg (· - 1#32) this
    simp only [BitVec.add_sub_cancel] at h2
    rw [← h2]

theorem runs_un (hW : c.W = 2 ∨ c.W = 4) {tok : Expr.Tok} {d d' : D} {b : Bool} {n : Nat} {m : Expr.N Expr.TR} (h : Runs c d b n m) (hd : dUn tok d = some d') : Runs c d' false n (Expr.evUnary tok m) := by
  intro ns h0 hl
  obtain ⟨r, w, x, h1, g, _⟩ := h ns h0 hl
  unfold dUn at hd
  obtain ⟨o, ho, hd⟩ := Option.bind_eq_some_iff.mp hd
  split at hd
  · rename_i hi
    cases hd
    unfold Expr.evUnary
    rw [bind_ok h1, g.ty, bind_ok (chk_ok (numeric_of_int hi)), promote_int hi]
    have htok : cgUn tok = some o ∧ tok ≠ .star ∧ Expr.isNum tok = false ∧ o ≠ .short ∧ o ≠ .ushort := by
      cases tok <;> first | (cases ho; done) | (cases ho; simp [cgUn, Expr.isNum])
    obtain ⟨x', g'⟩ := good_mk (c := c) (ty := common d.ty d.ty) (x' := .un o d.x) (nul := false) (s := Expr.unCalc tok r.s) (const := r.const) (t := .un tok 0#32 r.t) htok.2.2.1
      (fun hc => ⟨fun V => ref_fold1 (g := .un o) (Cg.hole_un V o) (g.refNum hc V) fun v' m e => ⟨_, by rw [e, unary_calc hW ho], .one (.un o v' m)⟩, Or.inl (int_common _ _)⟩)
      (fun _ => ⟨.un o x, by simp only [cg, g.tree, Option.bind_some, mkUn, if_neg htok.2.1, htok.1], ⟨fun h => (h.elim htok.2.2.2.1 htok.2.2.2.2).elim, g.ok⟩, fun V => ref_un o (g.ref V)⟩)
    exact ⟨_, _, x', rfl, g', fun h => (nomatch h)⟩
  · cases hd

end Smlr.Trans
