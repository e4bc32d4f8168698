import Verif.Expr.Arith
import Verif.Expr.Inv
set_option autoImplicit false
/-! Constant expressions are folded to their values. -/
namespace Smlr.Expr
open Spec

variable {c : Cfg} {W : Nat} {cs : Bool} {nm : IT → V}

/-- the outcome for a constant expression -/
structure Folded (W : Nat) (cs : Bool) (k : K) (r : TR) : Prop where
  ty : r.ty = k.typeOf.toTy
  val : ow W r.const r.s = k.value W cs
  tree : r.const = true → r.t = .num (k.typeOf = .uint) r.s
  nc : r.const = false → isNum r.t.root.1 = false

theorem toTy_uint (t : IT) : decide (t.toTy = .uint) = decide (t = .uint) := by cases t <;> rfl

theorem mk_folded {k : K} {s : V} {ty : Ty} {const : Bool} {t : T} (ht : ty = k.typeOf.toTy) (hv : ow W const s = k.value W cs) (hn : isNum t.root.1 = false) :
    Folded W cs k (mk s ty const t) := by
  refine ⟨ht, hv, ?_, ?_⟩
  · intro hc
    change const = true at hc
    subst hc
    simp only [mk, hn, Bool.not_false, Bool.and_self, if_true, ht, toTy_uint]
  · intro hc
    change const = false at hc
    subst hc
    simpa [mk] using hn

theorem chk_ok {σ α : Type} {x : Except Err α} {a : α} {s : σ} (h : x = .ok a) : (chk x : MS σ α) s = .ok (a, s) := by subst h; rfl
theorem failIf_ok {σ : Type} {p : Prop} [Decidable p] {e : Err} {s : σ} (h : ¬ p) : (failIf p e : MS σ Unit) s = .ok ((), s) := chk_ok (if_neg h)

theorem pure_ok {α : Type} {r : α} {l : Nat} {w w' : List Warn} (h : w = w') : (pure r : MS NS α) ⟨l, w⟩ = .ok (r, ⟨l, w'⟩) := by subst h; rfl

theorem numeric_ok (t : IT) : numericCheck t.toTy = .ok () := by cases t <;> rfl
theorem scalar_ok (t : IT) : scalarCheck t.toTy = .ok () := by cases t <;> rfl
theorem decay_it (t : IT) : decay t.toTy = t.toTy := by cases t <;> rfl
theorem arith_ok (c : Cfg) (t : IT) : arithCheck c t.toTy = .ok () := by cases t <;> rfl
theorem anyPtr_it (t : IT) : isAnyPtr t.toTy = false := by cases t <;> rfl
theorem arr_it (t : IT) : isArr t.toTy = false := by cases t <;> rfl
theorem numeric_it (t : IT) : isNumeric t.toTy = true := by cases t <;> rfl
theorem void_it (t : IT) : t.toTy ≠ .void := by cases t <;> simp [IT.toTy]
theorem promote_it (a b : IT) : promote a.toTy b.toTy = (a.usual b).toTy := by cases a <;> cases b <;> rfl
theorem promote_self (a : IT) : promote a.toTy a.toTy = a.prom.toTy := by cases a <;> rfl
theorem promote_int (a : IT) : promote a.toTy .int = a.prom.toTy := by cases a <;> rfl

/-- the processing of a constant expression succeeds, with the warnings `diag` -/
def EvK (c : Cfg) (nm : IT → V) (k : K) : Prop :=
  ∀ ns, ∃ r lab', ev c (k.toE nm) ns = .ok (r, ⟨lab', ns.warns ++ k.diag c.W c.charSigned⟩) ∧ Folded c.W c.charSigned k r ∧
    (isRel (k.toE nm).root = true → r.const = true → ∃ b, r.s = b2v b)

theorem ow_some {b : Bool} {s : V} {v : BitVec (8 * W)} (h : ow W b s = some v) : b = true ∧ wd W s = v := by
  unfold ow at h
  cases b
  · cases h
  · exact ⟨rfl, by simpa using h⟩

theorem ow_none {b : Bool} {s : V} (h : ow W b s = none) : b = false := by
  unfold ow at h
  cases b
  · rfl
  · cases h

theorem wd_b2v (hW : W = 2 ∨ W = 4) (b : Bool) : wd W (b2v b) = Spec.bool b := by
  cases b
  · apply BitVec.eq_of_toNat_eq; simp [b2v, Spec.bool]
  · apply BitVec.eq_of_toNat_eq
    simp [b2v, Spec.bool, wd]

theorem evk_cast (hW : c.W = 2 ∨ c.W = 4) (hnm : ∀ t, c.env (nm t) = some (.cast t.toTy)) {t : IT} {k : K} (ht : c.W = 2 → t ≠ .short ∧ t ≠ .ushort) (h : EvK c nm k) :
    EvK c nm (.cast t k) := by
  intro ns
  obtain ⟨r, lab', h1, h2, -⟩ := h ns
  have e : ev c ((K.cast t k).toE nm) = evCast c (nm t) t.toTy (ev c (k.toE nm)) := by simp only [K.toE, ev, hnm]
  rw [e]
  unfold evCast
  rw [bind_ok h1, bind_ok (failIf_ok (by rw [h2.ty]; simp [void_it])), bind_ok (failIf_ok (by simp [arr_it])),
    bind_ok (chk_ok (declSize_cast hW c.charSigned c.env t))]
  refine ⟨_, _, rfl, ?_, ?_⟩
  · have hs := castCalc_spec hW c.charSigned t ht (decide (r.t.root.1 = .star))
    cases hc : r.const with
    | true =>
      have hn : isNum r.t.root.1 = true := by rw [h2.tree hc]; cases decide (k.typeOf = .uint) <;> rfl
      have hv := h2.val
      rw [hc] at hv
      refine ⟨rfl, ?_, ?_, ?_⟩
      · simp only [castConst, hn, Bool.or_self, numeric_it, Bool.and_self, Bool.not_true, Bool.false_and, Bool.false_eq_true, if_false, K.value]
        rw [← hv]
        simp only [ow, if_true, Option.map_some, hs]
      · intro _
        simp only [hn, Bool.or_self, if_true, toTy_uint, K.typeOf]
        rfl
      · intro h
        simp [castConst, hn, numeric_it] at h
    | false =>
      have hn := h2.nc hc
      have hv := h2.val
      rw [hc] at hv
      refine ⟨rfl, ?_, ?_, ?_⟩
      · simp only [castConst, hn, Bool.or_self, Bool.false_and, K.value]
        rw [← hv]; rfl
      · intro h
        simp [castConst, hn] at h
      · intro _
        simp only [hn, Bool.or_self, Bool.false_eq_true, if_false]
        unfold castTree
        split
        · exact hn
        · rename_i tok hk
          exact (by
            have := castCalc_tok hk
            cases tok <;> first | (cases this; done) | rfl)
  · intro hr; cases hr

theorem evk_sizeof (hW : c.W = 2 ∨ c.W = 4) {k : K} (h : EvK c nm k) : EvK c nm (.sizeof k) := by
  intro ns
  obtain ⟨r, lab', h1, h2, -⟩ := h ns
  show ∃ q lab', evSizeof c (ev c (k.toE nm)) ns = _ ∧ _
  unfold evSizeof
  rw [bind_ok h1, h2.ty, bind_ok (chk_ok (declSize_sizeof hW c.charSigned c.env k.typeOf)), bind_ok (failIf_ok (by
    rcases hW with h | h <;> rw [h] <;> cases k.typeOf <;> simp [IT.bits]))]
  refine ⟨_, _, rfl, ⟨rfl, ?_, fun _ => rfl, fun h => by cases h⟩, fun hr => by cases hr⟩
  simp only [ow, if_true, K.value]
  rw [wd_ofInt hW, BitVec.ofInt_natCast]

theorem evk_un (hW : c.W = 2 ∨ c.W = 4) {k : K} (op : UOp) (h : EvK c nm k) : EvK c nm (.un op k) := by
  intro ns
  obtain ⟨r, lab', h1, h2, -⟩ := h ns
  have hu : ∀ tok, (hop : op ≠ .lnot) → (tok = .not ∨ tok = .uplus ∨ tok = .neg) → (∀ s, wd c.W (unCalc tok s) = unVal op (wd c.W s)) →
      (K.un op k).toE nm = .un tok (k.toE nm) → ∃ r lab', ev c ((K.un op k).toE nm) ns = .ok (r, ⟨lab', ns.warns ++ (K.un op k).diag c.W c.charSigned⟩) ∧
        Folded c.W c.charSigned (.un op k) r ∧ (isRel ((K.un op k).toE nm).root = true → r.const = true → ∃ b, r.s = b2v b) := by
    intro tok hop ht hv he
    rw [he]
    show ∃ q lab', evUnary tok (ev c (k.toE nm)) ns = _ ∧ _
    unfold evUnary
    rw [bind_ok h1, bind_ok (chk_ok (by rw [h2.ty]; exact numeric_ok _))]
    refine ⟨_, _, rfl, mk_folded ?_ ?_ ?_, ?_⟩
    · rw [h2.ty, promote_self]; cases op <;> first | rfl | exact absurd rfl hop
    · have hval := h2.val
      simp only [K.value]
      rw [← hval]
      cases r.const
      · rfl
      · simp only [ow, if_true, hv]; rfl
    · rcases ht with rfl | rfl | rfl <;> rfl
    · intro hr
      simp only [E.root] at hr
      rcases ht with rfl | rfl | rfl <;> cases hr
  cases op with
  | plus => exact hu .uplus (by simp) (by simp) (fun s => rfl) rfl
  | neg =>
    refine hu .neg (by simp) (by simp) (fun s => ?_) rfl
    show wd c.W (~~~ (s - 1#32)) = - wd c.W s
    have : ~~~ (s - 1#32) = - s := by
      rw [← BitVec.not_neg, BitVec.not_not]
    rw [this, wd_neg hW]
  | not => exact hu .not (by simp) (by simp) (fun s => wd_not hW s) rfl
  | lnot =>
    have he : (K.un .lnot k).toE nm = .rel .eq (k.toE nm) (.num false 0#32) := rfl
    rw [he]
    show ∃ q lab', evRel c .eq (ev c (k.toE nm)) (pure ⟨0#32, .int, true, .num false 0#32⟩) ns = _ ∧ _
    unfold evRel
    rw [bind_ok (s' := ns) (a := ⟨0#32, .int, true, .num false 0#32⟩) rfl, bind_ok h1]
    have hc : relCheck c.W .eq r.ty .int r.s 0#32 r.const true = .ok () := by
      rw [h2.ty]; cases k.typeOf <;> rfl
    rw [bind_ok (chk_ok hc)]
    refine ⟨_, _, rfl, mk_folded rfl ?_ ?_, ?_⟩
    · have hval := h2.val
      simp only [K.value]
      rw [← hval]
      cases r.const
      · rfl
      · have e1 := relCalc_eq hW .eq (isUint r.ty || isUint Ty.int) r.s 0#32
        simp only [ow, Bool.and_self, if_true, Option.map_some]
        have e0 : ROp.eq.tok = Tok.eq := rfl
        rw [e0] at e1
        rw [e1, wd_b2v hW]
        congr 1
        simp only [unVal]
        congr 1
        have hz : wd c.W 0#32 = 0#(8 * c.W) := by apply BitVec.eq_of_toNat_eq; simp [wd]
        rw [hz]
        generalize wd c.W r.s = a
        cases isUint r.ty || isUint Ty.int
        · simp only [relVal, Bool.false_eq_true, if_false, BitVec.toInt_inj]
        · simp only [relVal, if_true, Int.ofNat_inj, BitVec.toNat_inj]
    · simp only [T.root]
      cases isAnyPtr r.ty || isAnyPtr Ty.int || (isUint r.ty || isUint Ty.int) <;> rfl
    · intro _ hcc
      change (r.const && true) = true at hcc
      simp only [mk, hcc, if_true]
      exact ⟨_, relCalc_eq hW .eq _ _ _⟩

theorem evk_add (hW : c.W = 2 ∨ c.W = 4) {l r : K} (op : BOp) (hop : op = .add ∨ op = .sub) (hl : EvK c nm l) (hr : EvK c nm r) : EvK c nm (.bin op l r) := by
  intro ns
  obtain ⟨rr, labr, hr1, hr2, -⟩ := hr ns
  obtain ⟨rl, labl, hl1, hl2, -⟩ := hl ⟨labr, ns.warns ++ r.diag c.W c.charSigned⟩
  have he : (K.bin op l r).toE nm = .add op.tok (l.toE nm) (r.toE nm) := by rcases hop with rfl | rfl <;> rfl
  rw [he]
  show ∃ q lab', evAdd c op.tok (ev c (l.toE nm)) (ev c (r.toE nm)) ns = _ ∧ _
  unfold evAdd
  rw [bind_ok hr1, bind_ok hl1, hl2.ty, hr2.ty, decay_it, decay_it, bind_ok (chk_ok (arith_ok c _)), bind_ok (chk_ok (arith_ok c _)), bind_ok (chk_ok (scalar_ok _)),
    bind_ok (chk_ok (scalar_ok _))]
  have hp : evAddPtr c op.tok l.typeOf.toTy r.typeOf.toTy rl rr = pure (l.typeOf.toTy, .bin op.tok 0#32 rl.t rr.t) := by
    unfold evAddPtr; simp [anyPtr_it]
  rw [hp, bind_ok (a := (l.typeOf.toTy, .bin op.tok 0#32 rl.t rr.t)) (s' := ⟨labl, ns.warns ++ r.diag c.W c.charSigned ++ l.diag c.W c.charSigned⟩) rfl]
  refine ⟨_, _, pure_ok ?_, mk_folded (k := .bin op l r) ?_ ?_ ?_, ?_⟩
  · have : (K.bin op l r).diag c.W c.charSigned = r.diag c.W c.charSigned ++ l.diag c.W c.charSigned := by
      simp only [K.diag]
      rcases hop with rfl | rfl <;> simp [binDiag]
    rw [this, ← List.append_assoc]
  · rw [promote_it]
    rcases hop with rfl | rfl <;> rfl
  · simp only [K.value]
    rw [← hl2.val, ← hr2.val]
    cases rl.const <;> cases rr.const <;> simp only [ow, Bool.false_eq_true, if_false, if_true, Bool.and_self, Bool.and_false, Bool.false_and]
    rcases hop with rfl | rfl
    · simp only [BOp.tok, if_true, wd_add hW, binVal]
    · rw [if_neg (by simp [BOp.tok]), wd_sub hW]; rfl
  · rcases hop with rfl | rfl <;> rfl
  · intro h
    rcases hop with rfl | rfl <;> cases h

theorem evk_bin (hW : c.W = 2 ∨ c.W = 4) {l r : K} (op : BOp) (h1 : op ≠ .add) (h2 : op ≠ .sub) (hl : EvK c nm l) (hr : EvK c nm r) : EvK c nm (.bin op l r) := by
  intro ns
  obtain ⟨rr, labr, hr1, hr2, -⟩ := hr ns
  obtain ⟨rl, labl, hl1, hl2, -⟩ := hl ⟨labr, ns.warns ++ r.diag c.W c.charSigned⟩
  have he : (K.bin op l r).toE nm = .bin op.tok (l.toE nm) (r.toE nm) := by cases op <;> first | rfl | exact absurd rfl h1 | exact absurd rfl h2
  rw [he]
  show ∃ q lab', evBin c op.tok (ev c (l.toE nm)) (ev c (r.toE nm)) ns = _ ∧ _
  unfold evBin
  rw [bind_ok hr1, bind_ok hl1, hl2.ty, hr2.ty, bind_ok (chk_ok (numeric_ok _)), bind_ok (chk_ok (numeric_ok _))]
  dsimp only
  have hw := binCalc_warn hW op h1 h2 l.typeOf r.typeOf rl.s rr.s rl.const rr.const
  rw [hl2.val, hr2.val] at hw
  have hv : ow c.W (binCalc c.W op.tok l.typeOf.toTy r.typeOf.toTy rl.s rr.s rl.const rr.const).const
      (binCalc c.W op.tok l.typeOf.toTy r.typeOf.toTy rl.s rr.s rl.const rr.const).s = (K.bin op l r).value c.W c.charSigned := by
    simp only [K.value]
    rw [← hl2.val, ← hr2.val]
    cases hcl : rl.const with
    | false => rw [binCalc_nc op h1 h2 _ _ _ _ false rr.const rfl]; rfl
    | true =>
      cases hcr : rr.const with
      | false => rw [binCalc_nc op h1 h2 _ _ _ _ true false rfl]; rfl
      | true => rw [binCalc_value hW op h1 h2]; rfl
  have ht : binTok (binCalc c.W op.tok l.typeOf.toTy r.typeOf.toTy rl.s rr.s rl.const rr.const).tok = true :=
    binCalc_tok (by cases op <;> rfl)
  generalize binCalc c.W op.tok l.typeOf.toTy r.typeOf.toTy rl.s rr.s rl.const rr.const = k at hw hv ht
  rw [bind_ok (a := ()) (s' := ⟨labl, (ns.warns ++ r.diag c.W c.charSigned ++ l.diag c.W c.charSigned) ++ k.warn.toList⟩) rfl]
  refine ⟨_, _, pure_ok ?_, mk_folded (k := .bin op l r) ?_ hv ?_, ?_⟩
  · rw [hw]
    simp only [K.diag, List.append_assoc]
  · cases op <;> first | exact promote_it _ _ | exact promote_int _
  · simp only [T.root]
    generalize k.tok = tok at ht
    cases tok <;> first | (cases ht; done) | rfl
  · intro h
    cases op <;> cases h

theorem evk_rel (hW : c.W = 2 ∨ c.W = 4) {l r : K} (op : ROp) (hl : EvK c nm l) (hr : EvK c nm r) : EvK c nm (.rel op l r) := by
  intro ns
  obtain ⟨rr, labr, hr1, hr2, -⟩ := hr ns
  obtain ⟨rl, labl, hl1, hl2, -⟩ := hl ⟨labr, ns.warns ++ r.diag c.W c.charSigned⟩
  show ∃ q lab', evRel c op.tok (ev c (l.toE nm)) (ev c (r.toE nm)) ns = _ ∧ _
  unfold evRel
  rw [bind_ok hr1, bind_ok hl1, hl2.ty, hr2.ty, bind_ok (chk_ok (show relCheck c.W op.tok l.typeOf.toTy r.typeOf.toTy rl.s rr.s rl.const rr.const = .ok () by
    unfold relCheck; simp [anyPtr_it, void_it]))]
  refine ⟨_, _, pure_ok ?_, mk_folded (k := .rel op l r) rfl ?_ ?_, ?_⟩
  · simp only [K.diag, ← List.append_assoc]
  · simp only [K.value]
    rw [← hl2.val, ← hr2.val]
    cases rl.const <;> cases rr.const <;> simp only [ow, Bool.false_eq_true, if_false, if_true, Bool.and_self, Bool.and_false, Bool.false_and]
    rw [relCalc_eq hW, wd_b2v hW, usual_eq]
  · simp only [T.root]
    generalize (isAnyPtr l.typeOf.toTy || isAnyPtr r.typeOf.toTy || (isUint l.typeOf.toTy || isUint r.typeOf.toTy)) = b
    cases b <;> cases op <;> rfl
  · intro _ hcc
    change (rl.const && rr.const) = true at hcc
    simp only [mk, hcc, if_true]
    exact ⟨_, relCalc_eq hW op _ _ _⟩

/-- an operand of && or || -/
theorem evk_op (hW : c.W = 2 ∨ c.W = 4) {k : K} (h : EvK c nm k) (ns : NS) :
    ∃ r lab', evCondOp c (k.toE nm).root (ev c (k.toE nm)) ns = .ok (r, ⟨lab', ns.warns ++ k.diag c.W c.charSigned⟩) ∧
      (∀ v, k.value c.W c.charSigned = some v → r.const = true ∧ r.s = b2v (v ≠ 0#_)) ∧ (k.value c.W c.charSigned = none → r.const = false) := by
  obtain ⟨r, lab', h1, h2, h3⟩ := h ns
  unfold evCondOp
  by_cases hr : isRel (k.toE nm).root = true
  · rw [if_pos hr]
    refine ⟨r, lab', h1, ?_, ?_⟩
    · intro v hv
      obtain ⟨a, b⟩ := ow_some (h2.val.trans hv)
      refine ⟨a, ?_⟩
      obtain ⟨q, hq⟩ := h3 hr a
      rw [hq, wd_b2v hW] at b
      rw [hq, ← b]
      cases q
      · rfl
      · have : (1#(8 * c.W) : BitVec (8 * c.W)) ≠ 0#_ := by
          rcases hW with h | h <;> rw [h] <;> decide
        simp [Spec.bool, this]
    · intro hv; exact ow_none (h2.val.trans hv)
  · rw [if_neg hr]
    unfold evBool
    rw [bind_ok h1, bind_ok (chk_ok (by rw [h2.ty]; exact scalar_ok _))]
    refine ⟨_, _, rfl, ?_, ?_⟩
    · intro v hv
      obtain ⟨a, b⟩ := ow_some (h2.val.trans hv)
      refine ⟨a, ?_⟩
      show b2v _ = b2v _
      congr 1
      rw [Bool.eq_iff_iff, bne_iff_ne, decide_eq_true_iff, ne_eq, ne_eq, truncInt_zero hW, b]
    · intro hv; exact ow_none (h2.val.trans hv)

theorem evk_logic (hW : c.W = 2 ∨ c.W = 4) {l r : K} (isAnd : Bool) (hl : EvK c nm l) (hr : EvK c nm r) : EvK c nm (if isAnd then .land l r else .lor l r) := by
  intro ns
  obtain ⟨rr, labr, hr1, hr2, hr3⟩ := evk_op hW hr ⟨ns.lab + 1, ns.warns⟩
  obtain ⟨rl, labl, hl1, hl2, hl3⟩ := evk_op hW hl ⟨labr, ns.warns ++ r.diag c.W c.charSigned⟩
  have he : ((if isAnd = true then K.land l r else K.lor l r).toE nm) = .logic isAnd (l.toE nm) (r.toE nm) := by cases isAnd <;> rfl
  rw [he]
  show ∃ q lab', evLogic c isAnd (l.toE nm).root (r.toE nm).root (ev c (l.toE nm)) (ev c (r.toE nm)) ns = _ ∧ _
  unfold evLogic
  rw [bind_ok (a := ns.lab) (s' := ⟨ns.lab + 1, ns.warns⟩) rfl, bind_ok hr1, bind_ok hl1]
  refine ⟨_, _, pure_ok ?_, mk_folded (k := (if isAnd = true then K.land l r else K.lor l r)) ?_ ?_ ?_, ?_⟩
  · have : ((if isAnd = true then K.land l r else K.lor l r).diag c.W c.charSigned) = r.diag c.W c.charSigned ++ l.diag c.W c.charSigned := by cases isAnd <;> rfl
    rw [this, ← List.append_assoc]
  · cases isAnd <;> rfl
  · have h10 : wd c.W 1#32 = 1#(8 * c.W) := by rcases hW with h | h <;> rw [h] <;> rfl
    unfold wd at h10
    cases hvl : l.value c.W c.charSigned with
    | none =>
      have e : (if isAnd = true then K.land l r else K.lor l r).value c.W c.charSigned = none := by cases isAnd <;> simp [K.value, hvl]
      rw [e, hl3 hvl]
      simp [ow, decides]
    | some a =>
      obtain ⟨cl, sl⟩ := hl2 a hvl
      cases hvr : r.value c.W c.charSigned with
      | none =>
        rw [hr3 hvr, cl, sl]
        by_cases ha : a = 0#(8 * c.W) <;> cases isAnd <;> simp [K.value, hvl, hvr, ha, logicCalc, decides, b2v, ow, bne, h10]
      | some b =>
        obtain ⟨cr, sr⟩ := hr2 b hvr
        rw [cr, cl, sl, sr]
        by_cases ha : a = 0#(8 * c.W) <;> by_cases hb : b = 0#(8 * c.W) <;> cases isAnd <;> simp [K.value, hvl, hvr, ha, hb, logicCalc, decides, b2v, ow, bne, Spec.bool, h10]
  · cases isAnd <;> rfl
  · intro h; cases isAnd <;> cases h

theorem condTy_it (W : Nat) (a b : IT) (cm cr : Bool) (x y : Tok × V) : condTy W a.toTy b.toTy cm cr x y = .ok (a.usual b).toTy := by cases a <;> cases b <;> rfl

theorem hide_num {t : T} {sc : Nat} (h : isNum t.root.1 = false) : isNum (t.hide sc).root.1 = false := by
  unfold T.hide
  split
  · rfl
  · exact h

theorem evk_cond (hW : c.W = 2 ∨ c.W = 4) {k m r : K} (hk : EvK c nm k) (hm : EvK c nm m) (hr : EvK c nm r) : EvK c nm (.cond k m r) := by
  intro ns
  obtain ⟨rm, labm, hm1, hm2, -⟩ := hm ⟨ns.lab + 2, ns.warns⟩
  obtain ⟨rr, labr, hr1, hr2, -⟩ := hr ⟨labm, ns.warns ++ m.diag c.W c.charSigned⟩
  obtain ⟨rk, labk, hk1, hk2, -⟩ := hk ⟨labr, ns.warns ++ m.diag c.W c.charSigned ++ r.diag c.W c.charSigned⟩
  show ∃ q lab', evCond c (ev c (k.toE nm)) (ev c (m.toE nm)) (ev c (r.toE nm)) ns = _ ∧ _
  unfold evCond
  rw [bind_ok (a := ns.lab) (s' := ⟨ns.lab + 2, ns.warns⟩) rfl, bind_ok hm1, bind_ok hr1, hm2.ty, hr2.ty, bind_ok (chk_ok (condTy_it _ _ _ _ _ _ _)), bind_ok hk1,
    bind_ok (chk_ok (by rw [hk2.ty]; exact scalar_ok _))]
  refine ⟨_, _, pure_ok ?_, ?_, ?_⟩
  · simp only [K.diag, ← List.append_assoc]
  · have hz : (truncUint c.W rk.s != 0#32) = decide (wd c.W rk.s ≠ 0#_) := by
      rw [Bool.eq_iff_iff, bne_iff_ne, decide_eq_true_iff, ne_eq, ne_eq, truncUint_zero hW]
    rw [hz]
    have hval : (K.cond k m r).value c.W c.charSigned = match ow c.W rk.const rk.s with
        | none => none
        | some a => if a ≠ 0#_ then ow c.W rm.const rm.s else ow c.W rr.const rr.s := by
      rw [hk2.val, hm2.val, hr2.val]; simp only [K.value]; cases k.value c.W c.charSigned <;> rfl
    cases hkc : rk.const with
    | false =>
      rw [hkc] at hval
      simp only [Bool.false_and, condRes, Bool.false_eq_true, if_false]
      refine mk_folded (k := .cond k m r) rfl ?_ rfl
      rw [hval]; rfl
    | true =>
      rw [hkc] at hval
      simp only [Bool.true_and]
      change _ = (if wd c.W rk.s ≠ 0#_ then ow c.W rm.const rm.s else ow c.W rr.const rr.s) at hval
      by_cases hne : wd c.W rk.s ≠ 0#_
      · rw [if_pos hne] at hval
        simp only [hne, decide_true, if_true, ne_eq, not_false_eq_true]
        cases hmc : rm.const with
        | true =>
          simp only [Bool.not_true, condRes, Bool.false_eq_true, if_false, if_true]
          refine mk_folded (k := .cond k m r) rfl ?_ rfl
          rw [hval, hmc]
        | false =>
          simp only [Bool.not_false, condRes, if_true, Bool.false_eq_true, if_false]
          refine ⟨rfl, ?_, (fun h => by cases h), fun _ => hide_num (hm2.nc hmc)⟩
          rw [hval, hmc]; rfl
      · rw [if_neg hne] at hval
        simp only [hne, decide_false, Bool.false_eq_true, if_false]
        cases hmc : rr.const with
        | true =>
          simp only [Bool.not_true, condRes, Bool.false_eq_true, if_false, if_true]
          refine mk_folded (k := .cond k m r) rfl ?_ rfl
          rw [hval, hmc]
        | false =>
          simp only [Bool.not_false, condRes, if_true, Bool.false_eq_true, if_false]
          refine ⟨rfl, ?_, (fun h => by cases h), fun _ => hide_num (hr2.nc hmc)⟩
          rw [hval, hmc]; rfl
  · intro h; cases h

theorem evk_comma {l r : K} (hl : EvK c nm l) (hr : EvK c nm r) : EvK c nm (.comma l r) := by
  intro ns
  obtain ⟨rr, labr, hr1, hr2, -⟩ := hr ns
  obtain ⟨rl, labl, hl1, hl2, -⟩ := hl ⟨labr, ns.warns ++ r.diag c.W c.charSigned⟩
  show ∃ q lab', evComma (ev c (l.toE nm)) (ev c (r.toE nm)) ns = _ ∧ _
  unfold evComma
  rw [bind_ok hr1, bind_ok hl1]
  refine ⟨_, _, pure_ok ?_, ?_, fun h => by cases h⟩
  · simp only [K.diag, ← List.append_assoc]
  · have hval : (K.comma l r).value c.W c.charSigned = match ow c.W rl.const rl.s with
        | none => none
        | some _ => ow c.W rr.const rr.s := by
      rw [hl2.val, hr2.val]; simp only [K.value]; cases l.value c.W c.charSigned <;> rfl
    cases hlc : rl.const with
    | false =>
      rw [hlc] at hval
      simp only [Bool.false_and, Bool.false_eq_true, if_false]
      exact mk_folded (k := .comma l r) hr2.ty (by rw [hval]; rfl) rfl
    | true =>
      rw [hlc] at hval
      cases hrc : rr.const with
      | true =>
        rw [hrc] at hval
        simp only [Bool.not_true, Bool.and_false, Bool.false_eq_true, if_false, Bool.and_self]
        exact mk_folded (k := .comma l r) hr2.ty (by rw [hval]; rfl) rfl
      | false =>
        rw [hrc] at hval
        simp only [Bool.not_false, Bool.and_self, if_true]
        exact ⟨hr2.ty, by rw [hval]; rfl, (fun h => by cases h), fun _ => rfl⟩

theorem ev_fold (hW : c.W = 2 ∨ c.W = 4) (hnm : ∀ t, c.env (nm t) = some (.cast t.toTy)) : ∀ k : K, k.OK c → EvK c nm k := by
  intro k
  induction k with
  | lit u n =>
    intro _ ns
    refine ⟨⟨n, if u then .uint else .int, true, .num u n⟩, ns.lab, ?_, ⟨?_, ?_, fun _ => ?_, fun h => by cases h⟩, ?_⟩
    · simp only [K.diag, List.append_nil]; rfl
    · cases u <;> rfl
    · simp only [ow, if_true, K.value, wd_ofNat_toNat hW]
    · cases u <;> rfl
    · intro h; cases u <;> cases h
  | enum s n =>
    intro hk ns
    refine ⟨⟨n, .int, true, .num false n⟩, ns.lab, ?_, ⟨rfl, ?_, fun _ => rfl, fun h => by cases h⟩, ?_⟩
    · simp only [K.diag, List.append_nil, K.toE, ev, evId, show c.env s = some (.enumConst n) from hk]; rfl
    · simp only [ow, if_true, K.value, wd_ofNat_toNat hW]
    · intro h; cases h
  | cast t k ih => intro hk; exact evk_cast hW hnm hk.1 (ih hk.2)
  | sizeof k ih => intro hk; exact evk_sizeof hW (ih hk)
  | un op k ih => intro hk; exact evk_un hW op (ih hk)
  | bin op l r ihl ihr =>
    intro hk
    by_cases h : op = .add ∨ op = .sub
    · exact evk_add hW op h (ihl hk.1) (ihr hk.2)
    · exact evk_bin hW op (fun e => h (Or.inl e)) (fun e => h (Or.inr e)) (ihl hk.1) (ihr hk.2)
  | rel op l r ihl ihr => intro hk; exact evk_rel hW op (ihl hk.1) (ihr hk.2)
  | land l r ihl ihr => intro hk; exact evk_logic hW true (ihl hk.1) (ihr hk.2)
  | lor l r ihl ihr => intro hk; exact evk_logic hW false (ihl hk.1) (ihr hk.2)
  | cond k m r ihk ihm ihr => intro hk; exact evk_cond hW (ihk hk.1) (ihm hk.2.1) (ihr hk.2.2)
  | comma l r ihl ihr => intro hk; exact evk_comma (ihl hk.1) (ihr hk.2)

theorem toE_wf (hnm : ∀ t, c.env (nm t) = some (.cast t.toTy)) : ∀ k : K, k.OK c → (k.toE nm).WF c.env := by
  intro k
  induction k with
  | lit u n => intro _; trivial
  | enum s n => intro hk t h; rw [show c.env s = some (.enumConst n) from hk] at h; cases h
  | cast t k ih => intro hk; exact ⟨⟨_, hnm t⟩, ih hk.2⟩
  | sizeof k ih => intro hk; exact ih hk
  | un op k ih =>
    intro hk
    cases op with
    | lnot => exact ⟨by simp, ih hk, trivial⟩
    | plus => exact ⟨by simp, ih hk⟩
    | neg => exact ⟨by simp, ih hk⟩
    | not => exact ⟨by simp, ih hk⟩
  | bin op l r ihl ihr =>
    intro hk
    cases op <;> exact ⟨by simp [BOp.tok], ihl hk.1, ihr hk.2⟩
  | rel op l r ihl ihr => intro hk; exact ⟨by cases op <;> simp [ROp.tok], ihl hk.1, ihr hk.2⟩
  | land l r ihl ihr => intro hk; exact ⟨ihl hk.1, ihr hk.2⟩
  | lor l r ihl ihr => intro hk; exact ⟨ihl hk.1, ihr hk.2⟩
  | cond k m r ihk ihm ihr => intro hk; exact ⟨ihk hk.1, ihm hk.2.1, ihr hk.2.2⟩
  | comma l r ihl ihr => intro hk; exact ⟨ihl hk.1, ihr hk.2⟩

end Smlr.Expr
