import Verif.Trans.Ref
import Verif.Cg.Word
set_option autoImplicit false
/-! Laws for the replacements that `exprval` makes. -/
namespace Smlr.Trans
open Smlr.Cg
variable {W : Nat} {V : Env W}

theorem wd_word (x : Wd W) : wd W x.toInt = x := by simp [wd]

theorem steps_plus {y : E} {m m' : Mem W} {v : Int} (h : Steps V y m (.num v) m') : ∃ w, wd W w = wd W v ∧ Steps V (.un .plus y) m (.num w) m' :=
  ⟨_, by rw [unary, wd_word], ((hole_un V .plus).steps h).trans (.one (.un _ _ _))⟩

/-- unary plus changes nothing -/
theorem plus_ref {x y : E} (h : Ref V x y) : Ref V (.un .plus x) y := by
  refine ref_ctx (f := .un .plus) (g := fun y => y) ⟨fun h => h, fun h => h⟩ (by simp) ?_ ?_ ?_ h
  · intro e m z m' hs
    cases hs with
    | un => exact Or.inr ⟨_, rfl⟩
    | unC k => exact Or.inl ⟨_, k, rfl⟩
  · intro e m hu
    cases hu with
    | unC k => exact Or.inl k
  · intro v w m e _
    refine ⟨fun z m' hs => ?_, fun hu => ?_⟩
    · cases hs with
      | un => exact ⟨_, .refl _ _, ref_num_eq (by rw [unary, wd_word, e])⟩
      | unC k => nomatch k
    · cases hu with
      | unC k => nomatch k

/-- an operator of the old expression that the new one does not have -/
theorem ref_drop {g : E → E} (hg : Hole V g) (fin : ∀ v m, ∃ w, wd W w = wd W v ∧ Steps V (g (.num v)) m (.num w) m) {x y : E} (h : Ref V x y) : Ref V x (g y) := by
  refine .coind (fun a b => ∃ y, Ref V a y ∧ b = g y) ?_ ⟨y, h, rfl⟩
  rintro a _ ⟨y, h, rfl⟩
  refine ⟨fun m z m' hs sf => ?_, fun m hu => ?_, ?_⟩
  · obtain ⟨y', s1, r1⟩ := h.sim.step _ _ _ hs (hg.safe sf)
    exact ⟨_, hg.steps s1, Or.inl ⟨y', r1, rfl⟩⟩
  · obtain ⟨y', m', s1, u1⟩ := h.sim.ub _ hu
    exact ⟨_, m', hg.steps s1, hg.ub u1⟩
  · rintro v rfl m sf
    obtain ⟨w, e, s1⟩ := h.num m (hg.safe sf)
    obtain ⟨u, e2, s2⟩ := fin w m
    exact ⟨u, e2.trans e, (hg.steps s1).trans s2⟩

theorem ref_plus {x y : E} (h : Ref V x y) : Ref V x (.un .plus y) :=
  ref_drop (hole_un V .plus) (fun v _ => ⟨_, by rw [unary, wd_word], .one (.un .plus v _)⟩) h

theorem ref_void {x y : E} (h : Ref V x y) : Ref V x (.un .void y) :=
  ref_drop (hole_un V .void) (fun v _ => ⟨_, by rw [unary, wd_word], .one (.un .void v _)⟩) h

theorem wd_add' (v w : Int) : wd W (v + w) = wd W v + wd W w := by simp only [wd, BitVec.ofInt_add]
theorem wd_mul' (v w : Int) : wd W (v * w) = wd W v * wd W w := by simp only [wd, BitVec.ofInt_mul]
theorem wd_neg' (v : Int) : wd W (-v) = - wd W v := by simp only [wd, BitVec.ofInt_neg]
theorem wd_sub' (v w : Int) : wd W (v - w) = wd W v - wd W w := by
  rw [Int.sub_eq_add_neg, wd_add', wd_neg', BitVec.sub_eq_add_neg]

/-- the word of the value of an operator that always has one -/
theorem arith_add (x y : Wd W) : ∃ z, arith .add x y = some z ∧ wd W z = x + y := ⟨_, rfl, by rw [wd_add', wd_word, wd_word]⟩
theorem arith_sub (x y : Wd W) : ∃ z, arith .sub x y = some z ∧ wd W z = x - y := ⟨_, rfl, by rw [wd_sub', wd_word, wd_word]⟩
theorem arith_mul (x y : Wd W) : ∃ z, arith .mul x y = some z ∧ wd W z = x * y := ⟨_, rfl, by rw [wd_mul', wd_word, wd_word]⟩

/-- multiplication by one -/
theorem ref_mul_one {n : Int} (hn : wd W n = wd W 1) {x y : E} (h : Ref V x y) : Ref V x (.bin .mul y (.num n)) := by
  refine ref_drop (hole_binL V .mul _) (fun v m => ?_) h
  obtain ⟨z, h1, h2⟩ := arith_mul (wd W v) (wd W n)
  refine ⟨z, ?_, .one (.bin m h1)⟩
  rw [h2, hn]
  have : wd W 1 = 1#(8 * W) := by simp [wd]
  rw [this, BitVec.mul_one]

/-- division by one -/
theorem ref_div_one (hW : W = 2 ∨ W = 4) {n : Int} (hn : n = 1) {x y : E} (h : Ref V x y) : Ref V x (.bin .div y (.num n)) := by
  subst hn
  refine ref_drop (hole_binL V .div _) (fun v m => ?_) h
  have h1 : (wd W 1).toInt = 1 := by rcases hW with rfl | rfl <;> decide
  have : arith .div (wd W v) (wd W 1) = some (wd W v).toInt := by
    unfold arith
    rw [h1, if_neg (by omega), Int.tdiv_one]
  exact ⟨_, wd_word _, .one (.bin m this)⟩

/-- subtraction is addition of the negative number -/
theorem ref_sub_neg {d n : Int} (hd : wd W d = - wd W n) {x y : E} (h : Ref V x y) : Ref V (.bin .add x (.num d)) (.bin .sub y (.num n)) := by
  refine ref_ctx (f := fun x => .bin .add x (.num d)) (g := fun y => .bin .sub y (.num n)) (hole_binL V _ _) (by simp) ?_ ?_ ?_ h
  · intro e m z m' hs
    cases hs with
    | bin => exact Or.inr ⟨_, rfl⟩
    | binL k => exact Or.inl ⟨_, k, rfl⟩
    | binR k => nomatch k
  · intro e m hu
    cases hu with
    | bin => exact Or.inr ⟨_, rfl⟩
    | binL k => exact Or.inl k
    | binR k => nomatch k
  · intro v w m e _
    refine ⟨fun z m' hs => ?_, fun hu => ?_⟩
    · cases hs with
      | bin _ ha =>
        obtain ⟨z1, h1, h2⟩ := arith_add (wd W v) (wd W d)
        obtain ⟨z2, h3, h4⟩ := arith_sub (wd W w) (wd W n)
        rw [h1] at ha
        cases ha
        exact ⟨_, .one (.bin _ h3), ref_num_eq (by rw [h2, h4, e, hd, BitVec.sub_eq_add_neg])⟩
      | binL k => nomatch k
      | binR k => nomatch k
    · cases hu with
      | bin _ _ _ _ ha => obtain ⟨z, h1, _⟩ := arith_add (wd W v) (wd W d); rw [h1] at ha; cases ha
      | binL k => nomatch k
      | binR k => nomatch k

/-- a number may be added from the other side -/
theorem ref_add_comm {d : Int} {x y : E} (h : Ref V x y) : Ref V (.bin .add x (.num d)) (.bin .add (.num d) y) := by
  refine ref_ctx (f := fun x => .bin .add x (.num d)) (g := fun y => .bin .add (.num d) y) (hole_binR V _ _) (by simp) ?_ ?_ ?_ h
  · intro e m z m' hs
    cases hs with
    | bin => exact Or.inr ⟨_, rfl⟩
    | binL k => exact Or.inl ⟨_, k, rfl⟩
    | binR k => nomatch k
  · intro e m hu
    cases hu with
    | bin => exact Or.inr ⟨_, rfl⟩
    | binL k => exact Or.inl k
    | binR k => nomatch k
  · intro v w m e _
    refine ⟨fun z m' hs => ?_, fun hu => ?_⟩
    · cases hs with
      | bin _ ha =>
        obtain ⟨z1, h1, h2⟩ := arith_add (wd W v) (wd W d)
        obtain ⟨z2, h3, h4⟩ := arith_add (wd W d) (wd W w)
        rw [h1] at ha
        cases ha
        exact ⟨_, .one (.bin _ h3), ref_num_eq (by rw [h2, h4, e, BitVec.add_comm])⟩
      | binL k => nomatch k
      | binR k => nomatch k
    · cases hu with
      | bin _ _ _ _ ha => obtain ⟨z, h1, _⟩ := arith_add (wd W v) (wd W d); rw [h1] at ha; cases ha
      | binL k => nomatch k
      | binR k => nomatch k

/-- the two additions may be done the other way round -/
theorem ref_assoc (l r : E) (d : Int) : Ref V (.bin .add l (.bin .add r (.num d))) (.bin .add (.bin .add l r) (.num d)) := by
  refine .coind (fun a b => ∃ l, (∃ r, a = .bin .add l (.bin .add r (.num d)) ∧ b = .bin .add (.bin .add l r) (.num d)) ∨
    ∃ v w, a = .bin .add l (.num v) ∧ b = .bin .add (.bin .add l (.num w)) (.num d) ∧ wd W v = wd W w + wd W d) ?_ ⟨l, Or.inl ⟨r, rfl, rfl⟩⟩
  have HL : ∀ r : E, Hole V (fun l => .bin .add (.bin .add l r) (.num d)) := fun r => (hole_binL V .add (.num d)).comp (hole_binL V .add r)
  have HR : ∀ l : E, Hole V (fun r => .bin .add (.bin .add l r) (.num d)) := fun l => (hole_binL V .add (.num d)).comp (hole_binR V .add l)
  rintro _ _ ⟨l, ⟨r, rfl, rfl⟩ | ⟨v, w, rfl, rfl, e⟩⟩
  · refine ⟨fun m z m' hs sf => ?_, fun m hu => ?_, fun v hv => nomatch hv⟩
    · cases hs with
      | binL k => exact ⟨_, .one ((HL r).step k), Or.inl ⟨_, Or.inl ⟨r, rfl, rfl⟩⟩⟩
      | binR k =>
        cases k with
        | bin _ ha =>
          rename_i v x
          obtain ⟨z, h1, h2⟩ := arith_add (wd W v) (wd W d)
          rw [h1] at ha
          cases ha
          exact ⟨_, .refl _ _, Or.inl ⟨l, Or.inr ⟨_, _, rfl, rfl, h2⟩⟩⟩
        | binL k => exact ⟨_, .one ((HR l).step k), Or.inl ⟨l, Or.inl ⟨_, rfl, rfl⟩⟩⟩
        | binR k => nomatch k
    · cases hu with
      | binL k => exact ⟨_, m, .refl _ _, (HL r).ub k⟩
      | binR k =>
        cases k with
        | bin _ v _ _ ha => obtain ⟨z, h1, _⟩ := arith_add (wd W v) (wd W d); rw [h1] at ha; cases ha
        | binL k => exact ⟨_, m, .refl _ _, (HR l).ub k⟩
        | binR k => nomatch k
  · refine ⟨fun m z m' hs sf => ?_, fun m hu => ?_, fun v hv => nomatch hv⟩
    · cases hs with
      | bin _ ha =>
        rename_i u x
        obtain ⟨z1, h1, h2⟩ := arith_add (wd W u) (wd W v)
        obtain ⟨z2, h3, h4⟩ := arith_add (wd W u) (wd W w)
        obtain ⟨z3, h5, h6⟩ := arith_add (wd W z2) (wd W d)
        rw [h1] at ha
        cases ha
        refine ⟨_, (Steps.one ((hole_binL V .add (.num d)).step (.bin m h3))).trans (.one (.bin m h5)), Or.inr (ref_num_eq ?_)⟩
        rw [h2, h6, h4, e, BitVec.add_assoc]
      | binL k => exact ⟨_, .one ((HL _).step k), Or.inl ⟨_, Or.inr ⟨v, w, rfl, rfl, e⟩⟩⟩
      | binR k => nomatch k
    · cases hu with
      | bin _ u _ _ ha => obtain ⟨z, h1, _⟩ := arith_add (wd W u) (wd W v); rw [h1] at ha; cases ha
      | binL k => exact ⟨_, m, .refl _ _, (HL _).ub k⟩
      | binR k => nomatch k

/-- addresses in the frame -/
theorem ref_loc_add (o p d : Int) (h : wd W p = wd W o + wd W d) : Ref V (.loc p) (.bin .add (.loc o) (.num d)) := by
  refine .coind (fun a b => a = .loc p ∧ b = .bin .add (.loc o) (.num d)) ?_ ⟨rfl, rfl⟩
  rintro _ _ ⟨rfl, rfl⟩
  refine ⟨fun m z m' hs sf => ?_, fun m hu => (nomatch hu), fun v hv => nomatch hv⟩
  cases hs
  obtain ⟨z, h1, h2⟩ := arith_add (wd W (V.bp + wd W o).toInt) (wd W d)
  refine ⟨_, (Steps.one ((hole_binL V .add (.num d)).step (.loc o m))).trans (.one (.bin m h1)), Or.inr (ref_num_eq ?_)⟩
  rw [h2, wd_word, wd_word, h, BitVec.add_assoc]

/-- a number that has been folded -/
theorem ref_fold2 {g : E → E → E} (hl : ∀ r, Hole V (fun l => g l r)) (hr : ∀ l, Hole V (g l)) {v w z : Int} {l r : E} (h1 : Ref V (.num v) l) (h2 : Ref V (.num w) r)
    (fin : ∀ v' w' m, wd W v' = wd W v → wd W w' = wd W w → Safe V (g (.num v') (.num w')) m → ∃ z', wd W z' = wd W z ∧ Steps V (g (.num v') (.num w')) m (.num z') m) : Ref V (.num z) (g l r) := by
  refine ref_num fun m sf => ?_
  obtain ⟨v', e1, s1⟩ := h1.num m ((hl r).safe sf)
  have sf1 := safe_steps sf ((hl r).steps s1)
  obtain ⟨w', e2, s2⟩ := h2.num m ((hr _).safe sf1)
  obtain ⟨z', e3, s3⟩ := fin v' w' m e1 e2 (safe_steps sf1 ((hr _).steps s2))
  exact ⟨z', e3, (((hl r).steps s1).trans ((hr _).steps s2)).trans s3⟩

theorem ref_fold1 {g : E → E} (hg : Hole V g) {v z : Int} {x : E} (h : Ref V (.num v) x)
    (fin : ∀ v' m, wd W v' = wd W v → ∃ z', wd W z' = wd W z ∧ Steps V (g (.num v')) m (.num z') m) : Ref V (.num z) (g x) := by
  refine ref_num fun m sf => ?_
  obtain ⟨v', e1, s1⟩ := h.num m (hg.safe sf)
  obtain ⟨z', e3, s3⟩ := fin v' m e1
  exact ⟨z', e3, (hg.steps s1).trans s3⟩

theorem ref_fold_bin (o : Ar) {v w z : Int} {l r : E} (h1 : Ref V (.num v) l) (h2 : Ref V (.num w) r)
    (fin : ∀ z', arith o (wd W v) (wd W w) = some z' → wd W z' = wd W z) : Ref V (.num z) (.bin o l r) := by
  refine ref_fold2 (hole_binL V o) (hole_binR V o) h1 h2 fun v' w' m e1 e2 sf => ?_
  cases h : arith o (wd W v') (wd W w') with
  | none => exact absurd (.bin _ _ _ _ h) (sf _ _ (.refl _ _))
  | some z' => exact ⟨z', fin z' (by rw [← e1, ← e2]; exact h), .one (.bin m h)⟩

/-- if the first steps of the old expression are always the same -/
theorem ref_first {x y z : E} (key : ∀ m, Safe V z m → Steps V z m y m) (h2 : Ref V x y) : Ref V x z := by
  refine .coind (fun a b => a = x ∧ b = z) ?_ ⟨rfl, rfl⟩
  rintro _ _ ⟨rfl, rfl⟩
  refine ⟨fun m z m' hs sf => ?_, fun m hu => bad_of fun sf => ?_, fun v hv m sf => ?_⟩
  · obtain ⟨y', s1, r1⟩ := h2.sim.step _ _ _ hs (safe_steps sf (key m sf))
    exact ⟨y', (key m sf).trans s1, Or.inr r1⟩
  · obtain ⟨y', m', s1, u1⟩ := h2.sim.ub _ hu
    exact sf y' m' ((key m sf).trans s1) u1
  · obtain ⟨w, e, s1⟩ := h2.sim.val v hv m (safe_steps sf (key m sf))
    exact ⟨w, e, (key m sf).trans s1⟩

/-- the left operand of a comma has no effect -/
theorem ref_comma_num {v : Int} {l r x : E} (h1 : Ref V (.num v) l) (h2 : Ref V x r) : Ref V x (.comma l r) := by
  refine ref_first (fun m sf => ?_) h2
  obtain ⟨w, _, s⟩ := h1.num m ((hole_comma V r).safe sf)
  exact ((hole_comma V r).steps s).trans (.one (.comma _ _ _))

/-- a condition that is constant -/
theorem ref_cond_num {v : Int} {c m r x : E} {lab : Int} (h1 : Ref V (.num v) c) (h2 : Ref V x (if wd W v = 0 then r else m)) : Ref V x (.cond lab c m r) := by
  refine ref_first (fun mm sf => ?_) h2
  obtain ⟨w, e, s⟩ := h1.num mm ((hole_cond V lab m r).safe sf)
  refine ((hole_cond V lab m r).steps s).trans (.one ?_)
  by_cases hz : wd W v = 0
  · rw [if_pos hz]; exact .condF _ _ _ _ _ (e.trans hz)
  · rw [if_neg hz]; exact .condT _ _ _ _ _ (e ▸ hz)

theorem unary_bool (x : Wd W) : unary .bool x = b2i (x ≠ 0) := by
  have : x.toNat ≠ 0 ↔ x ≠ 0 := not_congr ⟨fun h => BitVec.eq_of_toNat_eq (by rw [h]; simp), fun h => by rw [h]; simp⟩
  simp only [unary, this]

/-- the operand of `&&` is zero, or of `||` is not -/
theorem ref_land_zero {v : Int} {l r : E} {lab : Int} (h1 : Ref V (.num v) l) (hz : wd W v = 0) : Ref V (.num 0) (.land lab l r) := by
  refine ref_num fun mm sf => ?_
  obtain ⟨w, e, s⟩ := h1.num mm ((hole_land V lab r).safe sf)
  exact ⟨0, rfl, ((hole_land V lab r).steps s).trans (.one (.landF _ _ _ _ (e.trans hz)))⟩

theorem ref_lor_one {v : Int} {l r : E} {lab : Int} (h1 : Ref V (.num v) l) (hz : wd W v ≠ 0) : Ref V (.num 1) (.lor lab l r) := by
  refine ref_num fun mm sf => ?_
  obtain ⟨w, e, s⟩ := h1.num mm ((hole_lor V lab r).safe sf)
  exact ⟨1, rfl, ((hole_lor V lab r).steps s).trans (.one (.lorT _ _ _ _ (e ▸ hz)))⟩

theorem ref_land_num {v w : Int} {l r : E} {lab : Int} (h1 : Ref V (.num v) l) (h2 : Ref V (.num w) r) (hz : wd W v ≠ 0) : Ref V (.num (b2i (wd W w ≠ 0))) (.land lab l r) := by
  refine ref_num fun mm sf => ?_
  obtain ⟨v', e1, s1⟩ := h1.num mm ((hole_land V lab r).safe sf)
  have s3 := ((hole_land V lab r).steps s1).trans (.one (.landT _ _ _ _ (e1 ▸ hz)))
  obtain ⟨w', e2, s2⟩ := h2.num mm ((hole_un V .bool).safe (safe_steps sf s3))
  refine ⟨_, ?_, (s3.trans ((hole_un V .bool).steps s2)).trans (.one (.un _ _ _))⟩
  rw [e2, unary_bool]

theorem ref_lor_num {v w : Int} {l r : E} {lab : Int} (h1 : Ref V (.num v) l) (h2 : Ref V (.num w) r) (hz : wd W v = 0) : Ref V (.num (b2i (wd W w ≠ 0))) (.lor lab l r) := by
  refine ref_num fun mm sf => ?_
  obtain ⟨v', e1, s1⟩ := h1.num mm ((hole_lor V lab r).safe sf)
  have s3 := ((hole_lor V lab r).steps s1).trans (.one (.lorF _ _ _ _ (e1.trans hz)))
  obtain ⟨w', e2, s2⟩ := h2.num mm ((hole_un V .bool).safe (safe_steps sf s3))
  refine ⟨_, ?_, (s3.trans ((hole_un V .bool).steps s2)).trans (.one (.un _ _ _))⟩
  rw [e2, unary_bool]

theorem b2i_zero (hW : W = 2 ∨ W = 4) (b : Bool) : wd W (b2i b) = 0 ↔ b = false := by
  rcases hW with rfl | rfl <;> cases b <;> decide

theorem b2i_bool (hW : W = 2 ∨ W = 4) (b : Bool) : wd W (b2i (decide (wd W (b2i b) ≠ 0))) = wd W (b2i b) := by
  rcases hW with rfl | rfl <;> cases b <;> decide

/-- a second conversion changes nothing -/
theorem bool_bool (hW : W = 2 ∨ W = 4) (x : E) : Ref V (.un .bool (.un .bool x)) (.un .bool x) := by
  refine .coind (fun a b => (∃ x, a = .un .bool (.un .bool x) ∧ b = .un .bool x) ∨ ∃ v : Bool, a = .un .bool (.num (b2i v)) ∧ b = .num (b2i v)) ?_ (Or.inl ⟨x, rfl, rfl⟩)
  rintro _ _ (⟨x, rfl, rfl⟩ | ⟨v, rfl, rfl⟩)
  · refine ⟨fun m z m' hs sf => ?_, fun m hu => ?_, fun v hv => nomatch hv⟩
    · cases hs with
      | unC k =>
        cases k with
        | un _ v => exact ⟨_, .one (.un _ _ _), Or.inl (Or.inr ⟨_, by rw [unary_bool], by rw [unary_bool]⟩)⟩
        | unC k => exact ⟨_, .one (.unC k), Or.inl (Or.inl ⟨_, rfl, rfl⟩)⟩
    · cases hu with
      | unC k => exact ⟨_, m, .refl _ _, k⟩
  · refine ⟨fun m z m' hs sf => ?_, fun m hu => ?_, fun v hv => nomatch hv⟩
    · cases hs with
      | un =>
        refine ⟨_, .refl _ _, Or.inr (ref_num_eq ?_)⟩
        rw [unary_bool, b2i_bool hW]
      | unC k => nomatch k
    · cases hu with
      | unC k => nomatch k

theorem land_bool (hW : W = 2 ∨ W = 4) (b : Int) (l r : E) : Ref V (.land b (.un .bool l) (.un .bool r)) (.land b l r) := by
  refine .coind (fun x y => (∃ l, x = .land b (.un .bool l) (.un .bool r) ∧ y = .land b l r) ∨
    ∃ v, x = .land b (.num (b2i (wd W v ≠ 0))) (.un .bool r) ∧ y = .land b (.num v) r) ?_ (Or.inl ⟨l, rfl, rfl⟩)
  rintro _ _ (⟨l, rfl, rfl⟩ | ⟨v, rfl, rfl⟩)
  · refine ⟨fun m z m' hs sf => ?_, fun m hu => ?_, fun v hv => nomatch hv⟩
    · cases hs with
      | landC k =>
        cases k with
        | un _ v => exact ⟨_, .refl _ _, Or.inl (Or.inr ⟨v, by rw [unary_bool], rfl⟩)⟩
        | unC k => exact ⟨_, .one (.landC k), Or.inl (Or.inl ⟨_, rfl, rfl⟩)⟩
    · cases hu with
      | landC k =>
        cases k with
        | unC k => exact ⟨_, m, .refl _ _, .landC k⟩
  · refine ⟨fun m z m' hs sf => ?_, fun m hu => ?_, fun v hv => nomatch hv⟩
    · cases hs with
      | landF _ _ _ _ k =>
        rw [b2i_zero hW, decide_eq_false_iff_not, Classical.not_not] at k
        exact ⟨_, .one (.landF _ _ _ _ k), Or.inr (.refl _)⟩
      | landT _ _ _ _ k =>
        rw [ne_eq, b2i_zero hW, decide_eq_false_iff_not, Classical.not_not] at k
        exact ⟨_, .one (.landT _ _ _ _ k), Or.inr (bool_bool hW r)⟩
      | landC k => nomatch k
    · cases hu with
      | landC k => nomatch k

theorem lor_bool (hW : W = 2 ∨ W = 4) (b : Int) (l r : E) : Ref V (.lor b (.un .bool l) (.un .bool r)) (.lor b l r) := by
  refine .coind (fun x y => (∃ l, x = .lor b (.un .bool l) (.un .bool r) ∧ y = .lor b l r) ∨
    ∃ v, x = .lor b (.num (b2i (wd W v ≠ 0))) (.un .bool r) ∧ y = .lor b (.num v) r) ?_ (Or.inl ⟨l, rfl, rfl⟩)
  rintro _ _ (⟨l, rfl, rfl⟩ | ⟨v, rfl, rfl⟩)
  · refine ⟨fun m z m' hs sf => ?_, fun m hu => ?_, fun v hv => nomatch hv⟩
    · cases hs with
      | lorC k =>
        cases k with
        | un _ v => exact ⟨_, .refl _ _, Or.inl (Or.inr ⟨v, by rw [unary_bool], rfl⟩)⟩
        | unC k => exact ⟨_, .one (.lorC k), Or.inl (Or.inl ⟨_, rfl, rfl⟩)⟩
    · cases hu with
      | lorC k =>
        cases k with
        | unC k => exact ⟨_, m, .refl _ _, .lorC k⟩
  · refine ⟨fun m z m' hs sf => ?_, fun m hu => ?_, fun v hv => nomatch hv⟩
    · cases hs with
      | lorF _ _ _ _ k =>
        rw [b2i_zero hW, decide_eq_false_iff_not, Classical.not_not] at k
        exact ⟨_, .one (.lorF _ _ _ _ k), Or.inr (bool_bool hW r)⟩
      | lorT _ _ _ _ k =>
        rw [ne_eq, b2i_zero hW, decide_eq_false_iff_not, Classical.not_not] at k
        exact ⟨_, .one (.lorT _ _ _ _ k), Or.inr (.refl _)⟩
      | lorC k => nomatch k
    · cases hu with
      | lorC k => nomatch k

/-- a comparison is zero or one already -/
theorem ref_cmp_bool (hW : W = 2 ∨ W = 4) (o : Cc) {l r l' r' : E} (h1 : Ref V l l') (h2 : Ref V r r') : Ref V (.cmp o l r) (.un .bool (.cmp o l' r')) := by
  refine ref_ctx2 (f := .cmp o) (g := fun l r => .un .bool (.cmp o l r)) (fun r => (hole_un V .bool).comp (hole_cmpL V o r)) (fun l => (hole_un V .bool).comp (hole_cmpR V o l)) (by simp) ?_ ?_ ?_ h1 h2
  · intro l r m z m' hs
    cases hs with
    | cmp => exact Or.inr (Or.inr ⟨_, _, rfl, rfl⟩)
    | cmpL k => exact Or.inl ⟨_, k, rfl⟩
    | cmpR k => exact Or.inr (Or.inl ⟨_, k, rfl⟩)
  · intro l r m hu
    cases hu with
    | cmpL k => exact Or.inl k
    | cmpR k => exact Or.inr (Or.inl k)
  · intro v w v' w' m e1 e2 _
    refine ⟨fun z m' hs => ?_, fun hu => ?_⟩
    · cases hs with
      | cmp =>
        refine ⟨_, (Steps.one (.unC (.cmp _ _ _ _))).trans (.one (.un _ _ _)), ref_num_eq ?_⟩
        rw [unary_bool, e1, e2, b2i_bool hW]
      | cmpL k => nomatch k
      | cmpR k => nomatch k
    · cases hu with
      | cmpL k => nomatch k
      | cmpR k => nomatch k

end Smlr.Trans
