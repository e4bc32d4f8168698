import Verif.Trans.Types
set_option autoImplicit false
/-! The outcome of `exprval` for an expression: primary expressions and unary operators. -/
namespace Smlr.Trans
open Smlr.Expr (Ty Sym Cfg V bind_ok chk_ok failIf_ok)
variable {c : Cfg}

/-- the outcome for an expression that means `d` -/
structure Good (c : Cfg) (d : D) (r : Expr.TR) (x : Cg.E) : Prop where
  ty : r.ty = d.ty
  tree : cg r.t = some x
  ok : x.ok c.W
  ref : ∀ V : Cg.Env c.W, Ref V x d.x
  const : r.const = true → r.t = .num (r.ty = .uint) r.s
  num : r.const = true → int d.ty = true ∨ (d.nul = true ∧ r.s = 0#32)
  loc : ∀ a, d.loc = some a → obj c.W d.ty = true ∧ (array d.ty = true → d.x = a) ∧
    (array d.ty = false → ∃ t' a', r.t = .un .star (BitVec.ofInt 32 (acc c d.ty)) t' ∧ cg t' = some a' ∧ a'.ok c.W ∧ ∀ V : Cg.Env c.W, Ref V a' a)
  npc : d.npc = true → (int d.ty = true → r.const = true) ∧ ∃ u, r.t = .num u 0#32

/-- `b`: the expression is a comparison -/
def Runs (c : Cfg) (d : D) (b : Bool) (n : Nat) (m : Expr.N Expr.TR) : Prop :=
  ∀ ns : Expr.NS, 0 < ns.lab → ns.lab + n < 2 ^ 31 → ∃ r w x, m ns = .ok (r, ⟨ns.lab + n, w⟩) ∧ Good c d r x ∧
    (b = true → x.isBool = true ∧ ∀ V : Cg.Env c.W, Ref V x (.un .bool d.x))

theorem Good.xnum {d : D} {r : Expr.TR} {x : Cg.E} (g : Good c d r x) (h : r.const = true) : x = .num r.s.toInt := by
  have := g.tree
  rw [g.const h] at this
  cases this; rfl

theorem Good.refNum {d : D} {r : Expr.TR} {x : Cg.E} (g : Good c d r x) (h : r.const = true) (V : Cg.Env c.W) : Ref V (.num r.s.toInt) d.x := by
  rw [← g.xnum h]; exact g.ref V

/-- a result that is neither an lvalue nor a null pointer constant -/
theorem good_of {ty : Ty} {x' x : Cg.E} {nul : Bool} {r : Expr.TR} (h1 : r.ty = ty) (h2 : cg r.t = some x) (h3 : x.ok c.W) (h4 : ∀ V : Cg.Env c.W, Ref V x x')
    (h5 : r.const = true → r.t = .num (r.ty = .uint) r.s) (h6 : r.const = true → int ty = true ∨ (nul = true ∧ r.s = 0#32)) :
    Good c { ty := ty, x := x', nul := nul } r x :=
  ⟨h1, h2, h3, h4, h5, h6, fun a h => (nomatch h), fun h => (nomatch h)⟩

/-- the result of an operator that may be constant -/
theorem good_mk {ty : Ty} {x' : Cg.E} {nul : Bool} {s : V} {const : Bool} {t : Expr.T} (hn : Expr.isNum t.root.1 = false)
    (hc : const = true → (∀ V : Cg.Env c.W, Ref V (.num s.toInt) x') ∧ (int ty = true ∨ (nul = true ∧ s = 0#32)))
    (ht : const = false → ∃ x, cg t = some x ∧ x.ok c.W ∧ ∀ V : Cg.Env c.W, Ref V x x') :
    ∃ x, Good c { ty := ty, x := x', nul := nul } (Expr.mk s ty const t) x := by
  cases const with
  | true =>
    have e : (Expr.mk s ty true t).t = .num (ty = .uint) s := by simp [Expr.mk, hn]
    refine ⟨.num s.toInt, good_of rfl (by rw [e]; rfl) trivial (hc rfl).1 (fun _ => e) (fun _ => (hc rfl).2)⟩
  | false =>
    obtain ⟨x, h1, h2, h3⟩ := ht rfl
    exact ⟨x, good_of rfl (by simpa [Expr.mk] using h1) h2 h3 (fun h => (nomatch h)) (fun h => (nomatch h))⟩

theorem runs_num (u : Bool) (v : V) : Runs c { ty := if u then .uint else .int, x := .num v.toInt, npc := v = 0#32 } false 0 (Expr.ev c (.num u v)) := by
  intro ns _ _
  refine ⟨⟨v, if u then .uint else .int, true, .num u v⟩, ns.warns, .num v.toInt, rfl, ?_, fun h => (nomatch h)⟩
  refine ⟨rfl, rfl, trivial, fun _ => .refl _, fun _ => ?_, fun _ => Or.inl (by cases u <;> rfl), fun a h => (nomatch h), fun h => ⟨fun _ => rfl, u, ?_⟩⟩
  · cases u <;> rfl
  · rw [of_decide_eq_true h]

/-- objects -/
theorem good_object (hW : c.W = 2 ∨ c.W = 4) {t : Ty} {a : Cg.E} {d : D} {T : Expr.T} {a' : Cg.E} (s : V) (hd : object c t a = some d) (h1 : cg T = some a') (h2 : a'.ok c.W) (h3 : ∀ V : Cg.Env c.W, Ref V a' a) :
    ∃ x, Good c d ⟨s, t, false, if array t then T else .un .star (BitVec.ofInt 32 (acc c t)) T⟩ x := by
  unfold object at hd
  split at hd
  · rename_i ho
    cases hd
    cases ha : array t with
    | true =>
      refine ⟨a', rfl, ?_, h2, ?_, fun h => (nomatch h), fun h => (nomatch h), ?_, fun h => (nomatch h)⟩
      · simpa [ha] using h1
      · simpa [ha] using h3
      · rintro b hb
        cases hb
        exact ⟨ho, fun _ => by simp [ha], fun h => (by rw [ha] at h; cases h)⟩
    | false =>
      refine ⟨.deref (acc c t) a', rfl, ?_, ⟨acc_okSz ho, h2⟩, fun V => ?_, fun h => (nomatch h), fun h => (nomatch h), ?_, fun h => (nomatch h)⟩
      · simp only [Bool.false_eq_true, if_false, cg, h1, Option.bind_some, mkUn, if_true, acc_toInt hW ho]
      · simpa [ha] using ref_deref _ (h3 V)
      · rintro b hb
        cases hb
        exact ⟨ho, fun h => (by rw [ha] at h; cases h), fun _ => ⟨T, a', by simp, h1, h2, h3⟩⟩
  · cases hd

theorem object_obj {t : Ty} {a : Cg.E} {d : D} (hd : object c t a = some d) : obj c.W t = true := by
  unfold object at hd
  split at hd
  · assumption
  · cases hd

theorem evVar_eq (hW : c.W = 2 ∨ c.W = 4) {t : Ty} (ho : obj c.W t = true) (s : V) (T : Expr.T) :
    Expr.evVar c s t T = pure ⟨s, t, false, if array t then T else .un .star (BitVec.ofInt 32 (acc c t)) T⟩ := by
  unfold Expr.evVar
  rw [isArr_eq]
  cases ha : array t with
  | true => rfl
  | false =>
    funext ns
    simp only [Bool.false_eq_true, if_false]
    rw [bind_ok (chk_ok (declSize_acc hW ho ha))]

theorem runs_id (hW : c.W = 2 ∨ c.W = 4) {s : V} {d : D} (hd : dId c s = some d) : Runs c d false 0 (Expr.ev c (.id s)) := by
  intro ns _ _
  unfold dId at hd
  have key : ∀ t a T, object c t a = some d → cg T = some a → a.ok c.W → Expr.evId c s = Expr.evVar c s t T → ∃ r w x, Expr.evId c s ns = .ok (r, ⟨ns.lab + 0, w⟩) ∧ Good c d r x ∧
      (false = true → x.isBool = true ∧ ∀ V : Cg.Env c.W, Ref V x (.un .bool d.x)) := by
    intro t a T ho h1 h2 he
    obtain ⟨x, g⟩ := good_object hW s ho h1 h2 (fun _ => .refl _)
    rw [he, evVar_eq hW (object_obj ho)]
    exact ⟨_, _, x, rfl, g, fun h => (nomatch h)⟩
  split at hd
  · rename_i v hv
    cases hd
    have : Expr.ev c (.id s) = pure ⟨v, .int, true, .num false v⟩ := by simp only [Expr.ev, Expr.evId, hv]
    rw [this]
    exact ⟨_, ns.warns, .num v.toInt, rfl, good_of rfl rfl trivial (fun _ => .refl _) (fun _ => rfl) (fun _ => Or.inl rfl), fun h => (nomatch h)⟩
  · rename_i o t hv
    exact key t _ (.localOfs o) hd rfl trivial (by simp only [Expr.evId, hv])
  · rename_i t hv
    exact key t _ (.ident s) hd rfl trivial (by simp only [Expr.evId, hv])
  · cases hd

theorem runs_sizeof (hW : c.W = 2 ∨ c.W = 4) {d d' : D} {b : Bool} {n : Nat} {m : Expr.N Expr.TR} (h : Runs c d b n m) (hd : dSizeof c d = some d') : Runs c d' false n (Expr.evSizeof c m) := by
  intro ns h0 hl
  obtain ⟨r, w, x, h1, g, _⟩ := h ns h0 hl
  unfold dSizeof at hd
  split at hd
  · rename_i ho
    cases hd
    have hp := size_pos hW ho
    unfold Expr.evSizeof
    rw [bind_ok h1, g.ty, bind_ok (chk_ok (declSize_ok hW ho)), bind_ok (failIf_ok (by omega))]
    exact ⟨_, _, _, rfl, good_of rfl rfl trivial (fun V => ref_num_eq (ofInt_wd hW _)) (fun _ => rfl) (fun _ => Or.inl rfl), fun h => (nomatch h)⟩
  · cases hd

theorem runs_addr {d d' : D} {b : Bool} {n : Nat} {m : Expr.N Expr.TR} (h : Runs c d b n m) (hd : dAddr d = some d') : Runs c d' false n (Expr.evAddr m) := by
  intro ns h0 hl
  obtain ⟨r, w, x, h1, g, _⟩ := h ns h0 hl
  obtain ⟨a, ha, he⟩ := Option.map_eq_some_iff.mp hd
  subst he
  obtain ⟨ho, hx, hs⟩ := g.loc a ha
  unfold Expr.evAddr
  rw [bind_ok h1, isArr_eq, g.ty]
  cases hr : array d.ty with
  | true =>
    refine ⟨_, _, x, rfl, good_of (by simp) g.tree g.ok (fun V => ?_) (fun h => (nomatch h)) (fun h => (nomatch h)), fun h => (nomatch h)⟩
    rw [← hx hr]; exact g.ref V
  | false =>
    obtain ⟨t', a', k1, k2, k3, k4⟩ := hs hr
    simp only [Bool.false_eq_true, if_false]
    rw [bind_ok (failIf_ok (by rw [k1]; simp [Expr.T.root]))]
    exact ⟨_, _, a', rfl, good_of rfl (by rw [k1]; exact k2) k3 k4 (fun h => (nomatch h)) (fun h => (nomatch h)), fun h => (nomatch h)⟩

theorem runs_deref (hW : c.W = 2 ∨ c.W = 4) {d d' : D} {b : Bool} {n : Nat} {m : Expr.N Expr.TR} (h : Runs c d b n m) (hd : dDeref c d = some d') : Runs c d' false n (Expr.evDeref c m) := by
  intro ns h0 hl
  obtain ⟨r, w, x, h1, g, _⟩ := h ns h0 hl
  unfold dDeref at hd
  split at hd
  · rename_i t ht
    have ho := object_obj hd
    have hp : Expr.pointee d.ty = t ∧ Expr.isAnyPtr d.ty = true ∧ d.ty ≠ .ptr .void := by
      have hv : t ≠ .void := by rintro rfl; cases ho
      cases hty : d.ty <;> rw [hty] at ht <;> first | (cases ht; done) | (cases ht; simp [Expr.pointee, Expr.isAnyPtr, hv])
    obtain ⟨x', g'⟩ := good_object hW 0#32 hd g.tree g.ok g.ref
    unfold Expr.evDeref
    rw [bind_ok h1, g.ty, bind_ok (failIf_ok (by simp [hp.2.1, hp.2.2])), hp.1, isArr_eq]
    cases hr : array t with
    | true =>
      rw [hr] at g'
      exact ⟨_, _, x', rfl, g', fun h => (nomatch h)⟩
    | false =>
      rw [hr] at g'
      simp only [Bool.false_eq_true, if_false]
      rw [bind_ok (chk_ok (declSize_acc hW ho hr))]
      exact ⟨_, _, x', rfl, g', fun h => (nomatch h)⟩
  · cases hd

end Smlr.Trans
