import Verif.Expr.Inv
set_option autoImplicit false
/-! `exprval` on the stack does what `ev` does on trees, or there is no space left on the stack. -/
namespace Smlr.Expr

variable {c : Cfg} {n : Nat} {A B stk : List (Tok × V)} {lab : Nat} {ws : List Warn}

/-- the outcome of `exprval`: the processed tree replaces the expression on the stack -/
def out (A B : List (Tok × V)) (r : TR) (ns : NS) : Res × St := (⟨r.s, r.ty, r.const, A.length - 1⟩, ⟨A ++ r.t.post ++ B, ns.lab, ns.warns⟩)

def SimE (c : Cfg) (n : Nat) (e : E) : Prop :=
  ∀ A B lab ws, Sim (exprval c n (A.length + e.post.length - 1)) ⟨A ++ e.post ++ B, lab, ws⟩ (ev c e) ⟨lab, ws⟩ (out A B)

theorem SimE.use {e : E} {p : Int} (h : SimE c n e) (hs : stk = A ++ e.post ++ B) (hp : p = A.length + e.post.length - 1) :
    Sim (exprval c n p) ⟨stk, lab, ws⟩ (ev c e) ⟨lab, ws⟩ (out A B) := by
  subst hs hp; exact h A B lab ws

theorem sim_ev {γ δ : Type} {e : E} {p : Int} {f : Res → M γ} {g : TR → N δ} {out2 : δ → NS → γ × St} (h : SimE c n e) (hs : stk = A ++ e.post ++ B)
    (hp : p = A.length + e.post.length - 1)
    (k : ∀ r ns', ev c e ⟨lab, ws⟩ = .ok (r, ns') → Sim (f ⟨r.s, r.ty, r.const, A.length - 1⟩) ⟨A ++ r.t.post ++ B, ns'.lab, ns'.warns⟩ (g r) ns' out2) :
    Sim (exprval c n p >>= f) ⟨stk, lab, ws⟩ (ev c e >>= g) ⟨lab, ws⟩ out2 := sim_bind (h.use hs hp) k

macro "len" : tactic => `(tactic| (simp only [List.length_append, List.length_cons, List.length_nil, T.post, E.post]; omega))

theorem simplify_const {s : V} {ty : Ty} {top bottom : Int} {X : List (Tok × V)} {tok : Tok} {v : V} (hs : stk = A ++ X ++ (tok, v) :: B) (hnum : isNum tok = false)
    (ht : top = A.length + X.length) (hb : bottom = A.length) :
    simplify s true ty top bottom ⟨stk, lab, ws⟩ = .ok ((), ⟨A ++ (T.num (ty = .uint) s).post ++ B, lab, ws⟩) := by
  subst hs ht hb
  show simplifyConst s ty _ _ _ = _
  unfold simplifyConst
  rw [bind_ok (getTok_at rfl (by len))]
  simp only [hnum]
  rw [if_neg (by simp), bind_ok (setTok_at rfl (by len)), del_at (X := A) (Z := X) rfl rfl (by omega)]
  by_cases hu : ty = .uint <;> simp [hu, T.post, numTok]

/-- `simplifyConstExpr` on a tree -/
theorem simplify_eq {s : V} {ty : Ty} {const : Bool} {top bottom : Int} {t : T}
    (hs : stk = A ++ t.post ++ B) (ht : top = A.length + t.post.length - 1) (hb : bottom = A.length) :
    simplify s const ty top bottom ⟨stk, lab, ws⟩ = .ok ((), ⟨A ++ (mk s ty const t).t.post ++ B, lab, ws⟩) := by
  subst hs ht hb
  cases const with
  | false => rfl
  | true =>
    obtain ⟨X, hX⟩ := t.post_root
    have hl : t.post.length = X.length + 1 := by rw [hX]; simp
    cases hn : isNum t.root.1 with
    | true =>
      show simplifyConst s ty _ _ _ = _
      unfold simplifyConst
      rw [bind_ok (getTok_at (X := A ++ X) (x := t.root) (Y := B) (by rw [hX]; simp) (by len))]
      simp only [hn, if_true]
      show Except.ok _ = _
      simp [mk, hn]
    | false =>
      rw [simplify_const (A := A) (B := B) (X := X) (tok := t.root.1) (v := t.root.2) (by rw [hX]; simp) hn (by omega) rfl]
      simp [mk, hn]

theorem sim_simplify {s : V} {ty : Ty} {const : Bool} {top bottom : Int} {t : T}
    (hs : stk = A ++ t.post ++ B) (ht : top = A.length + t.post.length - 1) (hb : bottom = A.length) :
    Sim (simplify s const ty top bottom >>= fun _ => pure ⟨s, ty, const, A.length - 1⟩) ⟨stk, lab, ws⟩ (pure (mk s ty const t) : N TR) ⟨lab, ws⟩ (out A B) :=
  sim_step (simplify_eq hs ht hb) (sim_pure rfl)

theorem sim_un {e : E} {tok : Tok} {i : Int} (he : SimE c n e) (hi : i = A.length + e.post.length - 1) :
    Sim (exprUnary (exprval c n) i tok) ⟨A ++ e.post ++ (tok, 0#32) :: B, lab, ws⟩ (evUnary tok (ev c e)) ⟨lab, ws⟩ (out A B) := by
  unfold exprUnary evUnary
  refine sim_step getSp_eq ?_
  refine sim_ev he rfl hi (fun r ns' hr => ?_)
  refine sim_chk (fun _ _ => ?_)
  refine sim_step getSp_eq ?_
  dsimp only
  exact sim_simplify (by simp [T.post]) (by subst hi; len) (by omega)

theorem sim_bool {e : E} {i : Int} {v : V} (he : SimE c n e) (hi : i = A.length + e.post.length - 1) (hv : v = 0#32) :
    Sim (exprBool c (exprval c n) i) ⟨A ++ e.post ++ (.bool, v) :: B, lab, ws⟩ (evBool c (ev c e)) ⟨lab, ws⟩ (out A B) := by
  subst hv
  unfold exprBool evBool
  refine sim_step getSp_eq ?_
  refine sim_ev he rfl hi (fun r ns' hr => ?_)
  refine sim_chk (fun _ _ => ?_)
  refine sim_step getSp_eq ?_
  dsimp only
  exact sim_simplify (by simp [T.post]) (by subst hi; len) (by omega)

theorem sim_sizeof {e : E} {i : Int} (he : SimE c n e) (hi : i = A.length + e.post.length - 1) :
    Sim (exprSizeof c (exprval c n) i) ⟨A ++ e.post ++ (.sizeof, 0#32) :: B, lab, ws⟩ (evSizeof c (ev c e)) ⟨lab, ws⟩ (out A B) := by
  unfold exprSizeof evSizeof
  refine sim_step getSp_eq ?_
  refine sim_ev he rfl hi (fun r ns' hr => ?_)
  refine sim_chk (fun sz _ => ?_)
  refine sim_failIf (fun _ => ?_)
  refine sim_step getSp_eq ?_
  dsimp only
  refine sim_step (setTok_at rfl (by subst hi; len)) ?_
  refine sim_step (del_at (X := A) (Z := r.t.post) rfl (by omega) (by subst hi; len)) ?_
  exact sim_pure (by simp [out, T.post, numTok])

theorem sim_addr {e : E} {i : Int} (hw : e.WF c.env) (he : SimE c n e) (hi : i = A.length + e.post.length - 1) :
    Sim (exprAddr (exprval c n) i 0#32) ⟨A ++ e.post ++ (.addr, 0#32) :: B, lab, ws⟩ (evAddr (ev c e)) ⟨lab, ws⟩ (out A B) := by
  unfold exprAddr evAddr
  refine sim_step getSp_eq ?_
  refine sim_ev he rfl hi (fun r ns' hr => ?_)
  have hg := ev_good hw _ _ _ hr
  refine sim_step getSp_eq ?_
  dsimp only
  refine sim_ite (fun ha => ?_) (fun ha => ?_)
  · refine sim_step (del_at (X := A ++ r.t.post) (Z := [(.addr, 0#32)]) (Y := B) (by simp) (by subst hi; len) (by simp)) ?_
    exact sim_pure (by simp [out])
  · obtain ⟨X, hX⟩ := r.t.post_root
    have hl : r.t.post.length = X.length + 1 := by rw [hX]; simp
    refine sim_step (getTok_at (X := A ++ X) (x := r.t.root) (Y := (.addr, 0#32) :: B) (by rw [hX]; simp) (by subst hi; len)) ?_
    refine sim_failIf (fun hs => ?_)
    simp only [ne_eq, Decidable.not_not] at hs
    refine sim_step (del_at (X := A ++ X) (Z := [r.t.root, (.addr, 0#32)]) (Y := B) (by rw [hX]; simp) (by subst hi; len) (by simp)) ?_
    have harg : r.t.arg.post = X := by
      have h3 := T.root_star hg.ok hs
      rw [h3] at hX
      simp only [T.post, T.root, T.arg] at hX
      exact (List.append_inj' hX rfl).1
    exact sim_pure (by simp [out, harg])

theorem T.arg_post {t : T} {X : List (Tok × V)} (h : t.OK) (hs : t.root.1 = .star) (hX : t.post = X ++ [t.root]) : t.arg.post = X := by
  have h3 := T.root_star h hs
  rw [h3] at hX
  simp only [T.post, T.root, T.arg] at hX
  exact (List.append_inj' hX rfl).1

theorem sim_deref {e : E} {i : Int} (he : SimE c n e) (hi : i = A.length + e.post.length - 1) :
    Sim (exprStar c (exprval c n) i 0#32) ⟨A ++ e.post ++ (.star, 0#32) :: B, lab, ws⟩ (evDeref c (ev c e)) ⟨lab, ws⟩ (out A B) := by
  unfold exprStar evDeref
  refine sim_step getSp_eq ?_
  refine sim_ev he rfl hi (fun r ns' hr => ?_)
  refine sim_step getSp_eq ?_
  dsimp only
  refine sim_failIf (fun _ => ?_)
  refine sim_ite (fun ha => ?_) (fun ha => ?_)
  · refine sim_step (del_at (X := A ++ r.t.post) (Z := [(.star, 0#32)]) (Y := B) (by simp) (by subst hi; len) (by simp)) ?_
    exact sim_pure (by simp [out])
  · refine sim_chk (fun sz _ => ?_)
    refine sim_step (setVal_at rfl (by subst hi; len)) ?_
    exact sim_pure (by simp [out, T.post])

theorem unTok_not_num {tok : Tok} (h : unTok tok = true) : isNum tok = false ∧ tok ≠ .ident := by cases tok <;> first | (cases h; done) | exact ⟨rfl, by simp⟩

theorem sim_cast {e : E} {i : Int} {s : V} {t : Ty} (hw : e.WF c.env) (he : SimE c n e) (hi : i = A.length + e.post.length - 1) :
    Sim (exprCast c (exprval c n) i t) ⟨A ++ e.post ++ (.ident, s) :: B, lab, ws⟩ (evCast c s t (ev c e)) ⟨lab, ws⟩ (out A B) := by
  unfold exprCast evCast
  refine sim_step getSp_eq ?_
  refine sim_ev he rfl hi (fun r ns' hr => ?_)
  have hg := ev_good hw _ _ _ hr
  refine sim_failIf (fun _ => ?_)
  refine sim_failIf (fun _ => ?_)
  refine sim_step getSp_eq ?_
  dsimp only
  obtain ⟨X, hX⟩ := r.t.post_root
  have hl : r.t.post.length = X.length + 1 := by rw [hX]; simp
  refine sim_step (getTok_at (X := A ++ X) (x := r.t.root) (Y := (.ident, s) :: B) (by rw [hX]; simp) (by subst hi; len)) ?_
  refine sim_chk (fun sz _ => ?_)
  have hpos : i + 1 - (((A ++ e.post ++ (Tok.ident, s) :: B).length : Int) - ((A ++ r.t.post ++ (Tok.ident, s) :: B).length : Int)) = (A ++ r.t.post).length := by
    subst hi; len
  have htok := fun tok => castCalc_tok (W := c.W) (sz := sz) (d := decide (r.t.root.1 = .star)) (s := (if (!r.const && isNum r.t.root.1) = true then r.t.root.2 else r.s)) (tok := tok)
  generalize castCalc c.W sz (decide (r.t.root.1 = .star)) (if (!r.const && isNum r.t.root.1) = true then r.t.root.2 else r.s) = k at htok ⊢
  obtain ⟨k1, k2⟩ := k
  -- the operator after `setKind?`
  obtain ⟨tok, hk, hnum, hid⟩ : ∃ tok, setKind? (i + 1 - (((A ++ e.post ++ (Tok.ident, s) :: B).length : Int) - ((A ++ r.t.post ++ (Tok.ident, s) :: B).length : Int))) k2
      ⟨A ++ r.t.post ++ (.ident, s) :: B, ns'.lab, ns'.warns⟩ = .ok ((), ⟨A ++ r.t.post ++ (tok, s) :: B, ns'.lab, ns'.warns⟩) ∧ isNum tok = false ∧
      (k2 = none ∧ tok = .ident ∨ k2 = some tok ∧ tok ≠ .ident) := by
    cases k2 with
    | none => exact ⟨.ident, rfl, rfl, Or.inl ⟨rfl, rfl⟩⟩
    | some tok => exact ⟨tok, setKind_at rfl hpos, (unTok_not_num (htok tok rfl)).1, Or.inr ⟨rfl, (unTok_not_num (htok tok rfl)).2⟩⟩
  refine sim_step hk ?_
  by_cases hc : (r.const || isNum r.t.root.1) = true
  · obtain ⟨u, v, hu⟩ : ∃ u v, r.t = .num u v := by
      cases hrc : r.const with
      | true => exact hg.const hrc
      | false => rw [hrc] at hc; obtain ⟨u, hu⟩ := T.root_num hg.ok (by simpa using hc); exact ⟨u, _, hu⟩
    simp only [hc, if_true]
    refine sim_step (setVal_at (X := A) (x := (numTok u, v)) (Y := (tok, s) :: B) (by rw [hu]; simp [T.post]) (by subst hi; rw [hu]; len)) ?_
    refine sim_step (simplify_const (A := A) (B := B) (v := s) (X := [(numTok u, k1)]) (by simp) hnum (by rw [hpos, hu]; len) (by omega)) ?_
    refine sim_step getSp_eq ?_
    refine sim_step (x := dropCast true _) rfl ?_
    exact sim_pure (by simp [out])
  · simp only [hc]
    refine sim_step (x := setVal? _ none) rfl ?_
    refine sim_step (x := simplify k1 false t _ _) rfl ?_
    refine sim_step getSp_eq ?_
    have hpos' : i + 1 - (((A ++ e.post ++ (Tok.ident, s) :: B).length : Int) - ((A ++ r.t.post ++ (tok, s) :: B).length : Int)) = (A ++ r.t.post).length := by
      subst hi; len
    rcases hid with ⟨hk2, htk⟩ | ⟨hk2, htk⟩
    · refine sim_step (a := ()) (st' := ⟨A ++ r.t.post ++ B, ns'.lab, ns'.warns⟩) ?_ (sim_pure (by simp [out, hk2, castTree]))
      show dropCast false _ _ = _
      unfold dropCast
      rw [if_neg (by simp), bind_ok (getTok_at rfl hpos')]
      simp only [htk, if_true]
      exact del_at (X := A ++ r.t.post) (Z := [(.ident, s)]) (by simp) (by subst htk; exact hpos') (by simp)
    · refine sim_step (a := ()) (st' := ⟨A ++ r.t.post ++ (tok, s) :: B, ns'.lab, ns'.warns⟩) ?_ (sim_pure (by simp [out, hk2, castTree, T.post]))
      show dropCast false _ _ = _
      unfold dropCast
      rw [if_neg (by simp), bind_ok (getTok_at rfl hpos')]
      simp only [htk]
      rfl

theorem insDeref_sim {p : Int} {s : V} {ty : Ty} {t : T} {ns : NS} (hs : stk = A ++ t.post ++ B) (hp : p = A.length + t.post.length)
    (hns : ns = ⟨lab, ws⟩) :
    Sim (insDeref c p ty >>= fun _ => pure ⟨s, ty, false, A.length - 1⟩) ⟨stk, lab, ws⟩ (evVar c s ty t) ns (out A B) := by
  subst hs hns
  by_cases ha : isArr ty = true
  · unfold insDeref evVar
    simp only [ha, if_true]
    exact sim_step (x := pure ()) rfl (sim_pure rfl)
  · unfold insDeref evVar
    simp only [ha]
    cases hd : declSize c true ty with
    | error e => right; rfl
    | ok sz =>
      have : (do
          let sz ← chk (Except.ok sz : Except Err Int)
          ins2 p .star (BitVec.ofInt 32 sz) : M Unit) = ins2 p .star (BitVec.ofInt 32 sz) := by
        funext st; exact bind_ok rfl
      simp only [Bool.false_eq_true, if_false, this]
      refine sim_ins (X := A ++ t.post) (Y := B) rfl (by rw [hp]; len) ?_
      right
      show _ = Except.ok (out A B _ _)
      simp [out, T.post]
      rfl

theorem sim_id {e : Int → M Res} {s : V} {i : Int} (hw : ∀ t, c.env s ≠ some (.cast t)) (hi : i = A.length - 1) :
    Sim (exprIdent c e i s) ⟨A ++ [(.ident, s)] ++ B, lab, ws⟩ (evId c s) ⟨lab, ws⟩ (out A B) := by
  unfold exprIdent evId
  cases hs : c.env s with
  | none => exact sim_fail
  | some y =>
    cases y with
    | cast t => exact absurd hs (hw t)
    | enumConst v =>
      dsimp only
      refine sim_step (setTok_at (X := A) (Y := B) (x := (.ident, s)) (by simp) (by omega)) ?_
      exact sim_pure (by simp [out, T.post, numTok, hi])
    | localVar o t =>
      dsimp only
      refine sim_step (setTok_at (X := A) (Y := B) (x := (.ident, s)) (by simp) (by omega)) ?_
      rw [hi]
      exact insDeref_sim (by simp [T.post]) (by len) rfl
    | globalVar t =>
      dsimp only
      rw [hi]
      exact insDeref_sim (by simp [T.post]) (by len) rfl

end Smlr.Expr
