import Verif.Expr.Sim2
set_option autoImplicit false
/-! Assignments, the logical operators, the conditional operator, and the theorem about all expressions. -/
namespace Smlr.Expr

variable {c : Cfg} {n : Nat} {A B stk X Y : List (Tok × V)} {lab : Nat} {ws : List Warn} {γ δ : Type} {tok : Tok} {i p : Int}

theorem sim_lvalue {r : TR} {f : Unit → M γ} {g : Unit → N δ} {ns : NS} {o : δ → NS → γ × St} (hs : stk = A ++ r.t.post ++ B) (hp : p = A.length + r.t.post.length - 1)
    (k : r.t.root.1 = .star → Sim (f ()) ⟨stk, lab, ws⟩ (g ()) ns o) : Sim (lvalueCheck r.ty p >>= f) ⟨stk, lab, ws⟩ (evLvalue r >>= g) ns o := by
  obtain ⟨X, hX⟩ := r.t.post_root
  have hl : r.t.post.length = X.length + 1 := by rw [hX]; simp
  refine sim_bind (out := fun _ _ => ((), ⟨stk, lab, ws⟩)) ?_ (fun u ns' h => ?_)
  · unfold lvalueCheck evLvalue
    refine sim_failIf (fun _ => ?_)
    refine sim_step (getTok_at (X := A ++ X) (x := r.t.root) (Y := B) (by rw [hs, hX]; simp) (by subst hp; len)) ?_
    refine sim_eta ?_
    refine sim_bind' (x := failIf (r.t.root.1 ≠ .star) .lvalue) (out := fun _ _ => ((), ⟨stk, lab, ws⟩)) ?_ (fun _ _ _ => sim_pure rfl)
    right
    unfold failIf chk
    by_cases h : r.t.root.1 ≠ .star
    · simp only [if_pos h]
    · simp only [if_neg h]
  · unfold evLvalue at h
    obtain ⟨_, ns1, h1, h2⟩ := bind_eq_ok h
    obtain ⟨_, e1⟩ := failIf_eq_ok h1
    obtain ⟨h3, e2⟩ := failIf_eq_ok h2
    subst e1 e2
    exact k (by simpa using h3)

theorem sim_inc {e : E} (hw : e.WF c.env) (he : SimE c n e) (hi : i = A.length + e.post.length - 1) :
    Sim (exprInc c (exprval c n) i tok 0#32) ⟨A ++ e.post ++ (tok, 0#32) :: B, lab, ws⟩ (evInc c tok (ev c e)) ⟨lab, ws⟩ (out A B) := by
  unfold exprInc evInc
  refine sim_step getSp_eq ?_
  refine sim_ev he rfl hi (fun r ns' hr => ?_)
  have hg := ev_good hw _ _ _ hr
  refine sim_step getSp_eq ?_
  dsimp only
  refine sim_lvalue rfl (by subst hi; len) (fun hs => ?_)
  refine sim_chk (fun _ _ => sim_chk (fun _ _ => ?_))
  obtain ⟨X, hX⟩ := r.t.post_root
  have hl : r.t.post.length = X.length + 1 := by rw [hX]; simp
  have harg := T.arg_post hg.ok hs hX
  refine sim_step (getTok_at (X := A ++ X) (x := r.t.root) (Y := (tok, 0#32) :: B) (by rw [hX]; simp) (by subst hi; len)) ?_
  refine sim_step (del_at (X := A ++ X) (Z := [r.t.root]) (Y := (tok, 0#32) :: B) (by rw [hX]; simp) (by subst hi; len) (by simp)) ?_
  refine sim_chk (fun inc _ => ?_)
  refine sim_step getSp_eq ?_
  by_cases h1 : inc = 1
  · rw [if_pos h1, if_pos h1]
    refine sim_step (setVal_at (X := A ++ X) (x := (tok, 0#32)) (Y := B) rfl (by subst hi; len)) ?_
    exact sim_pure (by simp [out, T.post, harg])
  · rw [if_neg h1, if_neg h1]
    refine sim_step (setTok_at (X := A ++ X) (x := (tok, 0#32)) (Y := B) rfl (by subst hi; len)) ?_
    refine sim_ins (X := A ++ X) (Y := (incTok tok, r.t.root.2) :: B) rfl (by subst hi; len) ?_
    exact sim_pure (by simp [out, T.post, harg, numTok])

theorem sim_assign {el er : E} (hwl : el.WF c.env) (hl : SimE c n el) (hr : SimE c n er) (hi : i = A.length + el.post.length + er.post.length - 1) :
    Sim (exprAssign (exprval c n) i 0#32) ⟨A ++ el.post ++ er.post ++ (.assign, 0#32) :: B, lab, ws⟩ (evAssign (ev c el) (ev c er)) ⟨lab, ws⟩ (out A B) := by
  unfold exprAssign evAssign
  refine sim_step getSp_eq ?_
  refine sim_ev hr rfl (by subst hi; len) (fun r nr hre => ?_)
  refine sim_step getSp_eq ?_
  refine sim_ev (A := A) (B := r.t.post ++ (.assign, 0#32) :: B) hl (by simp) (by len) (fun l nl hle => ?_)
  have gl := ev_good hwl _ _ _ hle
  refine sim_step getSp_eq ?_
  dsimp only
  refine sim_lvalue rfl (by len) (fun hs => ?_)
  refine sim_chk (fun _ _ => sim_chk (fun _ _ => ?_))
  obtain ⟨X, hX⟩ := l.t.post_root
  have hlen : l.t.post.length = X.length + 1 := by rw [hX]; simp
  have harg := T.arg_post gl.ok hs hX
  refine sim_step (getTok_at (X := A ++ X) (x := l.t.root) (Y := r.t.post ++ (.assign, 0#32) :: B) (by rw [hX]; simp) (by len)) ?_
  refine sim_step (setVal_at (X := A ++ l.t.post ++ r.t.post) (x := (.assign, 0#32)) (Y := B) (by simp) (by subst hi; len)) ?_
  refine sim_step (del_at (X := A ++ X) (Z := [l.t.root]) (Y := r.t.post ++ (.assign, l.t.root.2) :: B) (by rw [hX]; simp) (by len) (by simp)) ?_
  exact sim_pure (by simp [out, T.post, harg])

theorem setVal?_length (o : Option V) (t : T) : (t.setVal? o).post.length = t.post.length := by
  cases o with
  | none => rfl
  | some v => cases t <;> simp [T.setVal?, T.setVal, T.post]

theorem setVal?_at {o : Option V} {r : TR} (hg : r.Good) (ho : o.isSome = true → r.const = true) (hs : stk = A ++ r.t.post ++ B) (hp : p = A.length + r.t.post.length - 1) :
    setVal? p o ⟨stk, lab, ws⟩ = .ok ((), ⟨A ++ (r.t.setVal? o).post ++ B, lab, ws⟩) := by
  subst hs
  cases o with
  | none => rfl
  | some v =>
    obtain ⟨u, v', hu⟩ := hg.const (ho rfl)
    show setVal p v _ = _
    rw [setVal_at (X := A) (x := (numTok u, v')) (Y := B) (by rw [hu]; simp [T.post]) (by subst hp; rw [hu]; len)]
    rw [hu]; simp [T.setVal?, T.setVal, T.post]

theorem sim_scaleAssign {v : V} {L R : Ty} {cr : Bool} {l r : T} (hr : cr = true → ∃ u v, r = .num u v) (hs : stk = A ++ l.post ++ r.post ++ (tok, v) :: B)
    (hp : p = A.length + l.post.length + r.post.length - 1) :
    Sim (scaleAssign c p tok L R cr) ⟨stk, lab, ws⟩ (scaleTree c tok v L R cr l r) ⟨lab, ws⟩ (fun t ns => ((), ⟨A ++ t.post ++ B, ns.lab, ns.warns⟩)) := by
  unfold scaleAssign scaleTree
  refine sim_ite (fun _ => sim_chk (fun inc _ => ?_)) (fun _ => ?_)
  · cases cr with
    | true =>
      obtain ⟨u, w, rfl⟩ := hr rfl
      simp only [if_true]
      refine sim_step (getTok_at (X := A ++ l.post) (x := (numTok u, w)) (Y := (tok, v) :: B) (by rw [hs]; simp [T.post]) (by subst hp; len)) ?_
      refine sim_eta ?_
      refine sim_step (setVal_at (X := A ++ l.post) (x := (numTok u, w)) (Y := (tok, v) :: B) (by rw [hs]; simp [T.post]) (by subst hp; len)) ?_
      exact sim_pure (by simp [T.post, T.setVal, T.root])
    | false =>
      simp only [Bool.false_eq_true, if_false]
      refine sim_eta ?_
      refine sim_scale (X := A ++ l.post ++ r.post) (Y := (tok, v) :: B) hs (by subst hp; len) ?_
      exact sim_pure (by simp [T.post, scale_post])
  · refine sim_eta ?_
    refine sim_step (setKind_at (X := A ++ l.post ++ r.post) (x := (tok, v)) (Y := B) hs (by subst hp; len)) ?_
    exact sim_pure (by simp [T.post])

theorem assignCalc_count {W : Nat} {R : Ty} {sr : V} {cr : Bool} : (assignCalc W tok R sr cr).1.isSome = true → cr = true := by
  unfold assignCalc
  dsimp only
  split
  · generalize shiftCount W (isUint R) _ = ck
    cases cr <;> simp
  · generalize shiftCount W (isUint R) _ = ck
    cases cr <;> simp
  · simp
  · simp
  · simp

theorem sim_compound {el er : E} (hwl : el.WF c.env) (hwr : er.WF c.env) (hl : SimE c n el) (hr : SimE c n er) (hi : i = A.length + el.post.length + er.post.length - 1) :
    Sim (exprCompound c (exprval c n) i tok 0#32) ⟨A ++ el.post ++ er.post ++ (tok, 0#32) :: B, lab, ws⟩ (evCompound c tok (ev c el) (ev c er)) ⟨lab, ws⟩ (out A B) := by
  unfold exprCompound evCompound
  refine sim_step getSp_eq ?_
  refine sim_ev hr rfl (by subst hi; len) (fun r nr hre => ?_)
  refine sim_step getSp_eq ?_
  refine sim_ev (A := A) (B := r.t.post ++ (tok, 0#32) :: B) hl (by simp) (by len) (fun l nl hle => ?_)
  have gl := ev_good hwl _ _ _ hle
  have gr := ev_good hwr _ _ _ hre
  refine sim_step getSp_eq ?_
  dsimp only
  refine sim_lvalue rfl (by len) (fun hs => ?_)
  refine sim_chk (fun _ _ => sim_chk (fun _ _ => sim_chk (fun _ _ => ?_)))
  obtain ⟨X, hX⟩ := l.t.post_root
  have hlen : l.t.post.length = X.length + 1 := by rw [hX]; simp
  have harg := T.arg_post gl.ok hs hX
  refine sim_step (getTok_at (X := A ++ X) (x := l.t.root) (Y := r.t.post ++ (tok, 0#32) :: B) (by rw [hX]; simp) (by len)) ?_
  refine sim_step (setVal_at (X := A ++ l.t.post ++ r.t.post) (x := (tok, 0#32)) (Y := B) (by simp) (by subst hi; len)) ?_
  refine sim_step (del_at (X := A ++ X) (Z := [l.t.root]) (Y := r.t.post ++ (tok, l.t.root.2) :: B) (by rw [hX]; simp) (by len) (by simp)) ?_
  refine sim_failIf (fun _ => ?_)
  refine sim_step getSp_eq ?_
  have hcount := assignCalc_count (W := c.W) (tok := tok) (R := r.ty) (sr := r.s) (cr := r.const)
  generalize assignCalc c.W tok r.ty r.s r.const = k at hcount ⊢
  refine sim_bind (x := warn k.2) (y := nwarn k.2) (out := fun _ ns => ((), ⟨A ++ X ++ (r.t.post ++ (tok, l.t.root.2) :: B), ns.lab, ns.warns⟩)) (Or.inr rfl) (fun _ nw _ => ?_)
  dsimp only
  refine sim_step (setVal?_at (A := A ++ X) (B := (tok, l.t.root.2) :: B) gr hcount (by simp) (by subst hi; len)) ?_
  refine sim_bind (sim_scaleAssign (A := A) (B := B) (l := l.t.arg) (r := r.t.setVal? k.1) (v := l.t.root.2) ?_ (by rw [harg]) ?_) (fun t nt ht => ?_)
  · intro hc
    obtain ⟨u, v, hu⟩ := gr.const hc
    rw [hu]
    cases k.1 <;> exact ⟨_, _, rfl⟩
  · rw [harg, setVal?_length]; subst hi; len
  · exact sim_pure rfl

/-! ### && and || -/

/-- an operand of && or || -/
def condOp (e : E) : E := if isRel e.root then e else .bool e

theorem ev_condOp (e : E) : ev c (condOp e) = evCondOp c e.root (ev c e) := by
  unfold condOp evCondOp
  split <;> rfl

theorem sim_insBool {e : E} {f : Int → M γ} {y : N δ} {ns : NS} {o : δ → NS → γ × St} (hs : stk = X ++ e.post ++ Y) (hp : p = X.length + e.post.length)
    (k : Sim (f (X.length + (condOp e).post.length - 1)) ⟨X ++ (condOp e).post ++ Y, lab, ws⟩ y ns o) : Sim (insBool p >>= f) ⟨stk, lab, ws⟩ y ns o := by
  subst hs
  obtain ⟨Z, v, hZ⟩ := e.post_root
  have hl : e.post.length = Z.length + 1 := by rw [hZ]; simp
  unfold insBool
  simp only [bind_assoc_M]
  refine sim_step (getTok_at (X := X ++ Z) (x := (e.root, v)) (Y := Y) (by rw [hZ]; simp) (by subst hp; len)) ?_
  unfold condOp at k
  by_cases hr : isRel e.root = true
  · rw [if_pos hr] at k
    rw [if_pos hr]
    refine sim_step (x := pure _) rfl ?_
    rw [hp]; exact k
  · rw [if_neg hr] at k
    rw [if_neg hr]
    simp only [bind_assoc_M]
    refine sim_ins (X := X ++ e.post) (Y := Y) rfl (by subst hp; len) ?_
    refine sim_step (x := pure _) rfl ?_
    have e1 : (X.length : Int) + (E.bool e).post.length - 1 = p := by subst hp; len
    have e2 : X ++ (E.bool e).post ++ Y = X ++ e.post ++ (.bool, 0#32) :: Y := by simp [E.post]
    rw [e1, e2] at k
    exact k

theorem sim_logic {el er : E} {isAnd : Bool} (hl : SimE c n (condOp el)) (hr : SimE c n (condOp er)) (hi : i = A.length + el.post.length + er.post.length - 1) :
    Sim (exprLogic (exprval c n) i isAnd) ⟨A ++ el.post ++ er.post ++ (logTok isAnd, 0#32) :: B, lab, ws⟩ (evLogic c isAnd el.root er.root (ev c el) (ev c er)) ⟨lab, ws⟩ (out A B) := by
  unfold exprLogic evLogic
  rw [← ev_condOp, ← ev_condOp]
  refine sim_step getSp_eq ?_
  refine sim_bind (x := newLab 1) (y := nlab 1) (out := fun s ns => (s, ⟨A ++ el.post ++ er.post ++ (logTok isAnd, 0#32) :: B, ns.lab, ns.warns⟩)) (Or.inr rfl) (fun sc ns' _ => ?_)
  dsimp only
  refine sim_step (setVal_at (X := A ++ el.post ++ er.post) (x := (logTok isAnd, 0#32)) (Y := B) rfl (by subst hi; len)) ?_
  refine sim_insBool (e := er) (X := A ++ el.post) (Y := (logTok isAnd, BitVec.ofNat 32 sc) :: B) rfl (by subst hi; len) ?_
  refine sim_ev hr rfl rfl (fun r nr hre => ?_)
  refine sim_ins (X := A ++ el.post) (Y := r.t.post ++ (logTok isAnd, BitVec.ofNat 32 sc) :: B) (by simp) (by len) ?_
  refine sim_insBool (e := el) (X := A) (Y := (.shortCirc, scVal isAnd sc) :: (r.t.post ++ (logTok isAnd, BitVec.ofNat 32 sc) :: B)) (by cases isAnd <;> rfl) (by len) ?_
  refine sim_ev hl rfl rfl (fun l nl hle => ?_)
  refine sim_step getSp_eq ?_
  dsimp only
  exact sim_simplify (t := .logic isAnd sc l.t r.t) (by simp [T.post]) (by subst hi; len) (by omega)

/-! ### ?: -/

theorem dropCond_eq {t : T} {P Q : List (Tok × V)} {k : Tok} {sc : Nat} {b q c1 c2 : Int} (hs : stk = A ++ P ++ t.post ++ (k, BitVec.ofNat 32 (sc + 1)) :: Q ++ B)
    (hb : b = A.length - 1) (hq : q = A.length + P.length + t.post.length + 1 + Q.length) (h1 : c1 = P.length) (h2 : c2 = Q.length + 1) :
    dropCond b q c1 c2 ⟨stk, lab, ws⟩ = .ok ((), ⟨A ++ (t.hide sc).post ++ B, lab, ws⟩) := by
  subst hs hb hq h1 h2
  obtain ⟨Z, hZ⟩ := t.post_root
  have hl : t.post.length = Z.length + 1 := by rw [hZ]; simp
  unfold dropCond T.hide
  rw [bind_ok (getTok_at (X := A ++ P ++ Z) (x := t.root) (Y := (k, BitVec.ofNat 32 (sc + 1)) :: Q ++ B) (by rw [hZ]; simp) (by len))]
  by_cases h : t.root.1 = .star
  · rw [if_pos h, if_pos h]
    have e : (do
        setKind ((A.length : Int) + P.length + t.post.length + 1 + Q.length - (Q.length + 1)) .uplus
        del ((A.length : Int) + P.length + t.post.length + 1 + Q.length - (Q.length + 1) + 1) ((Q.length : Int) + 1 - 1) : M Unit)
        ⟨A ++ P ++ t.post ++ (k, BitVec.ofNat 32 (sc + 1)) :: Q ++ B, lab, ws⟩ = .ok ((), ⟨A ++ P ++ t.post ++ (.uplus, BitVec.ofNat 32 (sc + 1)) :: B, lab, ws⟩) := by
      rw [bind_ok (setKind_at (X := A ++ P ++ t.post) (x := (k, BitVec.ofNat 32 (sc + 1))) (Y := Q ++ B) (by simp) (by len)),
        del_at (X := A ++ P ++ t.post ++ [(.uplus, BitVec.ofNat 32 (sc + 1))]) (Z := Q) (Y := B) (by simp) (by len) (by omega)]
      simp
    rw [bind_ok e, del_at (X := A) (Z := P) (Y := t.post ++ (.uplus, BitVec.ofNat 32 (sc + 1)) :: B) (by simp) (by omega) rfl]
    simp [T.post]
  · rw [if_neg h, if_neg h]
    rw [bind_ok (del_at (X := A ++ P ++ t.post) (Z := (k, BitVec.ofNat 32 (sc + 1)) :: Q) (Y := B) (by simp) (by len) (by len)),
      del_at (X := A) (Z := P) (Y := t.post ++ B) (by simp) (by omega) rfl]
    simp

theorem sim_cond {ec em er : E} (hc : SimE c n ec) (hm : SimE c n em) (hr : SimE c n er) (hi : i = A.length + ec.post.length + er.post.length + em.post.length - 1) :
    Sim (exprCond c (exprval c n) i) ⟨A ++ ec.post ++ er.post ++ em.post ++ (.quest, 0#32) :: B, lab, ws⟩ (evCond c (ev c ec) (ev c em) (ev c er)) ⟨lab, ws⟩ (out A B) := by
  unfold exprCond evCond
  refine sim_step getSp_eq ?_
  refine sim_bind (x := newLab 2) (y := nlab 2) (out := fun s ns => (s, ⟨A ++ ec.post ++ er.post ++ em.post ++ (.quest, 0#32) :: B, ns.lab, ns.warns⟩)) (Or.inr rfl) (fun sc ns' _ => ?_)
  dsimp only
  refine sim_step (setTok_at (X := A ++ ec.post ++ er.post ++ em.post) (x := (.quest, 0#32)) (Y := B) rfl (by subst hi; len)) ?_
  refine sim_ev hm rfl (by subst hi; len) (fun m nm hme => ?_)
  refine sim_step getSp_eq ?_
  refine sim_ev (A := A ++ ec.post) (B := m.t.post ++ (.land, BitVec.ofNat 32 (sc + 1)) :: B) hr (by simp) (by len) (fun r nr hre => ?_)
  refine sim_step getSp_eq ?_
  dsimp only
  obtain ⟨X, hX⟩ := m.t.post_root
  have hlX : m.t.post.length = X.length + 1 := by rw [hX]; simp
  obtain ⟨Y, hY⟩ := r.t.post_root
  have hlY : r.t.post.length = Y.length + 1 := by rw [hY]; simp
  refine sim_step (getTok_at (X := A ++ ec.post ++ r.t.post ++ X) (x := m.t.root) (Y := (.land, BitVec.ofNat 32 (sc + 1)) :: B) (by rw [hX]; simp) (by subst hi; len)) ?_
  refine sim_step (getTok_at (X := A ++ ec.post ++ Y) (x := r.t.root) (Y := m.t.post ++ (.land, BitVec.ofNat 32 (sc + 1)) :: B) (by rw [hY]; simp) (by len)) ?_
  refine sim_chk (fun ty _ => ?_)
  refine sim_ins (X := A ++ ec.post ++ r.t.post) (Y := m.t.post ++ (.land, BitVec.ofNat 32 (sc + 1)) :: B) (by simp) (by len) ?_
  refine sim_step getSp_eq ?_
  refine sim_ins (X := A ++ ec.post ++ r.t.post) (Y := (.land, BitVec.ofNat 32 sc) :: (m.t.post ++ (.land, BitVec.ofNat 32 (sc + 1)) :: B)) (by simp) (by len) ?_
  refine sim_ins (X := A ++ ec.post) (Y := r.t.post ++ (.goto, BitVec.ofNat 32 (sc + 1)) :: (.land, BitVec.ofNat 32 sc) :: (m.t.post ++ (.land, BitVec.ofNat 32 (sc + 1)) :: B)) (by simp) (by len) ?_
  refine sim_step getSp_eq ?_
  refine sim_ev (A := A) (B := (.shortCirc, - BitVec.ofNat 32 sc) :: (r.t.post ++ (.goto, BitVec.ofNat 32 (sc + 1)) :: (.land, BitVec.ofNat 32 sc) ::
    (m.t.post ++ (.land, BitVec.ofNat 32 (sc + 1)) :: B))) hc (by simp) (by len) (fun cd ncd hcd => ?_)
  refine sim_chk (fun _ _ => ?_)
  refine sim_step getSp_eq ?_
  dsimp only
  generalize (truncUint c.W cd.s != 0#32) = taken
  generalize hconst : (cd.const && if taken = true then m.const else r.const) = const
  generalize (if const = true then if taken = true then m.s else r.s else 0#32) = s
  have hstk : A ++ cd.t.post ++ (Tok.shortCirc, -BitVec.ofNat 32 sc) :: (r.t.post ++ (Tok.goto, BitVec.ofNat 32 (sc + 1)) :: (Tok.land, BitVec.ofNat 32 sc) ::
      (m.t.post ++ (Tok.land, BitVec.ofNat 32 (sc + 1)) :: B)) = A ++ (T.cond sc cd.t m.t r.t).post ++ B := by simp [T.post]
  by_cases hd : (cd.const && !const) = true
  · have hcf : const = false := by cases const <;> simp_all
    subst hcf
    rw [if_pos hd]
    cases taken with
    | true =>
      simp only [if_true]
      refine sim_step (dropCond_eq (A := A) (B := B) (t := m.t) (sc := sc) (P := cd.t.post ++ (Tok.shortCirc, -BitVec.ofNat 32 sc) :: (r.t.post ++ (Tok.goto, BitVec.ofNat 32 (sc + 1)) ::
        (Tok.land, BitVec.ofNat 32 sc) :: [])) (Q := []) (k := .land) (by simp) rfl (by subst hi; len) (by len) (by simp)) ?_
      refine sim_step getSp_eq ?_
      refine sim_step (x := simplify s false ty _ _) rfl ?_
      exact sim_pure (by simp only [out, condRes, hd, if_true])
    | false =>
      simp only [Bool.false_eq_true, if_false]
      refine sim_step (dropCond_eq (A := A) (B := B) (t := r.t) (sc := sc) (P := cd.t.post ++ [(Tok.shortCirc, -BitVec.ofNat 32 sc)]) (Q := (Tok.land, BitVec.ofNat 32 sc) ::
        (m.t.post ++ [(Tok.land, BitVec.ofNat 32 (sc + 1))])) (k := .goto) (by simp) rfl (by subst hi; len) (by len) (by subst hi; len)) ?_
      refine sim_step getSp_eq ?_
      refine sim_step (x := simplify s false ty _ _) rfl ?_
      exact sim_pure (by simp only [out, condRes, hd, if_true]; rfl)
  · rw [if_neg hd]
    refine sim_step (x := pure ()) rfl ?_
    refine sim_step getSp_eq ?_
    have : condRes sc ty s const (cd.const && !const) taken cd m r = mk s ty const (.cond sc cd.t m.t r.t) := by
      unfold condRes; rw [if_neg hd]
    rw [this]
    exact sim_simplify (t := .cond sc cd.t m.t r.t) hstk (by subst hi; len) (by omega)

/-! ### all expressions -/

theorem exprval_step {v : V} (hs : stk = X ++ (tok, v) :: Y) (hp : p = X.length) :
    exprval c (n + 1) p ⟨stk, lab, ws⟩ = exprOp c (exprval c n) ((X.length : Int) - 1) tok v ⟨stk, lab, ws⟩ := by
  subst hp
  show ((failIf ((X.length : Int) < 0) .internal >>= _) : M Res) _ = _
  have h0 : (failIf ((X.length : Int) < 0) .internal : M Unit) ⟨stk, lab, ws⟩ = .ok ((), ⟨stk, lab, ws⟩) := by
    unfold failIf; rw [if_neg (by omega)]; rfl
  rw [bind_ok h0, bind_ok (getTok_at hs rfl)]

/-- the step from the operands to the expression -/
theorem simE_of {e : E} {P : List (Tok × V)} {v : V} (he : e.post = P ++ [(tok, v)])
    (h : ∀ A B lab ws, Sim (exprOp c (exprval c n) ((A.length : Int) + P.length - 1) tok v) ⟨A ++ P ++ (tok, v) :: B, lab, ws⟩ (ev c e) ⟨lab, ws⟩ (out A B)) : SimE c (n + 1) e := by
  intro A B lab ws
  have := h A B lab ws
  unfold Sim at this ⊢
  rw [exprval_step (X := A ++ P) (tok := tok) (v := v) (Y := B) (by rw [he]; simp) (by rw [he]; len)]
  have e1 : A ++ e.post ++ B = A ++ P ++ (tok, v) :: B := by rw [he]; simp
  rw [e1]
  have e2 : ((A ++ P).length : Int) - 1 = (A.length : Int) + P.length - 1 := by len
  rw [e2]
  exact this

theorem simE_bool {e : E} (h : SimE c n e) : SimE c (n + 1) (.bool e) :=
  simE_of rfl (fun _ _ _ _ => sim_bool h rfl rfl)

theorem exprval_ev : ∀ (e : E), e.WF c.env → ∀ n, e.depth ≤ n → SimE c n e := by
  intro e
  induction e with
  | num u v =>
    intro _ n hn
    obtain ⟨n, rfl⟩ : ∃ k, n = k + 1 := ⟨n - 1, by simp only [E.depth] at hn; omega⟩
    refine simE_of (P := []) (tok := numTok u) (v := v) rfl (fun A B lab ws => ?_)
    cases u <;> exact sim_pure (by simp [out, T.post, numTok])
  | id s =>
    intro hw n hn
    obtain ⟨n, rfl⟩ : ∃ k, n = k + 1 := ⟨n - 1, by simp only [E.depth] at hn; omega⟩
    refine simE_of (P := []) (tok := .ident) (v := s) rfl (fun A B lab ws => ?_)
    have := sim_id (c := c) (A := A) (B := B) (lab := lab) (ws := ws) (e := exprval c n) (i := (A.length : Int) + ([] : List (Tok × V)).length - 1) hw (by simp)
    simpa [exprOp, ev] using this
  | cast s e ih =>
    intro hw n hn
    obtain ⟨n, rfl⟩ : ∃ k, n = k + 1 := ⟨n - 1, by simp only [E.depth] at hn; omega⟩
    have h := ih hw.2 n (by simp only [E.depth] at hn; omega)
    obtain ⟨t, ht⟩ := hw.1
    refine simE_of rfl (fun A B lab ws => ?_)
    have e1 : ev c (.cast s e) = evCast c s t (ev c e) := by simp only [ev, ht]
    have e2 : ∀ j, exprOp c (exprval c n) j .ident s = exprCast c (exprval c n) j t := by intro j; simp only [exprOp, exprIdent, ht]
    rw [e1, e2]
    exact sim_cast hw.2 h rfl
  | sizeof e ih =>
    intro hw n hn
    obtain ⟨n, rfl⟩ : ∃ k, n = k + 1 := ⟨n - 1, by simp only [E.depth] at hn; omega⟩
    have h := ih hw n (by simp only [E.depth] at hn; omega)
    exact simE_of rfl (fun A B lab ws => sim_sizeof h rfl)
  | addr e ih =>
    intro hw n hn
    obtain ⟨n, rfl⟩ : ∃ k, n = k + 1 := ⟨n - 1, by simp only [E.depth] at hn; omega⟩
    have h := ih hw n (by simp only [E.depth] at hn; omega)
    exact simE_of rfl (fun A B lab ws => sim_addr hw h rfl)
  | deref e ih =>
    intro hw n hn
    obtain ⟨n, rfl⟩ : ∃ k, n = k + 1 := ⟨n - 1, by simp only [E.depth] at hn; omega⟩
    have h := ih hw n (by simp only [E.depth] at hn; omega)
    exact simE_of rfl (fun A B lab ws => sim_deref h rfl)
  | bool e ih =>
    intro hw n hn
    obtain ⟨n, rfl⟩ : ∃ k, n = k + 1 := ⟨n - 1, by simp only [E.depth] at hn; omega⟩
    exact simE_bool (ih hw n (by simp only [E.depth] at hn; omega))
  | inc tok e ih =>
    intro hw n hn
    obtain ⟨n, rfl⟩ : ∃ k, n = k + 1 := ⟨n - 1, by simp only [E.depth] at hn; omega⟩
    have h := ih hw.2 n (by simp only [E.depth] at hn; omega)
    refine simE_of rfl (fun A B lab ws => ?_)
    have ht := hw.1
    rcases ht with rfl | rfl | rfl | rfl <;> exact sim_inc hw.2 h rfl
  | un tok e ih =>
    intro hw n hn
    obtain ⟨n, rfl⟩ : ∃ k, n = k + 1 := ⟨n - 1, by simp only [E.depth] at hn; omega⟩
    have h := ih hw.2 n (by simp only [E.depth] at hn; omega)
    refine simE_of rfl (fun A B lab ws => ?_)
    have ht := hw.1
    rcases ht with rfl | rfl | rfl <;> exact sim_un h rfl
  | add tok l r ihl ihr =>
    intro hw n hn
    obtain ⟨n, rfl⟩ : ∃ k, n = k + 1 := ⟨n - 1, by simp only [E.depth] at hn; omega⟩
    have hl := ihl hw.2.1 n (by simp only [E.depth] at hn; omega)
    have hr := ihr hw.2.2 n (by simp only [E.depth] at hn; omega)
    refine simE_of rfl (fun A B lab ws => ?_)
    have ht := hw.1
    rw [← List.append_assoc]
    rcases ht with rfl | rfl <;> exact sim_add (by simp) hw.2.1 hw.2.2 hl hr (by len)
  | bin tok l r ihl ihr =>
    intro hw n hn
    obtain ⟨n, rfl⟩ : ∃ k, n = k + 1 := ⟨n - 1, by simp only [E.depth] at hn; omega⟩
    have hl := ihl hw.2.1 n (by simp only [E.depth] at hn; omega)
    have hr := ihr hw.2.2 n (by simp only [E.depth] at hn; omega)
    refine simE_of rfl (fun A B lab ws => ?_)
    have ht := hw.1
    rw [← List.append_assoc]
    rcases ht with rfl | rfl | rfl | rfl | rfl | rfl | rfl | rfl <;> exact sim_bin hw.2.2 hl hr (by len)
  | rel tok l r ihl ihr =>
    intro hw n hn
    obtain ⟨n, rfl⟩ : ∃ k, n = k + 1 := ⟨n - 1, by simp only [E.depth] at hn; omega⟩
    have hl := ihl hw.2.1 n (by simp only [E.depth] at hn; omega)
    have hr := ihr hw.2.2 n (by simp only [E.depth] at hn; omega)
    refine simE_of rfl (fun A B lab ws => ?_)
    have ht := hw.1
    rw [← List.append_assoc]
    rcases ht with rfl | rfl | rfl | rfl | rfl | rfl <;> exact sim_rel hl hr (by len)
  | logic isAnd l r ihl ihr =>
    intro hw n hn
    simp only [E.depth] at hn
    obtain ⟨n, rfl⟩ : ∃ k, n = k + 2 := ⟨n - 2, by omega⟩
    have hco : ∀ e : E, (∀ n, e.depth ≤ n → SimE c n e) → e.depth ≤ n → SimE c (n + 1) (condOp e) := by
      intro e ih h
      unfold condOp
      split
      · exact ih _ (by omega)
      · exact simE_bool (ih _ h)
    have hl := hco l (ihl hw.1) (by omega)
    have hr := hco r (ihr hw.2) (by omega)
    refine simE_of rfl (fun A B lab ws => ?_)
    rw [← List.append_assoc]
    cases isAnd <;> exact sim_logic hl hr (by len)
  | comma l r ihl ihr =>
    intro hw n hn
    obtain ⟨n, rfl⟩ : ∃ k, n = k + 1 := ⟨n - 1, by simp only [E.depth] at hn; omega⟩
    have hl := ihl hw.1 n (by simp only [E.depth] at hn; omega)
    have hr := ihr hw.2 n (by simp only [E.depth] at hn; omega)
    refine simE_of rfl (fun A B lab ws => ?_)
    rw [← List.append_assoc]
    exact sim_comma hw.1 hl hr (by len)
  | assign l r ihl ihr =>
    intro hw n hn
    obtain ⟨n, rfl⟩ : ∃ k, n = k + 1 := ⟨n - 1, by simp only [E.depth] at hn; omega⟩
    have hl := ihl hw.1 n (by simp only [E.depth] at hn; omega)
    have hr := ihr hw.2 n (by simp only [E.depth] at hn; omega)
    refine simE_of rfl (fun A B lab ws => ?_)
    rw [← List.append_assoc]
    exact sim_assign hw.1 hl hr (by len)
  | compound tok l r ihl ihr =>
    intro hw n hn
    obtain ⟨n, rfl⟩ : ∃ k, n = k + 1 := ⟨n - 1, by simp only [E.depth] at hn; omega⟩
    have hl := ihl hw.2.1 n (by simp only [E.depth] at hn; omega)
    have hr := ihr hw.2.2 n (by simp only [E.depth] at hn; omega)
    refine simE_of rfl (fun A B lab ws => ?_)
    have ht := hw.1
    rw [← List.append_assoc]
    rcases ht with rfl | rfl | rfl | rfl | rfl | rfl | rfl | rfl | rfl | rfl <;> exact sim_compound hw.2.1 hw.2.2 hl hr (by len)
  | cond cd m r ihc ihm ihr =>
    intro hw n hn
    obtain ⟨n, rfl⟩ : ∃ k, n = k + 1 := ⟨n - 1, by simp only [E.depth] at hn; omega⟩
    have hc := ihc hw.1 n (by simp only [E.depth] at hn; omega)
    have hm := ihm hw.2.1 n (by simp only [E.depth] at hn; omega)
    have hr := ihr hw.2.2 n (by simp only [E.depth] at hn; omega)
    refine simE_of rfl (fun A B lab ws => ?_)
    rw [← List.append_assoc, ← List.append_assoc]
    exact sim_cond hc hm hr (by len)

end Smlr.Expr
