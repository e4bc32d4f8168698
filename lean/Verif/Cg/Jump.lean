import Verif.Cg.Un
set_option autoImplicit false
/-! Operators that jump, and all expressions. -/
namespace Smlr.Cg
variable {W : Nat}

/-- the operand of `&&` or `||` has been evaluated, and `ax` is one if it is not zero, and zero otherwise -/
def BoolQ (W : Nat) (a : Wd W) (e : E) : Prop := ∃ v, e = .num v ∧ a = wd W (unary .bool (wd W v))

def FullB (W : Nat) (e : E) : Prop :=
  ∃ c, Gen W (fz W e) c ∧ ∀ V : Env W, SimG V c e.depth e (BoolQ W)

theorem wd_ne (hW : W = 2 ∨ W = 4) : wd W 1 ≠ 0 := by
  intro h
  have := congrArg BitVec.toNat h
  rcases hW with rfl | rfl <;> simp [wd] at this

theorem bool_zero (hW : W = 2 ∨ W = 4) (x : Wd W) : wd W (unary .bool x) = 0 ↔ x = 0 := by
  have h0 : x = 0 ↔ x.toNat = 0 := ⟨fun h => by rw [h]; simp, fun h => BitVec.eq_of_toNat_eq (by rw [h]; simp)⟩
  have hu : unary .bool x = if x.toNat = 0 then 0 else 1 := by simp [unary, b2i]
  by_cases h : x.toNat = 0
  · rw [hu, if_pos h]
    exact ⟨fun _ => h0.mpr h, fun _ => by simp⟩
  · rw [hu, if_neg h]
    exact ⟨fun h' => absurd h' (wd_ne hW), fun h' => absurd (h0.mp h') h⟩

theorem full_bool (hW : W = 2 ∨ W = 4) (e : E) (hc : e.isBool = true) (h : Full W e) : FullB W e := by
  obtain ⟨c, g, sm⟩ := h
  refine ⟨c, g, fun V => ?_⟩
  intro P pre post hP hn s m hb ha hs hsafe
  obtain ⟨s', e', m', h1, h2, ⟨v, rfl, h3⟩, h4⟩ := sm V P pre post hP hn s m hb ha hs hsafe
  refine ⟨s', _, m', h1, h2, ⟨v, rfl, ?_⟩, h4⟩
  rw [h3]
  rcases bool_val h2 v rfl hc with rfl | rfl
  · simp [unary, b2i]
  · have := wd_ne hW
    have h0 : (wd W 1).toNat ≠ 0 := fun h => this (BitVec.eq_of_toNat_eq (by rw [h]; simp))
    rw [unary, b2i, decide_eq_true h0, if_pos rfl]

def short (W : Nat) (c : Cc) (l : Int) : List Ins := p2 W .test .ax .ax ++ [.jcc c l]

/-- test and jump over -/
theorem sim_short {V : Env W} {f g : E → E} (hf : Hole V f) (hg : Hole V g) {cl cr : List Ins} {jc : Cc} {lab : Int} {l r : E} {dl dr : Nat}
    {QL QR : Wd W → E → Prop} (hl : SimG V cl dl l QL) (hr : SimG V cr dr r QR)
    (taken : ∀ a m e', QL a e' → (testFlags a a).holds jc = true → ∃ e'', Steps V (f e') m e'' m ∧ FullQ W a e'')
    (going : ∀ a m e', QL a e' → (testFlags a a).holds jc = false → Steps V (f e') m (g r) m)
    (fin : ∀ a m e', QR a e' → ∃ e'', Steps V (g e') m e'' m ∧ FullQ W a e'') :
    SimG V (cl ++ short W jc lab ++ cr ++ [.lab lab]) (max dl dr) (f l) (FullQ W) := by
  intro P pre post hP hn s m hb ha hs hsafe
  obtain ⟨s', e', m', h1, h2, h3, h4, h5, h6, h7⟩ :=
    hl P pre (short W jc lab ++ cr ++ [.lab lab] ++ post) (by rw [hP]; simp) hn s m hb ha (hs.mono (by omega)) (hf.safe hsafe)
  have st1 := hf.steps h2
  have h8 := run_execs (test_exec V.G s') (pre ++ cl) ([.jcc jc lab] ++ cr ++ [.lab lab] ++ post)
  have e1 : pre ++ cl ++ p2 W .test .ax .ax ++ ([.jcc jc lab] ++ cr ++ [.lab lab] ++ post) = P := by rw [hP]; simp [short]
  rw [e1, List.length_append] at h8
  have hj : P = (pre ++ cl ++ p2 W .test .ax .ax) ++ .jcc jc lab :: (cr ++ [.lab lab] ++ post) := by rw [hP]; simp [short]
  have hlab : P = (pre ++ cl ++ p2 W .test .ax .ax ++ [.jcc jc lab] ++ cr) ++ .lab lab :: post := by rw [hP]; simp [short]
  have hlen : pre.length + cl.length + (p2 W .test .ax .ax).length = (pre ++ cl ++ p2 W .test .ax .ax).length := by
    simp only [List.length_append]
  have hend : pre.length + (cl ++ short W jc lab ++ cr ++ [Ins.lab lab]).length =
      (pre ++ cl ++ p2 W .test .ax .ax ++ [Ins.jcc jc lab] ++ cr).length + 1 := by simp [short]; omega
  rw [hlen] at h8
  rw [hend]
  cases hh : (testFlags s'.ax s'.ax).holds jc with
  | true =>
    obtain ⟨e'', g1, g2⟩ := taken s'.ax m' e' h3 hh
    have h9 := run_jcc (G := V.G) (s := { s' with flags := some (testFlags s'.ax s'.ax) }) hj rfl hh hlab hn
    exact ⟨_, e'', m', (h1.trans h8).trans h9, st1.trans g1, g2, h4, h5, h6, h7.mono (by omega)⟩
  | false =>
    have st2 := st1.trans (going s'.ax m' e' h3 hh)
    have h9 := run_no_jcc (G := V.G) (s := { s' with flags := some (testFlags s'.ax s'.ax) }) hj rfl hh
    obtain ⟨t, e2, n, g1, g2, g3, g4, g5, g6, g7⟩ := hr P (pre ++ cl ++ p2 W .test .ax .ax ++ [.jcc jc lab]) ([.lab lab] ++ post)
      (by rw [hP]; simp [short]) hn { s' with flags := some (testFlags s'.ax s'.ax) } m' (h5.trans hb) h6
      (by show StkOk V.A s'.sp dr; rw [h4]; exact hs.mono (by omega)) (hg.safe (hsafe.steps st2))
    obtain ⟨e3, k1, k2⟩ := fin t.ax n e2 g3
    have h10 := run_execs (G := V.G) (c := [.lab lab]) (s := t) (s' := t) rfl (pre ++ cl ++ p2 W .test .ax .ax ++ [.jcc jc lab] ++ cr) post
    rw [show pre ++ cl ++ p2 W .test .ax .ax ++ [.jcc jc lab] ++ cr ++ [Ins.lab lab] ++ post = P by rw [hP]; simp [short]] at h10
    rw [show (pre ++ cl ++ p2 W .test .ax .ax ++ [Ins.jcc jc lab]).length = (pre ++ cl ++ p2 W .test .ax .ax).length + 1 by
      simp only [List.length_append, List.length_cons, List.length_nil]] at g1
    rw [show (pre ++ cl ++ p2 W .test .ax .ax).length + 1 + cr.length = (pre ++ cl ++ p2 W .test .ax .ax ++ [Ins.jcc jc lab] ++ cr).length by
      simp; omega] at g1
    refine ⟨t, e3, n, ((((h1.trans h8).trans h9).trans g1).trans h10), (st2.trans (hg.steps g2)).trans k1, k2, g4.trans h4, g5.trans h5, g6, ?_⟩
    refine (h7.mono (by omega)).trans ?_
    have : Frame V.A s'.sp dr s'.mem t.mem := g7
    rw [h4] at this
    exact this.mono (by omega)

theorem gen_short (c : Cc) (k l : Int) (h : (c = .eq ∧ 0 ≤ k ∧ l = k) ∨ (c = .ne ∧ k < 0 ∧ l = -k)) : Gen W [(.short, k)] (short W c l) := by
  refine gen_of (by simp) fun r _ => ?_
  rcases h with ⟨rfl, h, rfl⟩ | ⟨rfl, h, rfl⟩
  · simp only [List.cons_append, List.nil_append, gen, ge_iff_le, if_pos h]; rfl
  · simp only [List.cons_append, List.nil_append, gen, ge_iff_le, if_neg (Int.not_le.mpr h)]; rfl

theorem full_land (hW : W = 2 ∨ W = 4) (lab : Int) (l r : E) (hp : 0 < lab ∧ l.isBool ∧ r.isBool) (hl : Full W l) (hr : Full W r) : Full W (.land lab l r) := by
  obtain ⟨cl, gl, sl⟩ := full_bool hW l hp.2.1 hl
  obtain ⟨cr, gr, sr⟩ := full_bool hW r hp.2.2 hr
  refine ⟨cl ++ short W .eq lab ++ cr ++ [.lab lab], ?_, fun V => ?_⟩
  · exact ((gl.app (gen_short .eq lab lab (Or.inl ⟨rfl, by omega, rfl⟩))).app gr).app (gen_of (by simp) fun r _ => rfl)
  · refine sim_short (hole_land V lab r) (hole_un V .bool) (sl V) (sr V) ?_ ?_ ?_
    · rintro a m e' ⟨v, rfl, hv⟩ hh
      rw [testFlags_eq, decide_eq_true_eq] at hh
      have : wd W v = 0 := (bool_zero hW _).mp (hv ▸ hh)
      exact ⟨_, .one (.landF lab v r m this), 0, rfl, by rw [hh]; simp⟩
    · rintro a m e' ⟨v, rfl, hv⟩ hh
      rw [testFlags_eq, decide_eq_false_iff_not] at hh
      exact .one (.landT lab v r m fun h => hh (by rw [hv]; exact (bool_zero hW _).mpr h))
    · rintro a m e' ⟨v, rfl, hv⟩
      exact ⟨_, .one (.un .bool v m), _, rfl, hv⟩

theorem full_lor (hW : W = 2 ∨ W = 4) (lab : Int) (l r : E) (hp : 0 < lab ∧ l.isBool ∧ r.isBool) (hl : Full W l) (hr : Full W r) : Full W (.lor lab l r) := by
  obtain ⟨cl, gl, sl⟩ := full_bool hW l hp.2.1 hl
  obtain ⟨cr, gr, sr⟩ := full_bool hW r hp.2.2 hr
  refine ⟨cl ++ short W .ne lab ++ cr ++ [.lab lab], ?_, fun V => ?_⟩
  · exact ((gl.app (gen_short .ne (-lab) lab (Or.inr ⟨rfl, by omega, by omega⟩))).app gr).app (gen_of (by simp) fun r _ => rfl)
  · refine sim_short (hole_lor V lab r) (hole_un V .bool) (sl V) (sr V) ?_ ?_ ?_
    · rintro a m e' ⟨v, rfl, hv⟩ hh
      rw [testFlags_ne, Bool.not_eq_true', decide_eq_false_iff_not] at hh
      have h0 : wd W v ≠ 0 := fun h => hh (by rw [hv]; exact (bool_zero hW _).mpr h)
      have h1 : (wd W v).toNat ≠ 0 := fun h => h0 (BitVec.eq_of_toNat_eq (by rw [h]; simp))
      refine ⟨_, .one (.lorT lab v r m h0), 1, rfl, ?_⟩
      rw [hv, unary, b2i]
      simp only [ne_eq, h1, not_false_eq_true, decide_true, if_true]
    · rintro a m e' ⟨v, rfl, hv⟩ hh
      rw [testFlags_ne, Bool.not_eq_false', decide_eq_true_eq] at hh
      exact .one (.lorF lab v r m ((bool_zero hW _).mp (hv ▸ hh)))
    · rintro a m e' ⟨v, rfl, hv⟩
      exact ⟨_, .one (.un .bool v m), _, rfl, hv⟩

theorem full_comma (l r : E) (hl : Full W l) (hr : Full W r) : Full W (.comma l r) := by
  obtain ⟨cl, gl, sl⟩ := hl
  obtain ⟨cr, gr, sr⟩ := hr
  have gv : ∀ t : Tok, t = .void ∨ t = .comma → Gen W [(t, 0)] [] := by
    rintro t (rfl | rfl)
    · refine gen_of (by simp) fun r _ => ?_
      simp only [List.cons_append, List.nil_append, gen]
      cases gen W r <;> rfl
    · refine gen_of (by simp) fun r _ => ?_
      simp only [List.cons_append, List.nil_append, gen]
      cases gen W r <;> rfl
  refine ⟨cl ++ cr, ?_, fun V => ?_⟩
  · have := ((gl.app (gv _ (Or.inl rfl))).app gr).app (gv _ (Or.inr rfl))
    simpa [fz] using this
  · intro P pre post hP hn s m hb ha hs hsafe
    obtain ⟨s', e', m', h1, h2, ⟨v, rfl, h3⟩, h4, h5, h6, h7⟩ :=
      sl V P pre (cr ++ post) (by rw [hP]; simp) hn s m hb ha (hs.mono (by simp only [E.depth]; omega)) ((hole_comma V r).safe hsafe)
    have st1 := ((hole_comma V r).steps h2).trans (.one (.comma v r m'))
    obtain ⟨t, e2, n, g1, g2, g3, g4, g5, g6, g7⟩ := sr V P (pre ++ cl) post (by rw [hP]; simp) hn s' m' (h5.trans hb) h6
      (by rw [h4]; exact hs.mono (by simp only [E.depth]; omega)) (hsafe.steps st1)
    rw [List.length_append] at g1
    refine ⟨t, e2, n, ?_, st1.trans g2, g3, g4.trans h4, g5.trans h5, g6, ?_⟩
    · rw [List.length_append, ← Nat.add_assoc]; exact h1.trans g1
    · rw [h4] at g7
      exact (h7.mono (by simp only [E.depth]; omega)).trans (g7.mono (by simp only [E.depth]; omega))

theorem full_cond (lab : Int) (c a b : E) (hp : 0 < lab) (hc : Full W c) (ha : Full W a) (hb : Full W b) : Full W (.cond lab c a b) := by
  obtain ⟨cc, gc, sc⟩ := hc
  obtain ⟨ca, ga, sa⟩ := ha
  obtain ⟨cb, gb, sb⟩ := hb
  refine ⟨cc ++ short W .ne lab ++ (cb ++ [.jmp (lab + 1)]) ++ [.lab lab] ++ ca ++ [.lab (lab + 1)], ?_, fun V => ?_⟩
  · exact ((((gc.app (gen_short .ne (-lab) lab (Or.inr ⟨rfl, by omega, by omega⟩))).app (gb.app (gen_of (by simp) fun r _ => rfl))).app
      (gen_of (by simp) fun r _ => rfl)).app ga).app (gen_of (by simp) fun r _ => rfl)
  · intro P pre post hP hn s m hb ha hs hsafe
    have d1 : c.depth ≤ (E.cond lab c a b).depth := by simp only [E.depth]; omega
    have d2 : a.depth ≤ (E.cond lab c a b).depth := by simp only [E.depth]; omega
    have d3 : b.depth ≤ (E.cond lab c a b).depth := by simp only [E.depth]; omega
    have hc := hole_cond V lab a b
    obtain ⟨s', e', m', h1, h2, ⟨v, rfl, h3⟩, h4, h5, h6, h7⟩ :=
      sc V P pre (short W .ne lab ++ (cb ++ [.jmp (lab + 1)]) ++ [.lab lab] ++ ca ++ [.lab (lab + 1)] ++ post) (by rw [hP]; simp) hn s m hb ha
        (hs.mono d1) (hc.safe hsafe)
    have st1 := hc.steps h2
    let A := pre ++ cc ++ p2 W .test .ax .ax
    let B := A ++ [.jcc .ne lab] ++ cb
    let C := B ++ [.jmp (lab + 1)]
    let D := C ++ [.lab lab] ++ ca
    have pA : P = A ++ .jcc .ne lab :: (cb ++ [.jmp (lab + 1)] ++ [.lab lab] ++ ca ++ [.lab (lab + 1)] ++ post) := by rw [hP]; simp [short, A]
    have pB : P = B ++ .jmp (lab + 1) :: ([.lab lab] ++ ca ++ [.lab (lab + 1)] ++ post) := by rw [hP]; simp [short, A, B]
    have pC : P = C ++ .lab lab :: (ca ++ [.lab (lab + 1)] ++ post) := by rw [hP]; simp [short, A, B, C]
    have pD : P = D ++ .lab (lab + 1) :: post := by rw [hP]; simp [short, A, B, C, D]
    have lA : A.length = pre.length + cc.length + (p2 W .test .ax .ax).length := by
      simp only [A, List.length_append]
    have lB : B.length = A.length + 1 + cb.length := by simp [B]; omega
    have lC : C.length = B.length + 1 := by simp [C]
    have lD : D.length = C.length + 1 + ca.length := by simp [D]; omega
    have hend : pre.length + (cc ++ short W .ne lab ++ (cb ++ [Ins.jmp (lab + 1)]) ++ [Ins.lab lab] ++ ca ++ [Ins.lab (lab + 1)]).length = D.length + 1 := by
      rw [lD, lC, lB, lA]; simp [short]; omega
    have h8 := run_execs (test_exec V.G s') (pre ++ cc) (.jcc .ne lab :: (cb ++ [.jmp (lab + 1)] ++ [.lab lab] ++ ca ++ [.lab (lab + 1)] ++ post))
    rw [← pA, List.length_append, ← lA] at h8
    rw [hend]
    have hs' : ∀ d, d ≤ (E.cond lab c a b).depth → StkOk V.A s'.sp d := fun d hd => by rw [h4]; exact hs.mono hd
    cases hh : (testFlags s'.ax s'.ax).holds .ne with
    | true =>
      have h9 := run_jcc (G := V.G) (s := { s' with flags := some (testFlags s'.ax s'.ax) }) pA rfl hh pC hn
      rw [testFlags_ne, Bool.not_eq_true', decide_eq_false_iff_not] at hh
      have st2 := st1.trans (.one (.condT lab v a b m' (h3 ▸ hh)))
      obtain ⟨t, e2, n, g1, g2, g3, g4, g5, g6, g7⟩ := sa V P (C ++ [.lab lab]) ([.lab (lab + 1)] ++ post) (by rw [pD]; simp [D]) hn
        { s' with flags := some (testFlags s'.ax s'.ax) } m' (h5.trans hb) h6 (hs' _ d2) (hsafe.steps st2)
      have h10 := run_execs (G := V.G) (c := [.lab (lab + 1)]) (s := t) (s' := t) rfl D post
      rw [show D ++ [.lab (lab + 1)] ++ post = P by rw [pD]; simp] at h10
      rw [List.length_append] at g1
      rw [lD] at h10
      rw [lD]
      refine ⟨t, e2, n, (((h1.trans h8).trans h9).trans g1).trans h10, st2.trans g2, g3, g4.trans h4, g5.trans h5, g6, ?_⟩
      have g7' : Frame V.A s'.sp a.depth s'.mem t.mem := g7
      rw [h4] at g7'
      exact (h7.mono d1).trans (g7'.mono d2)
    | false =>
      have h9 := run_no_jcc (G := V.G) (s := { s' with flags := some (testFlags s'.ax s'.ax) }) pA rfl hh
      rw [testFlags_ne, Bool.not_eq_false', decide_eq_true_eq] at hh
      have st2 := st1.trans (.one (.condF lab v a b m' (h3 ▸ hh)))
      obtain ⟨t, e2, n, g1, g2, g3, g4, g5, g6, g7⟩ := sb V P (A ++ [.jcc .ne lab]) (.jmp (lab + 1) :: ([.lab lab] ++ ca ++ [.lab (lab + 1)] ++ post))
        (by rw [pB]) hn
        { s' with flags := some (testFlags s'.ax s'.ax) } m' (h5.trans hb) h6 (hs' _ d3) (hsafe.steps st2)
      have h10 := run_jmp (G := V.G) t pB pD hn
      rw [List.length_append] at g1
      rw [lB] at h10
      refine ⟨t, e2, n, (((h1.trans h8).trans h9).trans g1).trans h10, st2.trans g2, g3, g4.trans h4, g5.trans h5, g6, ?_⟩
      have g7' : Frame V.A s'.sp b.depth s'.mem t.mem := g7
      rw [h4] at g7'
      exact (h7.mono d1).trans (g7'.mono d3)

/-! ### all expressions -/

theorem full_part (hW : W = 2 ∨ W = 4) (e : E) (h : e.ok W) : Full W e ∧ Part W e := by
  induction e with
  | num v => exact ⟨full_num v, part_leaf _ rfl⟩
  | glob x => exact ⟨full_glob x, part_leaf _ rfl⟩
  | loc x => exact ⟨full_loc x, part_leaf _ rfl⟩
  | deref sz e ih =>
    have ih := ih h.2
    refine ⟨full_deref hW sz e h.1 ih.1, ?_⟩
    cases hc : (cls (.deref sz e)).isAcc with
    | false => exact part_leaf _ hc
    | true =>
      refine part_deref sz e ?_ ih.1
      simp only [cls] at hc ⊢
      split at hc <;> first | rfl | exact Bool.noConfusion hc
  | un u e ih =>
    have ih := ih h.2
    have hf := full_un hW u e h ih.1
    refine ⟨hf, ?_⟩
    by_cases hu : u = .plus
    · subst hu; exact part_plus e ih.2
    · exact part_full _ (cls_un u e hu) hf
  | inc k sz e ih =>
    have hf := full_inc hW k sz e h.1 (ih h.2).1
    exact ⟨hf, part_full _ rfl hf⟩
  | padd sub sz n e ih =>
    have hf := full_padd hW sub sz n e h.1 (ih h.2).1
    exact ⟨hf, part_full _ rfl hf⟩
  | bin o l r ihl ihr =>
    have hf := full_bin hW o l r h.1 h.2 (ihl h.1).2 (ihr h.2).2
    exact ⟨hf, part_full _ rfl hf⟩
  | cmp o l r ihl ihr =>
    have hf := full_cmp hW o l r h.1 h.2 (ihl h.1).2 (ihr h.2).2
    exact ⟨hf, part_full _ rfl hf⟩
  | asg sz l r ihl ihr =>
    have hf := full_asg hW sz l r h.1 h.2.2 (ihl h.2.1).1 (ihr h.2.2).2
    exact ⟨hf, part_full _ rfl hf⟩
  | asgo o sz l r ihl ihr =>
    have hf := full_asgo hW o sz l r h.1 h.2.2 (ihl h.2.1).1 (ihr h.2.2).2
    exact ⟨hf, part_full _ rfl hf⟩
  | land lab l r ihl ihr =>
    have hf := full_land hW lab l r h.1 (ihl h.2.1).1 (ihr h.2.2).1
    exact ⟨hf, part_full _ rfl hf⟩
  | lor lab l r ihl ihr =>
    have hf := full_lor hW lab l r h.1 (ihl h.2.1).1 (ihr h.2.2).1
    exact ⟨hf, part_full _ rfl hf⟩
  | cond lab c a b ihc iha ihb =>
    have hf := full_cond lab c a b h.1 (ihc h.2.1).1 (iha h.2.2.1).1 (ihb h.2.2.2).1
    exact ⟨hf, part_full _ rfl hf⟩
  | comma l r ihl ihr =>
    have hf := full_comma l r (ihl h.1).1 (ihr h.2).1
    exact ⟨hf, part_full _ rfl hf⟩

/-- the last token of an expression -/
theorem toks_last (e : E) : ∃ X t, toks e = X ++ [t] ∧ t.1 ≠ .ifT ∧ t.1 ≠ .ifN ∧ t.1 ≠ .ret := by
  cases e <;> simp only [toks]
  case num => exact ⟨[], _, rfl, by simp⟩
  case glob => exact ⟨[], _, rfl, by simp⟩
  case loc => exact ⟨[], _, rfl, by simp⟩
  case un u e => exact ⟨_, _, rfl, by cases u <;> simp [Un.tok]⟩
  case inc k sz e => exact ⟨_, _, rfl, by cases k <;> simp [IncK.tok]⟩
  case padd sub sz n e => exact ⟨toks e ++ [(.num, n)], (if sub then .psub else .padd, sz), by simp, by cases sub <;> simp⟩
  all_goals exact ⟨_, _, rfl, by simp⟩

theorem genExpr_toks (hW : W = 2 ∨ W = 4) (e : E) (h : e.ok W) : genExpr W (toks e) = gen W (fz W e) := by
  obtain ⟨X, t, ht, h1, h2, h3⟩ := toks_last e
  have hl : get (toks e) (len (toks e) - 1) = some t := by
    rw [ht]
    exact get_app (by simp [len])
  have hf := fus_toks W hW e h (toks e).length.succ (by omega) [] [] (len (toks e) - 1) (by simp [len])
  simp only [List.nil_append, List.append_nil] at hf
  have : topIdx (toks e) = len (toks e) - 1 := by
    simp only [topIdx]
    rw [hl]
    obtain ⟨k, v⟩ := t
    cases k <;> first | rfl | exact absurd rfl h1 | exact absurd rfl h2 | exact absurd rfl h3
  simp only [genExpr]
  rw [this, hf]
  rfl

theorem genExpr_end (hW : W = 2 ∨ W = 4) (e : E) (h : e.ok W) (k : Tok) (v : Int) (hk : k = .ifT ∨ k = .ifN ∨ k = .ret) :
    genExpr W (toks e ++ [(k, v)]) = gen W (fz W e ++ [(k, v)]) := by
  have hl : get (toks e ++ [(k, v)]) (len (toks e ++ [(k, v)]) - 1) = some (k, v) := get_app (by simp [len])
  have ht : topIdx (toks e ++ [(k, v)]) = (toks e).length - 1 := by
    have : len (toks e ++ [(k, v)]) - 2 = (toks e).length - 1 := by simp [len]; omega
    simp only [topIdx, hl]
    rcases hk with rfl | rfl | rfl <;> exact this
  have hf := fus_toks W hW e h ((toks e ++ [(k, v)]).length + 1) (by simp; omega) [] [(k, v)] ((toks e).length - 1) (by simp)
  simp only [List.nil_append] at hf
  simp only [genExpr]
  rw [ht, hf]
  rfl

end Smlr.Cg
