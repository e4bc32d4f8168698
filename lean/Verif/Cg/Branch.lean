import Verif.Cg.Jump
set_option autoImplicit false
/-! Conditional jumps on the value of an expression; expressions without side effects; progress. -/
namespace Smlr.Cg
variable {W : Nat}

/-- where a jump on a value goes -/
def dest (W : Nat) (nz : Bool) (v : Int) (there next : Nat) : Nat := if decide (wd W v ≠ 0) = nz then there else next

/-- the code evaluates an expression, and then jumps -/
def SimJ (V : Env W) (c : List Ins) (d : Nat) (e : E) (nz : Bool) (lab : Int) : Prop :=
  ∀ P pre post p' q', P = pre ++ c ++ post → P = p' ++ .lab lab :: q' → (labs P).Nodup →
    ∀ s m, s.bp = V.bp → Agree V.A s.mem m → StkOk V.A s.sp d → Safe V e m →
    ∃ s' v m', Run1 V.G P pre.length s (dest W nz v (p'.length + 1) (pre.length + c.length)) s' ∧ Steps V e m (.num v) m' ∧
      s'.sp = s.sp ∧ s'.bp = s.bp ∧ Agree V.A s'.mem m' ∧ Frame V.A s.sp d s.mem s'.mem

theorem jump_val {V : Env W} {c : List Ins} {e : E} {d : Nat} (h : SimG V c d e (FullQ W)) (nz : Bool) (lab : Int) :
    SimJ V (c ++ jumpIf W nz lab) d e nz lab := by
  intro P pre post p' q' hP hP' hn s m hb ha hs hsafe
  obtain ⟨s', e', m', h1, h2, ⟨v, rfl, h3⟩, h4, h5, h6, h7⟩ := h P pre (jumpIf W nz lab ++ post) (by rw [hP]; simp) hn s m hb ha hs hsafe
  have h8 := run_execs (test_exec V.G s') (pre ++ c) (.jcc (if nz then .ne else .eq) lab :: post)
  have hj : P = (pre ++ c ++ p2 W .test .ax .ax) ++ .jcc (if nz then .ne else .eq) lab :: post := by rw [hP]; simp [jumpIf]
  rw [← hj, List.length_append, ← List.length_append (as := pre), ← List.length_append] at h8
  rw [List.length_append] at h8
  refine ⟨{ s' with flags := some (testFlags s'.ax s'.ax) }, v, m', ?_, h2, h4, h5, h6, h7⟩
  have h18 := h1.trans h8
  have hf : (testFlags s'.ax s'.ax).holds (if nz then .ne else .eq) = decide (decide (wd W v ≠ 0) = nz) := by
    rw [← h3]
    cases nz
    · rw [if_neg (by simp), testFlags_eq]; simp
    · rw [if_pos rfl, testFlags_ne]; simp
  unfold dest
  cases hh : decide (decide (wd W v ≠ 0) = nz) with
  | true =>
    rw [if_pos (of_decide_eq_true hh)]
    exact h18.trans1 (run_jcc1 (G := V.G) (s := { s' with flags := some (testFlags s'.ax s'.ax) }) hj rfl (hf.trans hh) hP' hn)
  | false =>
    rw [if_neg (of_decide_eq_false hh)]
    have := run_no_jcc1 (G := V.G) (s := { s' with flags := some (testFlags s'.ax s'.ax) }) hj rfl (hf.trans hh)
    rw [show pre.length + (c ++ jumpIf W nz lab).length = (pre ++ c ++ p2 W .test .ax .ax).length + 1 by
      simp only [jumpIf, List.length_append, List.length_cons, List.length_nil]; omega]
    exact h18.trans1 this

theorem jump_cmp (hW : W = 2 ∨ W = 4) (o : Cc) (l r : E) (hl : l.ok W) (hr : r.ok W) (pl : Part W l) (pr : Part W r) (nz : Bool) (lab : Int) :
    ∃ c, gen W (fz W (.cmp o l r) ++ [(if nz then .ifT else .ifN, lab)]) = some c ∧ ∀ V : Env W, SimJ V c (E.cmp o l r).depth (.cmp o l r) nz lab := by
  obtain ⟨cl, gl, sl⟩ := pl
  obtain ⟨cr, gr, sr⟩ := pr
  have okl := cls_ok hl
  have okr := cls_ok hr
  let ops := saveR W (rInfo W (cls r)).size (rT W (cls r)) ++ loadA W (rInfo W (cls l)).size
      (ltyp (rInfo W (cls l)) (rInfo W (cls r)), (rInfo W (cls l)).val) ++ alu W .cmp (rInfo W (cls r)).size (rT W (cls r))
  let A := lcode (cls l) (cls r) cl ++ rcode (cls r) cr
  let j : Ins := .jcc (if nz then o else o.inv) lab
  refine ⟨A ++ (ops ++ [j]), ?_, fun V => ?_⟩
  · have h1 := (gen_lpart (cls r) gl).app (gen_rpart_acc gr)
    have h2 := h1.2 ([(.cmp o, ((rInfo W (cls l)).size + 8) * 16 + ((rInfo W (cls r)).size + 8)), (ltyp (rInfo W (cls l)) (rInfo W (cls r)), (rInfo W (cls l)).val), rT W (cls r)] ++
      [(if nz then .ifT else .ifN, lab)]) (by rintro t ht; cases ht; simp)
    have h3 : fz W (.cmp o l r) ++ [(if nz then .ifT else .ifN, lab)] = lpart (rInfo W (cls l)) (rInfo W (cls r)) (fz W l) ++ rpart (rInfo W (cls r)) (fz W r) ++
        ([(.cmp o, ((rInfo W (cls l)).size + 8) * 16 + ((rInfo W (cls r)).size + 8)), (ltyp (rInfo W (cls l)) (rInfo W (cls r)), (rInfo W (cls l)).val), rT W (cls r)] ++
          [(if nz then .ifT else .ifN, lab)]) := by
      simp only [fz, binF, rT, List.append_assoc]
    rw [h3, h2]
    simp only [List.cons_append, List.nil_append, gen, genBin, szL_enc (size_ok hW okr), szR_enc (size_ok hW okr)]
    cases nz
    · simp only [Bool.false_eq_true, if_false, gen, List.head?_cons, cmpEnd]
      simp [A, ops, j]
    · simp only [if_true, gen, List.head?_cons, cmpEnd]
      simp [A, ops, j]
  · intro P pre post p' q' hP hP' hn s m hb ha hs hsafe
    obtain ⟨t, l', r', n, la, ra, h1, h2, ql, qr, hh, h6, h7, h8, h9⟩ :=
      two hW (f := fun l r => .cmp o l r) (hole_cmpL V o) (hole_cmpR V o) (sl V) (sr V) (Nat.le_refl _) (P := P) (pre := pre)
        (post := ops ++ [j] ++ post) (by rw [hP]; simp [A]) hn hb ha hs hsafe
    have hsafe' := hsafe.steps h2
    have hbt := h7.trans hb
    obtain ⟨u, g1, g2, g3, _, g4, g5, g6⟩ := load_ok hW V.G t (cls l) (cls r) la ra okl okr hh
    obtain ⟨al, x, hx1, hx2⟩ := ql n ((hole_cmpL V o r').safe hsafe')
    have st1 := (hole_cmpL V o r').steps hx1
    obtain ⟨ar, y, hy1, hy2⟩ := qr n ((hole_cmpR V o (.num x)).safe (hsafe'.steps st1))
    have st2 := (h2.trans st1).trans ((hole_cmpR V o (.num x)).steps hy1)
    have hax : u.ax = wd W x := by rw [g2, hx2, hbt, agree_opv h8 al]
    obtain ⟨w, k1, k2, k3⟩ := cmp_ok hW (G := V.G) (s := u) (c := cls r) (a := ra) (y := wd W y) okr
      (by rw [hy2, g5, g6, hbt, agree_opv h8 ar]) (fun hc => by rw [g3 hc, hy2, hbt, agree_opv h8 ar])
    have hops : execs V.G ops t = some w := execs_app g1 k1
    have h10 := run_execs hops (pre ++ A) ([j] ++ post)
    rw [show pre ++ A ++ ops ++ ([j] ++ post) = P by rw [hP]; simp, List.length_append] at h10
    have h11 := h1.trans h10
    have hj : P = (pre ++ A ++ ops) ++ j :: post := by rw [hP]; simp
    have hlen : pre.length + A.length + ops.length = (pre ++ A ++ ops).length := by simp only [List.length_append]
    rw [hlen] at h11
    refine ⟨w, b2i (rel o (wd W x) (wd W y)), n, ?_, st2.trans (.one (.cmp o x y n)), ?_, (k3.bp.trans g5).trans h7, ?_, ?_⟩
    · have hf : (subFlags u.ax (wd W y)).holds (if nz then o else o.inv) =
          decide (decide (wd W (b2i (rel o (wd W x) (wd W y))) ≠ 0) = nz) := by
        rw [flags_rel (by omega), hax]
        have h1 := wd_ne hW
        cases nz
        · rw [if_neg (by simp), rel_inv]
          cases rel o (wd W x) (wd W y)
          · simp [b2i]
          · simp only [b2i, if_true, decide_eq_true h1]; simp
        · rw [if_pos rfl]
          cases rel o (wd W x) (wd W y)
          · simp [b2i]
          · simp only [b2i, if_true, decide_eq_true h1]; simp
      unfold dest
      cases hh : decide (decide (wd W (b2i (rel o (wd W x) (wd W y))) ≠ 0) = nz) with
      | true =>
        rw [if_pos (of_decide_eq_true hh)]
        exact h11.trans1 (run_jcc1 (G := V.G) hj k2 (hf.trans hh) hP' hn)
      | false =>
        rw [if_neg (of_decide_eq_false hh)]
        have := run_no_jcc1 (G := V.G) hj k2 (hf.trans hh)
        rw [show pre.length + (A ++ (ops ++ [j])).length = (pre ++ A ++ ops).length + 1 by
          simp only [List.length_append, List.length_cons, List.length_nil]; omega]
        exact h11.trans1 this
    · rw [k3.sp, g4, h6]
      split
      · rw [BitVec.sub_add_cancel]
      · rfl
    · rw [k3.mem, g6]; exact h8
    · rw [k3.mem, g6]; exact h9

/-! ### Expressions without side effects -/

theorem b2i_bool (x : Wd W) : b2i (decide (x ≠ 0)) = unary .bool x := by
  have h0 : x = 0 ↔ x.toNat = 0 := ⟨fun h => by rw [h]; simp, fun h => BitVec.eq_of_toNat_eq (by rw [h]; simp)⟩
  simp only [unary]
  congr 1
  exact decide_eq_decide.mpr (not_congr h0)

theorem pure_step {V : Env W} {e e' : E} {m m' : Mem W} (h : Step V e m e' m') (hp : e.pure = true) :
    m' = m ∧ e'.pure = true ∧ ev V m e' = ev V m e := by
  induction h with
  | glob | loc | un | cmp => exact ⟨rfl, rfl, rfl⟩
  | deref sz a m ha => exact ⟨rfl, rfl, by simp only [ev, Option.bind_some, if_pos ha]⟩
  | bin m ha => exact ⟨rfl, rfl, by simp only [ev, Option.bind_some, ha]⟩
  | derefC _ ih | unC _ ih => obtain ⟨h1, h2, h3⟩ := ih hp; exact ⟨h1, h2, by simp only [ev, h3]⟩
  | binL _ ih | cmpL _ ih | landC _ ih | lorC _ ih | commaC _ ih =>
    simp only [E.pure, Bool.and_eq_true] at hp ⊢
    obtain ⟨h1, h2, h3⟩ := ih hp.1
    exact ⟨h1, ⟨h2, hp.2⟩, by simp only [ev, h3]⟩
  | binR _ ih | cmpR _ ih =>
    simp only [E.pure, Bool.and_eq_true] at hp ⊢
    obtain ⟨h1, h2, h3⟩ := ih hp.2
    exact ⟨h1, ⟨hp.1, h2⟩, by simp only [ev, h3]⟩
  | condC _ ih =>
    simp only [E.pure, Bool.and_eq_true] at hp ⊢
    obtain ⟨h1, h2, h3⟩ := ih hp.1.1
    exact ⟨h1, ⟨⟨h2, hp.1.2⟩, hp.2⟩, by simp only [ev, h3]⟩
  | landF lab v r m hv => exact ⟨rfl, rfl, by simp only [ev, Option.bind_some, if_pos hv]⟩
  | lorT lab v r m hv => exact ⟨rfl, rfl, by simp only [ev, Option.bind_some, if_neg hv]⟩
  | landT lab v r m hv =>
    simp only [E.pure, Bool.true_and] at hp ⊢
    exact ⟨trivial, hp, by simp only [ev, Option.bind_some, if_neg hv, b2i_bool]⟩
  | lorF lab v r m hv =>
    simp only [E.pure, Bool.true_and] at hp ⊢
    exact ⟨trivial, hp, by simp only [ev, Option.bind_some, if_pos hv, b2i_bool]⟩
  | condT lab v a b m hv =>
    simp only [E.pure, Bool.true_and, Bool.and_eq_true] at hp
    exact ⟨rfl, hp.1, by simp only [ev, Option.bind_some, if_neg hv]⟩
  | condF lab v a b m hv =>
    simp only [E.pure, Bool.true_and, Bool.and_eq_true] at hp
    exact ⟨rfl, hp.2, by simp only [ev, Option.bind_some, if_pos hv]⟩
  | comma v r m =>
    simp only [E.pure, Bool.true_and] at hp
    exact ⟨rfl, hp, by simp only [ev, Option.bind_some]⟩
  | _ => exact Bool.noConfusion hp

theorem pure_steps {V : Env W} {e e' : E} {m m' : Mem W} (h : Steps V e m e' m') (hp : e.pure = true) :
    m' = m ∧ e'.pure = true ∧ ev V m e' = ev V m e := by
  induction h with
  | refl => exact ⟨rfl, hp, rfl⟩
  | step hs _ ih =>
    obtain ⟨rfl, h2, h3⟩ := pure_step hs hp
    obtain ⟨k1, k2, k3⟩ := ih h2
    exact ⟨k1, k2, k3.trans h3⟩

theorem pure_ub {V : Env W} {e : E} {m : Mem W} (h : Ub V e m) (hp : e.pure = true) : ev V m e = none := by
  induction h with
  | deref sz a m ha => simp only [ev, Option.bind_some, if_neg ha]
  | bin o v w m ha => simp only [ev, Option.bind_some, ha]
  | derefC _ ih => simp only [ev, ih hp, Option.bind_none]
  | unC _ ih => simp only [ev, ih hp, Option.map_none]
  | binL _ ih | cmpL _ ih | landC _ ih | lorC _ ih | commaC _ ih =>
    simp only [E.pure, Bool.and_eq_true] at hp
    simp only [ev, ih hp.1, Option.bind_none]
  | @binR o l r m _ ih =>
    simp only [E.pure, Bool.and_eq_true] at hp
    simp only [ev, ih hp.2, Option.bind_none]
    cases ev V m l <;> rfl
  | @cmpR o l r m _ ih =>
    simp only [E.pure, Bool.and_eq_true] at hp
    simp only [ev, ih hp.2, Option.map_none]
    cases ev V m l <;> rfl
  | condC _ ih =>
    simp only [E.pure, Bool.and_eq_true] at hp
    simp only [ev, ih hp.1.1, Option.bind_none]
  | _ => exact Bool.noConfusion hp

theorem pure_safe {V : Env W} {e : E} {m : Mem W} {v : Int} (hp : e.pure = true) (h : ev V m e = some v) : Safe V e m := by
  intro e' m' hs hu
  obtain ⟨rfl, h2, h3⟩ := pure_steps hs hp
  rw [pure_ub hu h2, h] at h3
  cases h3

end Smlr.Cg
