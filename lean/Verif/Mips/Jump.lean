import Verif.Mips.Asg
set_option autoImplicit false
/-! Code with jumps: `&&`, `||`, `?:`; the comma operator. -/
namespace Smlr.Mips
open Smlr.Cg (Wd Mem ld st sext wd Env Ar Cc conv val upd arith rel unary okSz b2i E Steps Step Safe Agree Frame StkOk Hole Zone Un IncK Acc Ub)

/-- one of two operands may be left out -/
theorem sim_short {V : Env 4} {f g : E → E} (hf : Hole V f) (hg : Hole V g) {cl cr : List Ins} {j : Ins} {lab : Int} {l r : E} {t d : Nat} {z : Bool}
    (hl : Sim V t cl d l) (hr : Sim V t cr d r) (hj : ∀ s : St, jump s j = some (lab, decide (decide (s.r (wreg t) = 0) = z)))
    (h1 : ∀ v m, (∃ m₀ m₁, Steps V l m₀ (.num v) m₁) → decide (wd 4 v = 0) = z → ∃ w, Step V (f (.num v)) m (.num w) m ∧ wd 4 w = wd 4 v)
    (h2 : ∀ v m, decide (wd 4 v = 0) ≠ z → Step V (f (.num v)) m (g r) m)
    (h3 : ∀ y m, (∃ m₀ m₁, Steps V r m₀ (.num y) m₁) → ∃ w, Step V (g (.num y)) m (.num w) m ∧ wd 4 w = wd 4 y) :
    Sim V t (cl ++ ([j] ++ (cr ++ [Ins.lab lab]))) d (f l) := by
  intro P pre post hP hn s m hb ha hs hsafe
  obtain ⟨s1, v, m1, a1, a2, a3, a4, a5, a6⟩ := hl P pre ([j] ++ (cr ++ [Ins.lab lab]) ++ post) (by rw [hP]; simp) hn s m hb ha hs (hf.safe hsafe)
  have st1 := hf.steps a2
  have hj1 := hj s1
  rw [a3] at hj1
  have hlen : pre.length + cl.length = (pre ++ cl).length := by simp
  have hend : pre.length + (cl ++ ([j] ++ (cr ++ [Ins.lab lab]))).length = (pre ++ cl ++ [j] ++ cr).length + 1 := by simp; omega
  rw [hlen] at a1
  rw [hend]
  by_cases hz : decide (wd 4 v = 0) = z
  · rw [decide_eq_true hz] at hj1
    obtain ⟨w, b1, b2⟩ := h1 v m1 ⟨_, _, a2⟩ hz
    refine ⟨s1, w, m1, a1.trans ?_, st1.trans (.one b1), by rw [a3, b2], a4, a5, a6⟩
    exact run_jump (post := cr ++ [Ins.lab lab] ++ post) (post' := post) (by rw [hP]; simp) hj1 (by rw [hP]; simp) hn
  · rw [decide_eq_false hz] at hj1
    have st2 := st1.trans (.one (h2 v m1 hz))
    have r1 := run_no_jump (G := V.G) (P := P) (pre := pre ++ cl) (post := cr ++ [Ins.lab lab] ++ post) (by rw [hP]; simp) hj1
    obtain ⟨s2, y, m2, b1, b2, b3, b4, b5, b6⟩ := hr P (pre ++ cl ++ [j]) ([Ins.lab lab] ++ post) (by rw [hP]; simp) hn s1 m1 (a4.fp.trans hb) a5
      (by rw [a4.sp]; exact hs) (hg.safe (hsafe.steps st2))
    obtain ⟨w, c1, c2⟩ := h3 y m2 ⟨_, _, b2⟩
    have r2 := run_execs (G := V.G) (c := [Ins.lab lab]) (s := s2) (s' := s2) rfl (pre ++ cl ++ [j] ++ cr) post
    rw [show pre ++ cl ++ [j] ++ cr ++ [Ins.lab lab] ++ post = P by rw [hP]; simp] at r2
    refine ⟨s2, w, m2, ?_, (st2.trans (hg.steps b2)).trans (.one c1), by rw [b3, c2], a4.trans b4, b5, ?_⟩
    · refine (a1.trans r1).trans ?_
      rw [show (pre ++ cl).length + 1 = (pre ++ cl ++ [j]).length by simp; omega]
      refine b1.trans ?_
      rw [show (pre ++ cl ++ [j]).length + cr.length = (pre ++ cl ++ [j] ++ cr).length by simp; omega]
      exact r2
    · rw [a4.sp] at b6
      exact a6.trans b6

theorem jump_beq (s : St) (t : Nat) (lab : Int) : jump s (Ins.beq (wreg t) 0 lab) = some (lab, decide (decide (s.r (wreg t) = 0) = true)) := by
  simp only [jump, get_wreg, get_zero, decide_eq_true_eq]

theorem jump_bne (s : St) (t : Nat) (lab : Int) : jump s (Ins.bne (wreg t) 0 lab) = some (lab, decide (decide (s.r (wreg t) = 0) = false)) := by
  simp only [jump, get_wreg, get_zero, decide_eq_false_iff_not, ne_eq]

theorem bool_id {y : Int} (h : y = 0 ∨ y = 1) : wd 4 (unary .bool (wd 4 y)) = wd 4 y := by
  rcases h with rfl | rfl <;> decide

theorem genTo_label {F : List T} {t : Nat} {g : Bool} {c : List Ins} (h : GenTo F t g t c) (lab : Int) (k : Cg.Tok) (hk : k = .logAnd ∨ k = .logOr) :
    GenTo (F ++ [(.t k, lab)]) t g t (c ++ [Ins.lab lab]) := by
  rcases hk with rfl | rfl
  · exact h.snoc (nx_any (by simp) (by simp) rfl rfl) fun m _ => rfl
  · exact h.snoc (nx_any (by simp) (by simp) rfl rfl) fun m _ => rfl

theorem genTo_land {F F' : List T} {t : Nat} {g : Bool} {cl cr : List Ins} (hl : GenTo F t true t cl) (hr : GenTo F' t g t cr) (hh : headL F') {lab : Int} (hp : 0 < lab) :
    GenTo (F ++ [(.t .short, lab)] ++ F') t g t (cl ++ ([Ins.beq (wreg t) 0 lab] ++ cr)) := by
  have h1 : GenTo (F ++ [(.t .short, lab)]) t false t (cl ++ [Ins.beq (wreg t) 0 lab]) :=
    hl.snoc (nx_any (by simp) (by simp) rfl rfl) fun m _ => by
      simp only [step, if_pos (show lab ≥ 0 by omega)]
  have h2 := h1.seq hh (g2 := g) (t2 := t) hr
  have e : cl ++ [Ins.beq (wreg t) 0 lab] ++ (pc false t ++ cr) = cl ++ ([Ins.beq (wreg t) 0 lab] ++ cr) := by simp [pc]
  rw [← e]
  exact h2

theorem genTo_lor {F F' : List T} {t : Nat} {g : Bool} {cl cr : List Ins} (hl : GenTo F t true t cl) (hr : GenTo F' t g t cr) (hh : headL F') {lab : Int} (hp : 0 < lab) :
    GenTo (F ++ [(.t .short, -lab)] ++ F') t g t (cl ++ ([Ins.bne (wreg t) 0 lab] ++ cr)) := by
  have h1 : GenTo (F ++ [(.t .short, -lab)]) t false t (cl ++ [Ins.bne (wreg t) 0 lab]) :=
    hl.snoc (nx_any (by simp) (by simp) rfl rfl) fun m _ => by
      simp only [step, if_neg (show ¬ -lab ≥ 0 by omega), Int.neg_neg]
  have h2 := h1.seq hh (g2 := g) (t2 := t) hr
  have e : cl ++ [Ins.bne (wreg t) 0 lab] ++ (pc false t ++ cr) = cl ++ ([Ins.bne (wreg t) 0 lab] ++ cr) := by simp [pc]
  rw [← e]
  exact h2

theorem full_land (lab : Int) (l r : E) (hp : 0 < lab ∧ l.isBool ∧ r.isBool) (hv : isVoid l = false) (hv' : isVoid r = false) (pl : Full l) (pr : Full r) : Full (.land lab l r) := by
  intro t
  obtain ⟨c, g, sm⟩ := pl t
  obtain ⟨c', g', sm'⟩ := pr t
  rw [hv] at g
  rw [hv'] at g'
  refine ⟨c ++ ([Ins.beq (wreg t) 0 lab] ++ c') ++ [Ins.lab lab], genTo_label (genTo_land g g' (pt_headL r) hp.1) lab .logAnd (Or.inl rfl), fun V => ?_⟩
  have hl := (sm V).mono (d' := dep t (temps (.land lab l r))) (by simp only [temps, dep]; omega)
  have hr := (sm' V).mono (d' := dep t (temps (.land lab l r))) (by simp only [temps, dep]; omega)
  rw [show c ++ ([Ins.beq (wreg t) 0 lab] ++ c') ++ [Ins.lab lab] = c ++ ([Ins.beq (wreg t) 0 lab] ++ (c' ++ [Ins.lab lab])) by simp]
  refine sim_short (f := fun l => .land lab l r) (g := .un .bool) (Cg.hole_land V lab r) (Cg.hole_un V .bool) hl hr (z := true) (fun s => jump_beq s t lab) ?_ ?_ ?_
  · rintro v m _ hz
    have hz : wd 4 v = 0 := of_decide_eq_true hz
    exact ⟨0, .landF lab v r m hz, by rw [hz]; rfl⟩
  · intro v m hz
    exact .landT lab v r m fun h => hz (decide_eq_true h)
  · rintro y m ⟨m0, m1, hy⟩
    exact ⟨_, .un .bool y m, bool_id (Cg.bool_val hy y rfl hp.2.2)⟩

theorem full_lor (lab : Int) (l r : E) (hp : 0 < lab ∧ l.isBool ∧ r.isBool) (hv : isVoid l = false) (hv' : isVoid r = false) (pl : Full l) (pr : Full r) : Full (.lor lab l r) := by
  intro t
  obtain ⟨c, g, sm⟩ := pl t
  obtain ⟨c', g', sm'⟩ := pr t
  rw [hv] at g
  rw [hv'] at g'
  refine ⟨c ++ ([Ins.bne (wreg t) 0 lab] ++ c') ++ [Ins.lab lab], genTo_label (genTo_lor g g' (pt_headL r) hp.1) lab .logOr (Or.inr rfl), fun V => ?_⟩
  have hl := (sm V).mono (d' := dep t (temps (.lor lab l r))) (by simp only [temps, dep]; omega)
  have hr := (sm' V).mono (d' := dep t (temps (.lor lab l r))) (by simp only [temps, dep]; omega)
  rw [show c ++ ([Ins.bne (wreg t) 0 lab] ++ c') ++ [Ins.lab lab] = c ++ ([Ins.bne (wreg t) 0 lab] ++ (c' ++ [Ins.lab lab])) by simp]
  refine sim_short (f := fun l => .lor lab l r) (g := .un .bool) (Cg.hole_lor V lab r) (Cg.hole_un V .bool) hl hr (z := false) (fun s => jump_bne s t lab) ?_ ?_ ?_
  · rintro v m ⟨m0, m1, hv⟩ hz
    have hz : wd 4 v ≠ 0 := of_decide_eq_false hz
    refine ⟨1, .lorT lab v r m hz, ?_⟩
    rcases Cg.bool_val hv v rfl hp.2.1 with rfl | rfl
    · exact absurd rfl hz
    · rfl
  · intro v m hz
    refine .lorF lab v r m ?_
    by_cases h : wd 4 v = 0
    · exact h
    · exact absurd (decide_eq_false h) hz
  · rintro y m ⟨m0, m1, hy⟩
    exact ⟨_, .un .bool y m, bool_id (Cg.bool_val hy y rfl hp.2.2)⟩

theorem full_comma (l r : E) (pl : Full l) (pr : Full r) : Full (.comma l r) := by
  intro t
  obtain ⟨c, g, sm⟩ := pl t
  obtain ⟨c', g', sm'⟩ := pr t
  have h1 : GenTo (pt l ++ [(.t .void, 0)]) t false t (c ++ []) := g.snoc (nx_any (by simp) (by simp) rfl rfl) fun m _ => rfl
  have h2 := h1.seq (pt_headL r) (g2 := !isVoid r) (t2 := t) g'
  have h3 : GenTo (pt l ++ [(.t .void, 0)] ++ pt r ++ [(.t .comma, 0)]) t (!isVoid r) t _ := h2.snoc (nx_any (by simp) (by simp) rfl rfl) fun m _ => rfl
  refine ⟨c ++ [] ++ (pc false t ++ c') ++ [], h3, fun V => ?_⟩
  rw [show c ++ [] ++ (pc false t ++ c') ++ [] = c ++ c' by simp [pc]]
  have hl := (sm V).mono (d' := dep t (temps (.comma l r))) (by simp only [temps, dep]; omega)
  have hr := (sm' V).mono (d' := dep t (temps (.comma l r))) (by simp only [temps, dep]; omega)
  intro P pre post hP hn s m hb ha hs hsafe
  obtain ⟨s1, v, m1, a1, a2, a3, a4, a5, a6⟩ := hl P pre (c' ++ post) (by rw [hP]; simp) hn s m hb ha hs ((Cg.hole_comma V r).safe hsafe)
  have st1 := ((Cg.hole_comma V r).steps a2).trans (.one (.comma v r m1))
  obtain ⟨s2, w, m2, b1, b2, b3, b4, b5, b6⟩ := hr P (pre ++ c) post (by rw [hP]; simp) hn s1 m1 (a4.fp.trans hb) a5 (by rw [a4.sp]; exact hs) (hsafe.steps st1)
  refine ⟨s2, w, m2, ?_, st1.trans b2, b3, a4.trans b4, b5, ?_⟩
  · rw [List.length_append] at b1
    rw [List.length_append, ← Nat.add_assoc]
    exact a1.trans b1
  · rw [a4.sp] at b6
    exact a6.trans b6

theorem full_cond (lab : Int) (c a b : E) (hp : 0 < lab) (hv : isVoid c = false) (hab : isVoid a = isVoid b) (pc' : Full c) (pa : Full a) (pb : Full b) : Full (.cond lab c a b) := by
  intro t
  obtain ⟨cc, gc, sc⟩ := pc' t
  obtain ⟨ca, ga, sa⟩ := pa t
  obtain ⟨cb, gb, sb⟩ := pb t
  rw [hv] at gc
  have h1 : GenTo (pt b ++ [(.t .goto, lab + 1)]) t false t (cb ++ [Ins.j (lab + 1)]) := gb.snoc (nx_any (by simp) (by simp) rfl rfl) fun m _ => rfl
  have h2 := genTo_label (genTo_lor gc h1 ((pt_headL b).app _) hp) lab .logAnd (Or.inl rfl)
  have h3 := genTo_label (h2.seq (pt_headL a) (g2 := !isVoid a) (t2 := t) ga) (lab + 1) .logAnd (Or.inl rfl)
  refine ⟨_, h3, fun V => ?_⟩
  have e : cc ++ ([Ins.bne (wreg t) 0 lab] ++ (cb ++ [Ins.j (lab + 1)])) ++ [Ins.lab lab] ++ (pc false t ++ ca) ++ [Ins.lab (lab + 1)] =
      cc ++ ([Ins.bne (wreg t) 0 lab] ++ (cb ++ ([Ins.j (lab + 1)] ++ ([Ins.lab lab] ++ (ca ++ [Ins.lab (lab + 1)]))))) := by simp [pc]
  rw [e]
  have hc := (sc V).mono (d' := dep t (temps (.cond lab c a b))) (by simp only [temps, dep]; omega)
  have ha' := (sa V).mono (d' := dep t (temps (.cond lab c a b))) (by simp only [temps, dep]; omega)
  have hb' := (sb V).mono (d' := dep t (temps (.cond lab c a b))) (by simp only [temps, dep]; omega)
  intro P pre post hP hn s m hb ha hs hsafe
  obtain ⟨s1, v, m1, a1, a2, a3, a4, a5, a6⟩ := hc P pre ([Ins.bne (wreg t) 0 lab] ++ (cb ++ ([Ins.j (lab + 1)] ++ ([Ins.lab lab] ++ (ca ++ [Ins.lab (lab + 1)])))) ++ post)
    (by rw [hP]; simp) hn s m hb ha hs ((Cg.hole_cond V lab a b).safe hsafe)
  have st1 := (Cg.hole_cond V lab a b).steps a2
  have hj1 := jump_bne s1 t lab
  rw [a3] at hj1
  have hend : pre.length + (cc ++ ([Ins.bne (wreg t) 0 lab] ++ (cb ++ ([Ins.j (lab + 1)] ++ ([Ins.lab lab] ++ (ca ++ [Ins.lab (lab + 1)])))))).length =
      (pre ++ cc ++ [Ins.bne (wreg t) 0 lab] ++ cb ++ [Ins.j (lab + 1)] ++ [Ins.lab lab] ++ ca).length + 1 := by simp; omega
  rw [show pre.length + cc.length = (pre ++ cc).length by simp] at a1
  rw [hend]
  by_cases hz : wd 4 v = 0
  · -- the third operand
    rw [decide_eq_true hz] at hj1
    have r1 := run_no_jump (G := V.G) (P := P) (pre := pre ++ cc) (post := cb ++ ([Ins.j (lab + 1)] ++ ([Ins.lab lab] ++ (ca ++ [Ins.lab (lab + 1)]))) ++ post) (by rw [hP]; simp) hj1
    have st2 := st1.trans (.one (.condF lab v a b m1 hz))
    obtain ⟨s2, w, m2, b1, b2, b3, b4, b5, b6⟩ := hb' P (pre ++ cc ++ [Ins.bne (wreg t) 0 lab]) ([Ins.j (lab + 1)] ++ ([Ins.lab lab] ++ (ca ++ [Ins.lab (lab + 1)])) ++ post)
      (by rw [hP]; simp) hn s1 m1 (a4.fp.trans hb) a5 (by rw [a4.sp]; exact hs) (hsafe.steps st2)
    refine ⟨s2, w, m2, ?_, st2.trans b2, b3, a4.trans b4, b5, ?_⟩
    · refine (a1.trans r1).trans ?_
      rw [show (pre ++ cc).length + 1 = (pre ++ cc ++ [Ins.bne (wreg t) 0 lab]).length by simp; omega]
      refine b1.trans ?_
      rw [show (pre ++ cc ++ [Ins.bne (wreg t) 0 lab]).length + cb.length = (pre ++ cc ++ [Ins.bne (wreg t) 0 lab] ++ cb).length by simp; omega]
      exact run_jump (i := Ins.j (lab + 1)) (post := [Ins.lab lab] ++ (ca ++ [Ins.lab (lab + 1)]) ++ post) (post' := post) (by rw [hP]; simp) rfl (by rw [hP]; simp) hn
    · rw [a4.sp] at b6
      exact a6.trans b6
  · rw [decide_eq_false hz] at hj1
    have r1 := run_jump (G := V.G) (P := P) (pre := pre ++ cc) (post := cb ++ ([Ins.j (lab + 1)] ++ ([Ins.lab lab] ++ (ca ++ [Ins.lab (lab + 1)]))) ++ post)
      (pre' := pre ++ cc ++ [Ins.bne (wreg t) 0 lab] ++ cb ++ [Ins.j (lab + 1)]) (post' := ca ++ [Ins.lab (lab + 1)] ++ post) (by rw [hP]; simp) hj1 (by rw [hP]; simp) hn
    have st2 := st1.trans (.one (.condT lab v a b m1 hz))
    obtain ⟨s2, w, m2, b1, b2, b3, b4, b5, b6⟩ := ha' P (pre ++ cc ++ [Ins.bne (wreg t) 0 lab] ++ cb ++ [Ins.j (lab + 1)] ++ [Ins.lab lab]) ([Ins.lab (lab + 1)] ++ post)
      (by rw [hP]; simp) hn s1 m1 (a4.fp.trans hb) a5 (by rw [a4.sp]; exact hs) (hsafe.steps st2)
    have r2 := run_execs (G := V.G) (c := [Ins.lab (lab + 1)]) (s := s2) (s' := s2) rfl (pre ++ cc ++ [Ins.bne (wreg t) 0 lab] ++ cb ++ [Ins.j (lab + 1)] ++ [Ins.lab lab] ++ ca) post
    rw [show pre ++ cc ++ [Ins.bne (wreg t) 0 lab] ++ cb ++ [Ins.j (lab + 1)] ++ [Ins.lab lab] ++ ca ++ [Ins.lab (lab + 1)] ++ post = P by rw [hP]; simp] at r2
    refine ⟨s2, w, m2, ?_, st2.trans b2, b3, a4.trans b4, b5, ?_⟩
    · refine (a1.trans r1).trans ?_
      rw [show (pre ++ cc ++ [Ins.bne (wreg t) 0 lab] ++ cb ++ [Ins.j (lab + 1)]).length + 1 = (pre ++ cc ++ [Ins.bne (wreg t) 0 lab] ++ cb ++ [Ins.j (lab + 1)] ++ [Ins.lab lab]).length by simp; omega]
      refine b1.trans ?_
      rw [show (pre ++ cc ++ [Ins.bne (wreg t) 0 lab] ++ cb ++ [Ins.j (lab + 1)] ++ [Ins.lab lab]).length + ca.length = (pre ++ cc ++ [Ins.bne (wreg t) 0 lab] ++ cb ++ [Ins.j (lab + 1)] ++ [Ins.lab lab] ++ ca).length by simp; omega]
      exact r2
    · rw [a4.sp] at b6
      exact a6.trans b6

/-- every expression -/
theorem full (e : E) (h : e.ok 4) (ht : typed e) : Full e := by
  induction e with
  | num n => exact full_num n
  | glob x => exact full_glob x
  | loc x => exact full_loc x
  | deref sz e ih => exact full_deref sz e h.1 ht.1 (ih h.2 ht.2)
  | un u e ih => exact full_un u e ht.1 (ih h.2 ht.2)
  | inc k sz e ih => exact full_inc k sz e h.1 ht.1 (ih h.2 ht.2)
  | padd sub sz n e ih => exact full_padd sub sz n e h.1 ht.1 (ih h.2 ht.2)
  | bin o l r ihl ihr => exact full_bin o l r ht.1 ht.2.1 (ihl h.1 ht.2.2.1) (ihr h.2 ht.2.2.2)
  | cmp c l r ihl ihr => exact full_cmp c l r ht.1 ht.2.1 (ihl h.1 ht.2.2.1) (ihr h.2 ht.2.2.2)
  | asg sz l r ihl ihr => exact full_asg sz l r h.1 ht.1 ht.2.1 (ihl h.2.1 ht.2.2.1) (ihr h.2.2 ht.2.2.2)
  | asgo o sz l r ihl ihr => exact full_asgo o sz l r h.1 ht.1 ht.2.1 (ihl h.2.1 ht.2.2.1) (ihr h.2.2 ht.2.2.2)
  | land lab l r ihl ihr => exact full_land lab l r h.1 ht.1 ht.2.1 (ihl h.2.1 ht.2.2.1) (ihr h.2.2 ht.2.2.2)
  | lor lab l r ihl ihr => exact full_lor lab l r h.1 ht.1 ht.2.1 (ihl h.2.1 ht.2.2.1) (ihr h.2.2 ht.2.2.2)
  | cond lab c a b ihc iha ihb => exact full_cond lab c a b h.1 ht.1 ht.2.1 (ihc h.2.1 ht.2.2.1) (iha h.2.2.1 ht.2.2.2.1) (ihb h.2.2.2 ht.2.2.2.2)
  | comma l r ihl ihr => exact full_comma l r (ihl h.1 ht.1) (ihr h.2 ht.2)

end Smlr.Mips
