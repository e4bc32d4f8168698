import Verif.Mips.Un
set_option autoImplicit false
/-! Code of operators with two operands. -/
namespace Smlr.Mips
open Smlr.Cg (Wd Mem ld st sext wd Env Ar Cc conv val upd arith rel unary okSz b2i E Steps Step Safe Agree Frame StkOk Hole Zone Un IncK Acc Ub)

theorem Sim.then' {V : Env 4} {t : Nat} {c c' : List Ins} {d : Nat} {e : E} {f : E → E} (h : Sim V t c d e) (hf : HoleAt V f e)
    (h' : ∀ s m v, s.fp = V.bp → Agree V.A s.mem m → s.r (wreg t) = wd 4 v → (∃ m₀ m₁, Steps V e m₀ (.num v) m₁) → Safe V (f (.num v)) m →
      ∃ s' w m', execs V.G c' s = some s' ∧ Steps V (f (.num v)) m (.num w) m' ∧ s'.r (wreg t) = wd 4 w ∧ Chg t s s' ∧ Agree V.A s'.mem m' ∧
        ∀ a, ¬ V.A a → s'.mem a = s.mem a) : Sim V t (c ++ c') d (f e) := by
  intro P pre post hP hn s m hb ha hs hsafe
  obtain ⟨s', v, m', h1, h2, h3, h4, h5, h6⟩ := h P pre (c' ++ post) (by rw [hP]; simp) hn s m hb ha hs (hf.safe hsafe)
  have h2' := hf.steps h2
  obtain ⟨u, w, n, g1, g2, g3, g4, g5, g6⟩ := h' s' m' v (h4.fp.trans hb) h5 h3 ⟨_, _, h2⟩ (hsafe.steps h2')
  refine ⟨u, w, n, ?_, h2'.trans g2, g3, h4.trans g4.keep, g5, fun a hA hz => (g6 a hA).trans (h6 a hA hz)⟩
  have h8 := run_execs g1 (pre ++ c) post
  have e1 : pre ++ c ++ c' ++ post = P := by rw [hP]; simp
  rw [e1, List.length_append] at h8
  rw [List.length_append, ← Nat.add_assoc]
  exact h1.trans h8

/-- two operands and an operator -/
theorem GenTo.two {F F' : List T} {x : T} {t : Nat} {cl cr c' : List Ins} (hl : GenTo F t true t cl) (hr : GenTo F' (t + 1) true (t + 1) cr) (hh : headL F')
    (hx : nx (lastT F') [x])
    (hs : ∀ n, nif n → step ⟨true, t + 1, wreg (t + 1)⟩ (lastT F') n x = some (popc t ++ c', ⟨true, t, wreg t⟩, false)) :
    GenTo (F ++ F' ++ [x]) t true t (cl ++ (pushc t ++ (cr ++ (popc t ++ c')))) := by
  have h := (hl.seq hh hr).snoc (x := x) (c' := popc t ++ c') (t2 := t) (g2 := true) (by rw [lastT_app _ _ hr.1]; exact hx) (by rw [lastT_app _ _ hr.1]; exact hs)
  have e : cl ++ (pc true t ++ cr) ++ (popc t ++ c') = cl ++ (pushc t ++ (cr ++ (popc t ++ c'))) := by
    simp only [List.append_assoc]; rfl
  rw [← e]
  exact h

theorem lr_cases (t : Nat) : (lreg t = wreg t ∧ wreg (t + 1) ≠ wreg t) ∨ (lreg t = 24 ∧ wreg t = 15 ∧ wreg (t + 1) = 15) := by
  by_cases h : t < 8
  · refine Or.inl ⟨if_pos h, ?_⟩
    exact (wreg_ne (k := t) (t := t + 1) (by omega)).symm
  · exact Or.inr ⟨if_neg h, wreg_ge (by omega), wreg_ge (by omega)⟩

theorem lreg_ne0 (t : Nat) : lreg t ≠ 0 := by
  rcases lr_cases t with ⟨h, -⟩ | ⟨h, -⟩ <;> rw [h]
  · exact wreg_ne0 t
  · decide

theorem only_nil {w : List Nat} {s s' : St} (h : s'.r = s.r) : Only w s s' := fun k _ => by rw [h]

/-! ### postfix operators on pointers -/

theorem postOf_ok (G : Int → Wd 4) (s : St) {sz : Int} (hz : okSz 4 sz) (t : Nat) {i : Alu} {a n : Wd 4} (hl : s.r (lreg t) = a) (hr : s.r (wreg (t + 1)) = n) :
    ∃ s', execs G (postOf i (wreg t) (lreg t) (wreg (t + 1)) sz) s = some s' ∧ s'.r (wreg t) = wd 4 (val s.mem a sz) ∧
      s'.mem = upd s.mem a sz (alu i (wd 4 (val s.mem a sz)) n) ∧ Chg t s s' := by
  have w0 := wreg_ne0 t
  have w1 := wreg_ne1 t
  have w24 := wreg_ne24 t
  have w25 := wreg_ne25 t
  unfold postOf
  rcases lr_cases t with ⟨e1, e2⟩ | ⟨e1, e2, e3⟩
  · rw [if_pos e1.symm]
    have v0 := wreg_ne0 (t + 1)
    have v1 := wreg_ne1 (t + 1)
    have v25 := wreg_ne25 (t + 1)
    have a1 : execs G [.move TB (lreg t)] s = some (s.set TB (s.get (lreg t))) := rfl
    rw [get_pos (lreg_ne0 t), hl] at a1
    obtain ⟨s2, b1, b2, b3, b4⟩ := rd_ok G (s.set TB a) hz w1 (.reg TB)
    have hTB : s2.get TB = a := by
      rw [get_pos (by decide), b4 TB (by simp; exact ⟨fun h => w25 h.symm, by decide⟩), set_r_same]
    rw [show oaddr G (s.set TB a) (.reg TB) = a by show St.get _ TB = _; rw [get_pos (by decide), set_r_same]] at b2
    obtain ⟨s3, c1, c2, c3, c4⟩ := p3_ok G s2 i (d := TA) (a := wreg t) (fun h => absurd h w24) (.reg (wreg (t + 1)))
    have hR : s2.get (wreg (t + 1)) = n := by
      rw [get_pos v0, b4 _ (by simp; exact ⟨e2, v1⟩), set_r_ne _ _ v25, hr]
    rw [get_pos w0, b2, show opd s2 (.reg (wreg (t + 1))) = n from hR] at c2
    obtain ⟨s4, d1, d2, d3⟩ := wr_ok G s3 hz (t := TA) (by decide) (.reg TB)
    have hTB3 : oaddr G s3 (.reg TB) = a := by
      rw [← hTB]
      exact oaddr_only c4 (by simp [Obj.free])
    rw [hTB3, get_pos (by decide), c2, c3, b3] at d2
    refine ⟨s4, execs_app (execs_app (execs_app a1 b1) c1) d1, ?_, d2, ?_⟩
    · rw [d3 _ (by simpa using w1), c4 _ (by simpa using w24), b2]; rfl
    · exact ((((only_set s TB a).mono (by simp)).trans (b4.mono (by simp))).trans (c4.mono (by simp))).trans (d3.mono (by simp))
  · rw [if_neg (by omega), e1, e2, e3]
    rw [e3] at hr
    rw [e1] at hl
    have a1 : execs G [.move TB 15] s = some (s.set TB (s.get 15)) := rfl
    rw [get_pos (by decide), hr] at a1
    obtain ⟨s2, b1, b2, b3, b4⟩ := rd_ok G (s.set TB n) hz (d := 15) (by decide) (.reg 24)
    have h24 : oaddr G (s.set TB n) (.reg 24) = a := by
      show St.get _ 24 = _; rw [get_pos (by decide), set_r_ne _ _ (by decide), hl]
    rw [h24] at b2
    obtain ⟨s3, c1, c2, c3, c4⟩ := p3_ok G s2 i (d := TB) (a := 15) (by decide) (.reg TB)
    have hR : s2.get TB = n := by
      rw [get_pos (by decide), b4 _ (by decide), set_r_same]
    rw [get_pos (by decide), b2, show opd s2 (.reg TB) = n from hR] at c2
    obtain ⟨s4, d1, d2, d3⟩ := wr_ok G s3 hz (t := TB) (by decide) (.reg 24)
    have h243 : oaddr G s3 (.reg 24) = a := by
      rw [oaddr_only c4 (by show 24 ∉ [TB]; decide), oaddr_only b4 (by show 24 ∉ [15, 1]; decide), h24]
    rw [h243, get_pos (by decide), c2, c3, b3] at d2
    refine ⟨s4, execs_app (execs_app (execs_app a1 b1) c1) d1, ?_, d2, ?_⟩
    · rw [d3 _ (by decide), c4 _ (by decide), b2]; rfl
    · refine ((((only_set s TB n).mono (by simp)).trans (b4.mono (by simp [e2]))).trans (c4.mono (by simp))).trans (d3.mono (by simp))

theorem full_padd (sub : Bool) (sz n : Int) (e : E) (hz : okSz 4 sz) (hv : isVoid e = false) (he : Full e) : Full (.padd sub sz n e) := by
  intro t
  obtain ⟨c, g, sm⟩ := he t
  obtain ⟨cn, gn, sn⟩ := full_num n (t + 1)
  rw [hv] at g
  refine ⟨c ++ (pushc t ++ (cn ++ (popc t ++ postOf (if sub then .subu else .addu) (wreg t) (lreg t) (wreg (t + 1)) sz))), ?_, fun V => ?_⟩
  · refine GenTo.two g gn ⟨_, _, rfl, Or.inl rfl⟩ (nx_any (by cases sub <;> simp) (by cases sub <;> simp) (by cases sub <;> rfl) (by cases sub <;> rfl)) ?_
    intro m _
    cases sub <;> simp only [step, Bool.false_eq_true, if_false, if_true, pop_eq, Option.map_some]
  · refine fin2 (f := fun l _ => .padd sub sz n l) (Cg.hole_padd V sub sz n) (fun l => HoleAt.num V _ n) (sm V) (sn V) ?_
    rintro s m v w hb ha hl hr ⟨m0, m1, hw⟩ hsafe
    obtain ⟨hw, -⟩ := num_steps hw
    cases hw
    have hacc := Cg.acc_padd hsafe
    obtain ⟨s', h1, h2, h3, h4⟩ := postOf_ok V.G s hz t (i := if sub then .subu else .addu) hl hr
    rw [Cg.agree_val ha hacc] at h2 h3
    rw [add_wd _ _ _ rfl] at h3
    refine ⟨s', _, _, h1, Cg.padd_steps hacc, h2, h4, ?_, fun b hb => by rw [h3]; exact Cg.upd_frame hacc b hb⟩
    rw [h3]
    exact Cg.agree_upd ha _ _ _

/-! ### arithmetic -/

theorem bin_safe {V : Env 4} {o : Ar} {v w : Int} {m : Mem 4} (h : Safe V (.bin o (.num v) (.num w)) m) : ∃ z, arith o (wd 4 v) (wd 4 w) = some z := by
  cases hv : arith o (wd 4 v) (wd 4 w) with
  | none => exact absurd (Ub.bin o v w m hv) (h _ _ (.refl _ _))
  | some z => exact ⟨z, rfl⟩

theorem nx_num {e : E} (h : isNum e = false) {k : Cg.Tok} {v : Int} (h1 : k ≠ .ifT) (h2 : k ≠ .ifN) (h4 : objOp k = false) : nx (lastT (pt e)) [(.t k, v)] := by
  obtain ⟨a, y, e1, e2⟩ := last_not_num h
  rw [e1, lastT_snoc]
  intro x hx
  cases hx
  exact ⟨⟨fun h => h1 (by cases h; rfl), fun h => h2 (by cases h; rfl)⟩, fun h => absurd h e2, fun _ => h4⟩

theorem last_num {e : E} (h : isNum e = false) : (lastT (pt e)).1 ≠ .t .num := by
  obtain ⟨a, y, e1, e2⟩ := last_not_num h
  rw [e1, lastT_snoc]
  exact e2

/-- an operator on registers; `f` says which of the operands is the left one -/
theorem full_bin2 (o : Ar) (l r : E) (hv : isVoid l = false) (hv' : isVoid r = false) (hr : isNum r = false ∨ immOp (.ar o) = false) (pl : Full l) (pr : Full r)
    (f : E → E → E) (hL : ∀ V : Env 4, Hole V (fun l => f l r)) (hR : ∀ (V : Env 4) l, Hole V (fun r => f l r))
    (hf : ∀ (V : Env 4) v w m, Safe V (f (.num v) (.num w)) m → ∃ z, arith o (wd 4 v) (wd 4 w) = some z ∧ Step V (f (.num v) (.num w)) m (.num z) m) (t : Nat) :
    ∃ c, GenTo (pt l ++ pt r ++ [(.t (.ar o), 0)]) t true t c ∧ ∀ V, Sim V t c (dep t (max (temps l) (temps r + 1))) (f l r) := by
  obtain ⟨c, g, sm⟩ := pl t
  obtain ⟨c', g', sm'⟩ := pr (t + 1)
  rw [hv] at g
  rw [hv'] at g'
  refine ⟨c ++ (pushc t ++ (c' ++ (popc t ++ opOf o (wreg t) (lreg t) (wreg (t + 1))))), ?_, fun V => ?_⟩
  · refine GenTo.two g g' (pt_headL r) ?_ ?_
    · rcases hr with hr | hr
      · exact nx_num hr (by simp) (by simp) rfl
      · exact nx_any (by simp) (by simp) hr rfl
    · intro m _
      have : ¬ ((lastT (pt r)).1 = .t .num ∧ immOp (.ar o) = true) := by
        rcases hr with hr | hr
        · exact fun h => last_num hr h.1
        · rw [hr]; exact fun h => Bool.noConfusion h.2
      simp only [step, if_neg this, pop_eq, Option.map_some]
  · refine fin2 (hL V) (fun l => .of (hR V l) r) (sm V) (sm' V) ?_
    intro s m v w hb ha h1 h2 _ hsafe
    obtain ⟨z, h3, h4⟩ := hf V v w m hsafe
    obtain ⟨s', g1, g2, g3, g4⟩ := op_ok V.G s (o := o) (d := wreg t) (l := lreg t) (r := wreg (t + 1)) (wreg_ne0 t) (z := z)
      (by rw [get_pos (lreg_ne0 t), get_wreg, h1, h2]; exact h3)
    exact ⟨s', _, _, g1, .one h4, g2, g4.chg (by simp), by rw [g3]; exact ha, fun a _ => by rw [g3]⟩

theorem aluOf_imm {o : Ar} (h : immOp (.ar o) = true) : ∃ i, aluOf o = some i := by
  cases o <;> first | exact ⟨_, rfl⟩ | cases h

/-- an operator with a number in place -/
theorem full_imm (o : Ar) (n : Int) (e : E) (hv : isVoid e = false) (ho : immOp (.ar o) = true) (pe : Full e) (f : E → E) (hf : ∀ V : Env 4, Hole V f)
    (hs : ∀ (V : Env 4) v m, Safe V (f (.num v)) m → ∃ z z', arith o (wd 4 v) (wd 4 n) = some z ∧ Step V (f (.num v)) m (.num z') m ∧ wd 4 z = wd 4 z') (t d : Nat) (hd : temps e ≤ d) :
    ∃ c, GenTo (pt e ++ [(.t .num, n), (.t (.ar o), 0)]) t true t c ∧ ∀ V, Sim V t c (dep t d) (f e) := by
  obtain ⟨c, g, sm⟩ := pe t
  rw [hv] at g
  obtain ⟨i, hi⟩ := aluOf_imm ho
  refine ⟨c ++ p3 i (wreg t) (wreg t) (.imm n), g.imm ho ?_, fun V => (((sm V).mono (d' := dep t d) (by unfold dep; omega)).then (hf V) ?_)⟩
  · intro m _
    simp only [step, ho, and_self, if_true, hi, Option.map_some]
  · intro s m v hb ha hr hsafe
    obtain ⟨z, z', h1, h2, h3⟩ := hs V v m hsafe
    obtain ⟨s', g1, g2, g3, g4⟩ := imm_ok V.G s hi (wreg_ne0 t) (n := n) (z := z) (by rw [get_wreg, hr]; exact h1)
    exact ⟨s', _, _, g1, .one h2, by rw [g2, h3], g4.chg (by simp), by rw [g3]; exact ha, fun a _ => by rw [g3]⟩

theorem red_same {o : Ar} {n : Int} (h : immOp (.ar (red o n).1) = false) : red o n = (o, n) := by
  unfold red at h ⊢
  cases hp : pow2 n with
  | none => rfl
  | some k => rw [hp] at h; cases o <;> first | rfl | cases h

theorem isNum_cases (e : E) : (∃ n, e = .num n) ∨ isNum e = false := by
  cases e <;> first | exact Or.inl ⟨_, rfl⟩ | exact Or.inr rfl

theorem full_bin (o : Ar) (l r : E) (hv : isVoid l = false) (hv' : isVoid r = false) (pl : Full l) (pr : Full r) : Full (.bin o l r) := by
  intro t
  have generic : ∀ r, isVoid r = false → Full r → (isNum r = false ∨ immOp (.ar o) = false) →
      ∃ c, GenTo (pt l ++ pt r ++ [(.t (.ar o), 0)]) t true t c ∧ ∀ V, Sim V t c (dep t (max (temps l) (temps r + 1))) (.bin o l r) := by
    intro r hv' pr hr
    refine full_bin2 o l r hv hv' hr pl pr (fun l r => .bin o l r) (fun V => Cg.hole_binL V o r) (fun V l => Cg.hole_binR V o l) ?_ t
    intro V v w m hsafe
    obtain ⟨z, hz⟩ := bin_safe hsafe
    exact ⟨z, hz, .bin m hz⟩
  rcases isNum_cases r with ⟨n, rfl⟩ | hr
  · rw [pt_bin_num]
    cases hi : immOp (.ar (red o n).1) with
    | true =>
      refine full_imm (red o n).1 (red o n).2 l hv hi pl (fun l => .bin o l (.num n)) (fun V => Cg.hole_binL V o _) ?_ t _ (by simp only [temps]; omega)
      intro V v m hsafe
      obtain ⟨z, hz⟩ := bin_safe hsafe
      obtain ⟨z', h1, h2⟩ := red_ok o n (wd 4 v) z hz
      exact ⟨z', z, h1, .bin m hz, h2⟩
    | false =>
      have hrs := red_same hi
      rw [hrs] at hi ⊢
      have := generic (.num n) rfl pr (Or.inr hi)
      simpa [pt, isVoid, temps] using this
  · rcases isNum_cases l with ⟨n, rfl⟩ | hl
    · cases ho : comm o with
      | true =>
        rw [pt_bin_left o n hr ho]
        cases hi : immOp (.ar (red o n).1) with
        | true =>
          refine full_imm (red o n).1 (red o n).2 r hv' hi pr (fun r => .bin o (.num n) r) (fun V => Cg.hole_binR V o _) ?_ t _ (by simp only [temps]; omega)
          intro V v m hsafe
          obtain ⟨z, hz⟩ := bin_safe hsafe
          obtain ⟨z', h1, h2⟩ := red_ok o n (wd 4 v) z (by rw [arith_comm ho]; exact hz)
          exact ⟨z', z, h1, .bin m hz, h2⟩
        | false =>
          have hrs := red_same hi
          rw [hrs] at hi ⊢
          obtain ⟨c, g, sm⟩ := full_bin2 o r (.num n) hv' rfl (Or.inr hi) pr pl (fun a b => .bin o b a) (fun V => Cg.hole_binR V o _) (fun V l => Cg.hole_binL V o l) (by
            intro V v w m hsafe
            obtain ⟨z, hz⟩ := bin_safe hsafe
            exact ⟨z, by rw [arith_comm ho]; exact hz, .bin m hz⟩) t
          refine ⟨c, by simpa [pt, isVoid] using g, fun V => (sm V).mono ?_⟩
          simp only [temps, dep]
          omega
      | false =>
        rw [pt_bin o hr (Or.inr ho)]
        exact generic r hv' pr (Or.inl hr)
    · rw [pt_bin o hr (Or.inl hl)]
      exact generic r hv' pr (Or.inl hr)

/-! ### comparisons -/

theorem bit_b2i (b : Bool) : bit b = wd 4 (b2i b) := by cases b <;> decide

theorem nif_br {m : Option T} (hm : nif m) : brOf m = none := by
  unfold brOf
  split
  · next l => exact absurd rfl (hm _ rfl).1
  · next l => exact absurd rfl (hm _ rfl).2
  · rfl

/-- a comparison with a number -/
theorem full_cmpN (c : Cc) (n : Int) (e : E) (hv : isVoid e = false) (pe : Full e) (f : E → E) (hf : ∀ V : Env 4, Hole V f)
    (hs : ∀ (V : Env 4) v m, Steps V (f (.num v)) m (.num (b2i (rel c (wd 4 v) (wd 4 n)))) m) (t d : Nat) (hd : temps e ≤ d) :
    ∃ c', GenTo (pt e ++ [(.t .num, (special (.cmp c) n).2), (.t (special (.cmp c) n).1, 0)]) t true t c' ∧ ∀ V, Sim V t c' (dep t d) (f e) := by
  obtain ⟨ce, g, sm⟩ := pe t
  rw [hv] at g
  have hsim : ∀ V, Sim V t ce (dep t d) e := fun V => (sm V).mono (by unfold dep; omega)
  rcases special_rel c n with ⟨c', n', h1, h2⟩ | ⟨h1, h2⟩
  · have hfit := special_fits h1
    rw [h1]
    refine ⟨ce ++ cmpCode c' (wreg t) 0 0 (some n') none, g.imm rfl ?_, fun V => (hsim V).then (hf V) ?_⟩
    · intro m hm
      simp only [step, nif_br hm, if_true, Option.isSome_none]
    · intro s m v hb ha hr hsafe
      obtain ⟨s', g1, g2, g3, g4⟩ := cmp_imm V.G s c' (wreg_ne0 t) 0 0 n' hfit
      rw [get_wreg, hr, h2, bit_b2i] at g2
      exact ⟨s', _, _, g1, hs V v m, g2, g4.chg (by simp), by rw [g3]; exact ha, fun a _ => by rw [g3]⟩
  · rw [h1]
    refine ⟨ce ++ p3 .and (wreg t) (wreg t) (.imm 0), g.imm rfl ?_, fun V => (hsim V).then (hf V) ?_⟩
    · intro m _
      simp only [step, immOp, and_self, if_true, aluOf, Option.map_some]
    · intro s m v hb ha hr hsafe
      obtain ⟨s', g1, g2, g3, g4⟩ := p3_ok V.G s .and (d := wreg t) (a := wreg t) (fun _ => wreg_ne0 t) (.imm 0)
      refine ⟨s', _, _, g1, hs V v m, ?_, g4.chg (by simp), by rw [g3]; exact ha, fun a _ => by rw [g3]⟩
      rw [g2, h2]
      show _ &&& wd 4 0 = wd 4 0
      exact BitVec.and_zero

theorem full_cmp (c : Cc) (l r : E) (hv : isVoid l = false) (hv' : isVoid r = false) (pl : Full l) (pr : Full r) : Full (.cmp c l r) := by
  intro t
  rcases isNum_cases r with ⟨n, rfl⟩ | hr
  · rw [pt_cmp_num]
    exact full_cmpN c n l hv pl (fun l => .cmp c l (.num n)) (fun V => Cg.hole_cmpL V c _) (fun V v m => .one (.cmp c v n m)) t _ (by simp only [temps]; omega)
  · rcases isNum_cases l with ⟨n, rfl⟩ | hl
    · rw [pt_cmp_left c n hr]
      obtain ⟨c', h1, h2⟩ := mirror_rel c
      rw [h1]
      exact full_cmpN c' n r hv' pr (fun r => .cmp c (.num n) r) (fun V => Cg.hole_cmpR V c _) (fun V v m => by rw [h2]; exact .one (.cmp c n v m)) t _ (by simp only [temps]; omega)
    · rw [pt_cmp c hr hl]
      obtain ⟨cl, g, sm⟩ := pl t
      obtain ⟨cr, g', sm'⟩ := pr (t + 1)
      rw [hv] at g
      rw [hv'] at g'
      refine ⟨cl ++ (pushc t ++ (cr ++ (popc t ++ cmpCode c (wreg t) (lreg t) (wreg (t + 1)) none none))), ?_, fun V => ?_⟩
      · refine GenTo.two g g' (pt_headL r) (nx_num hr (by simp) (by simp) rfl) ?_
        intro m hm
        simp only [step, nif_br hm, if_neg (last_num hr), pop_eq, Option.map_some, Option.isSome_none]
      · refine fin2 (f := fun l r => .cmp c l r) (Cg.hole_cmpL V c r) (fun l => .of (Cg.hole_cmpR V c l) r) (sm V) (sm' V) ?_
        intro s m v w hb ha h1 h2 _ hsafe
        obtain ⟨s', g1, g2, g3, g4⟩ := cmp_reg V.G s c (wreg_ne0 t) (lreg t) (wreg (t + 1))
        rw [get_pos (lreg_ne0 t), get_wreg, h1, h2, bit_b2i] at g2
        exact ⟨s', _, _, g1, .one (.cmp c v w m), g2, g4.chg (by simp), by rw [g3]; exact ha, fun a _ => by rw [g3]⟩

end Smlr.Mips
