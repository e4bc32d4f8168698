import Verif.Mips.Bin
set_option autoImplicit false
/-! Code of assignments. -/
namespace Smlr.Mips
open Smlr.Cg (Wd Mem ld st sext wd Env Ar Cc conv val upd arith rel unary okSz b2i E Steps Step Safe Agree Frame StkOk Hole Zone Un IncK Acc Ub)

/-- an object that has been moved behind the right operand -/
theorem GenTo.rev {F : List T} {p x : T} {t : Nat} {c c' : List Ins} (h : GenTo F t true t c) (hp : p.1 = .revIdent ∨ p.1 = .revLocl) (hx : noIf x)
    (hs : ∀ m, nif m → step ⟨true, t, wreg t⟩ p m x = some (c', ⟨true, t, wreg t⟩, false)) : GenTo (F ++ [p, x]) t true t (c ++ c') := by
  have h1 : GenTo (F ++ [p]) t true t (c ++ []) := by
    refine h.snoc ?_ ?_
    · intro y hy
      cases hy
      rcases hp with hp | hp <;> rw [noIf, hp] <;> exact ⟨⟨fun h => (by cases h), fun h => (by cases h)⟩, fun _ => rfl, fun _ => rfl⟩
    · intro m _
      obtain ⟨k, v⟩ := p
      rcases hp with rfl | rfl <;> rfl
  have h2 := h1.snoc (x := x) (c' := c') (g2 := true) (t2 := t) (by
    rw [lastT_snoc]
    intro y hy
    cases hy
    refine ⟨hx, fun h => ?_, fun h => ?_⟩ <;> rcases hp with hp | hp <;> rw [hp] at h
    · cases h
    · cases h
    · rcases h with h | h <;> cases h
    · rcases h with h | h <;> cases h) (by rw [lastT_snoc]; exact hs)
  simpa using h2

/-- the left operand is an object that is named: its token, where it is, its address -/
theorem named (l : E) (h : isObj l = true) : ∃ p ob, (p.1 = .revIdent ∨ p.1 = .revLocl) ∧ revOf p = some ob ∧
    (∀ k v r, revd k v (pt l) r = r ++ [p, (k, v)]) ∧ (∀ w : List Nat, 30 ∉ w → ob.free w) ∧
    ∀ (V : Env 4) (s : St) (m : Mem 4), s.fp = V.bp → ∃ a, Step V l m (.num a) m ∧ oaddr V.G s ob = wd 4 a := by
  cases l with
  | glob x =>
    refine ⟨(.revIdent, x), .ident x, Or.inl rfl, rfl, fun k v r => rfl, fun w h => trivial, fun V s m hb => ⟨_, .glob x m, ?_⟩⟩
    rw [Cg.wd_toInt]; rfl
  | loc x =>
    refine ⟨(.revLocl, x), .locl x, Or.inr rfl, rfl, fun k v r => rfl, fun w h => h, fun V s m hb => ⟨_, .loc x m, ?_⟩⟩
    rw [Cg.wd_toInt, ← hb]; rfl
  | _ => cases h

theorem asg_acc {V : Env 4} {sz a v : Int} {m : Mem 4} (h : Safe V (.asg sz (.num a) (.num v)) m) : Acc V.A (wd 4 a) sz :=
  Classical.byContradiction fun hn => h _ _ (.refl _ _) (.asg _ _ _ _ hn)

theorem full_asg (sz : Int) (l r : E) (hz : okSz 4 sz) (hv : isVoid l = false) (hv' : isVoid r = false) (pl : Full l) (pr : Full r) : Full (.asg sz l r) := by
  intro t
  have w0 := wreg_ne0 t
  have w1 := wreg_ne1 t
  cases ho : isObj l with
  | true =>
    obtain ⟨p, ob, hp, hrev, hpt, hfree, hadr⟩ := named l ho
    obtain ⟨c, g, sm⟩ := pr t
    rw [hv'] at g
    rw [show pt (.asg sz l r) = _ from hpt _ _ _]
    refine ⟨c ++ (wr (wreg t) sz ob ++ extend (wreg t) sz), g.rev hp (by simp [noIf]) ?_, fun V => ?_⟩
    · intro m _
      simp only [step, hrev]
    · refine ((sm V).mono (d' := dep t (temps (.asg sz l r))) (by simp only [temps, dep]; omega)).then (f := fun r => .asg sz l r) (Cg.hole_asgR V sz l) ?_
      intro s m v hb ha hr hsafe
      obtain ⟨a, h1, h2⟩ := hadr V s m hb
      have st := (Cg.hole_asgL V sz (.num v)).steps (.one h1)
      have hacc := asg_acc (hsafe.steps st)
      obtain ⟨s1, a1, a2, a3⟩ := wr_ok V.G s hz w1 ob
      rw [h2, get_pos w0, hr] at a2
      obtain ⟨s2, b1, b2, b3, b4⟩ := extend_ok V.G s1 hz w0
      rw [a3 _ (by simpa using w1), hr, Cg.conv_wd (natAbs4 hz)] at b2
      refine ⟨s2, _, _, execs_app a1 b1, st.trans (.one (.asg sz a v m hacc)), b2, ((a3.mono (by simp)).trans (b4.mono (by simp))), ?_, ?_⟩
      · rw [b3, a2]; exact Cg.agree_upd ha _ _ _
      · intro b hb; rw [b3, a2]; exact Cg.upd_frame hacc b hb
  | false =>
    rw [show pt (.asg sz l r) = _ from revd_else (.t .asg) sz ho (pt r)]
    obtain ⟨c, g, sm⟩ := pl t
    obtain ⟨c', g', sm'⟩ := pr (t + 1)
    rw [hv] at g
    rw [hv'] at g'
    refine ⟨c ++ (pushc t ++ (c' ++ (popc t ++ (wr (wreg (t + 1)) sz (.reg (lreg t)) ++ (if wreg t = wreg (t + 1) then [] else [.move (wreg t) (wreg (t + 1))]) ++ extend (wreg t) sz)))), ?_, fun V => ?_⟩
    · refine GenTo.two g g' (pt_headL r) (nx_any (by simp) (by simp) rfl rfl) ?_
      intro m _
      simp only [step, last_rev, pop_eq, Option.map_some, List.append_assoc]
    · refine fin2 (f := fun l r => .asg sz l r) (Cg.hole_asgL V sz r) (fun l => .of (Cg.hole_asgR V sz l) r) (sm V) (sm' V) ?_
      intro s m v w hb ha hl hr _ hsafe
      have hacc := asg_acc hsafe
      obtain ⟨s1, a1, a2, a3⟩ := wr_ok V.G s hz (wreg_ne1 (t + 1)) (.reg (lreg t))
      rw [show oaddr V.G s (.reg (lreg t)) = s.get (lreg t) from rfl, get_pos (lreg_ne0 t), hl, get_wreg, hr] at a2
      have hmv : ∃ s2, execs V.G (if wreg t = wreg (t + 1) then [] else [.move (wreg t) (wreg (t + 1))]) s1 = some s2 ∧ s2.r (wreg t) = wd 4 w ∧ s2.mem = s1.mem ∧ Only [wreg t] s1 s2 := by
        have h1 : s1.r (wreg (t + 1)) = wd 4 w := by rw [a3 _ (by simpa using wreg_ne1 (t + 1)), hr]
        split
        · next he => exact ⟨s1, rfl, by rw [he]; exact h1, rfl, .refl _ _⟩
        · refine ⟨_, rfl, ?_, rfl, only_set _ _ _⟩
          show (s1.set (wreg t) (s1.get (wreg (t + 1)))).r _ = _
          rw [set_r_same, get_wreg, h1]
      obtain ⟨s2, b1, b2, b3, b4⟩ := hmv
      obtain ⟨s3, c1, c2, c3, c4⟩ := extend_ok V.G s2 hz w0
      rw [b2, Cg.conv_wd (natAbs4 hz)] at c2
      refine ⟨s3, _, _, execs_app (execs_app a1 b1) c1, .one (.asg sz v w m hacc), c2, (((a3.mono (by simp)).trans (b4.mono (by simp))).trans (c4.mono (by simp))), ?_, ?_⟩
      · rw [c3, b3, a2]; exact Cg.agree_upd ha _ _ _
      · intro b hb; rw [c3, b3, a2]; exact Cg.upd_frame hacc b hb

/-! ### compound assignment -/

theorem asgo_end {V : Env 4} {o : Ar} {sz a n : Int} {m : Mem 4} (h : Safe V (.asgo o sz (.num a) (.num n)) m) :
    Acc V.A (wd 4 a) sz ∧ ∃ z, arith o (wd 4 (val m (wd 4 a) sz)) (wd 4 n) = some z ∧
      Steps V (.asgo o sz (.num a) (.num n)) m (.num (conv sz z)) (upd m (wd 4 a) sz (wd 4 z)) := by
  have st1 : Steps V (.asgo o sz (.num a) (.num n)) m (.asg sz (.num a) (.bin o (.deref sz (.num a)) (.num n))) m := .one (.asgo o sz a _ m)
  have hq := (Cg.hole_asgR V sz (.num a)).comp (Cg.hole_binL V o (.num n))
  have hacc : Acc V.A (wd 4 a) sz := Cg.acc_of_safe (hq.safe (h.steps st1))
  have st2 := st1.trans (.one (hq.step (.deref sz a m hacc)))
  obtain ⟨z, hz⟩ := bin_safe ((Cg.hole_asgR V sz (.num a)).safe (h.steps st2))
  exact ⟨hacc, z, hz, (st2.trans (.one ((Cg.hole_asgR V sz (.num a)).step (.bin m hz)))).trans (.one (.asg sz a z m hacc))⟩

/-- what becomes of an operator and its right operand -/
theorem fix_cases (o : Ar) (r : E) (hv : isVoid r = false) (pr : Full r) : ∃ o' r', fix (.asgo o) (pt r) = (.asgo o', pt r') ∧ isVoid r' = false ∧ Full r' ∧ temps r' = temps r ∧
    ∃ g : E → E, (∀ V : Env 4, ∀ f : E → E, Hole V f → HoleAt V (fun x => f (g x)) r') ∧ g r' = r ∧
      ∀ (V : Env 4) w m₀ m₁, Steps V r' m₀ (.num w) m₁ → ∃ n, g (.num w) = .num n ∧ ∀ x, Same (arith o x (wd 4 n)) (arith o' x (wd 4 w)) := by
  rcases isNum_cases r with ⟨n, rfl⟩ | hr
  · refine ⟨(redA o n).1, .num (redA o n).2, fix_asgo_num o n, rfl, full_num _, rfl, fun _ => .num n, fun V f _ => HoleAt.num V _ _, rfl, ?_⟩
    intro V w m0 m1 h
    obtain ⟨h, -⟩ := num_steps h
    cases h
    exact ⟨n, rfl, redA_ok o n⟩
  · refine ⟨o, r, fix_not_num _ hr, hv, pr, rfl, id, fun V f hf => .of hf r, rfl, ?_⟩
    intro V w m0 m1 _
    exact ⟨w, rfl, fun x => .refl _⟩

theorem asgoOf_ok (G : Int → Wd 4) (s : St) {sz : Int} (hz : okSz 4 sz) (t : Nat) {o : Ar} {a n : Wd 4} (hl : s.r (lreg t) = a) (hr : s.r (wreg (t + 1)) = n) {z : Int}
    (h : arith o (wd 4 (val s.mem a sz)) n = some z) :
    ∃ s', execs G (asgoOf o (wreg t) (lreg t) (wreg (t + 1)) sz) s = some s' ∧ s'.r (wreg t) = wd 4 z ∧ s'.mem = upd s.mem a sz (wd 4 z) ∧ Chg t s s' := by
  have w0 := wreg_ne0 t
  have w1 := wreg_ne1 t
  have w25 := wreg_ne25 t
  unfold asgoOf
  rcases lr_cases t with ⟨e1, e2⟩ | ⟨e1, e2, e3⟩
  · rw [if_pos e1.symm]
    have v0 := wreg_ne0 (t + 1)
    have v1 := wreg_ne1 (t + 1)
    have v25 := wreg_ne25 (t + 1)
    have a1 : execs G [.move TB (lreg t)] s = some (s.set TB (s.get (lreg t))) := rfl
    rw [get_pos (lreg_ne0 t), hl] at a1
    obtain ⟨s2, b1, b2, b3, b4⟩ := rd_ok G (s.set TB a) hz w1 (.reg (lreg t))
    rw [show oaddr G (s.set TB a) (.reg (lreg t)) = a by
      show St.get _ (lreg t) = _; rw [get_pos (lreg_ne0 t), set_r_ne _ _ (by rw [e1]; exact w25), hl]] at b2
    have hTB : s2.get TB = a := by
      rw [get_pos (by decide), b4 TB (by simp; exact ⟨fun h => w25 h.symm, by decide⟩), set_r_same]
    have hR : s2.get (wreg (t + 1)) = n := by
      rw [get_pos v0, b4 _ (by simp; exact ⟨e2, v1⟩), set_r_ne _ _ v25, hr]
    obtain ⟨s3, c1, c2, c3, c4⟩ := op_ok G s2 (o := o) (d := wreg t) (l := wreg t) (r := wreg (t + 1)) w0 (z := z) (by rw [get_pos w0, b2, hR]; exact h)
    obtain ⟨s4, d1, d2, d3⟩ := wr_ok G s3 hz (t := wreg t) w1 (.reg TB)
    have hTB3 : oaddr G s3 (.reg TB) = a := by
      rw [← hTB]
      exact oaddr_only c4 (by simp [Obj.free]; exact fun h => w25 h.symm)
    rw [hTB3, get_pos w0, c2, c3, b3] at d2
    refine ⟨s4, execs_app (execs_app (execs_app a1 b1) c1) d1, ?_, d2, ?_⟩
    · rw [d3 _ (by simpa using w1), c2]
    · exact ((((only_set s TB a).mono (by simp)).trans (b4.mono (by simp))).trans (c4.mono (by simp))).trans (d3.mono (by simp))
  · rw [if_neg (by omega), e1, e2, e3]
    rw [e3] at hr
    rw [e1] at hl
    have a1 : execs G [.move TB 15] s = some (s.set TB (s.get 15)) := rfl
    rw [get_pos (by decide), hr] at a1
    obtain ⟨s2, b1, b2, b3, b4⟩ := rd_ok G (s.set TB n) hz (d := 15) (by decide) (.reg 24)
    have h24 : oaddr G (s.set TB n) (.reg 24) = a := by
      show St.get _ 24 = _; rw [get_pos (by decide), set_r_ne _ _ (by decide), hl]
    rw [h24] at b2
    have hR : s2.get TB = n := by
      rw [get_pos (by decide), b4 _ (by decide), set_r_same]
    obtain ⟨s3, c1, c2, c3, c4⟩ := op_ok G s2 (o := o) (d := 15) (l := 15) (r := TB) (by decide) (z := z) (by rw [get_pos (by decide), b2, hR]; exact h)
    obtain ⟨s4, d1, d2, d3⟩ := wr_ok G s3 hz (t := 15) (by decide) (.reg 24)
    have h243 : oaddr G s3 (.reg 24) = a := by
      rw [oaddr_only c4 (by show 24 ∉ [15]; decide), oaddr_only b4 (by show 24 ∉ [15, 1]; decide), h24]
    rw [h243, get_pos (by decide), c2, c3, b3] at d2
    refine ⟨s4, execs_app (execs_app (execs_app a1 b1) c1) d1, ?_, d2, ?_⟩
    · rw [d3 _ (by decide), c2]
    · refine ((((only_set s TB n).mono (by simp)).trans (b4.mono (by simp [e2]))).trans (c4.mono (by simp [e2]))).trans (d3.mono (by simp))

theorem full_asgo (o : Ar) (sz : Int) (l r : E) (hz : okSz 4 sz) (hv : isVoid l = false) (hv' : isVoid r = false) (pl : Full l) (pr : Full r) : Full (.asgo o sz l r) := by
  intro t
  have w0 := wreg_ne0 t
  have w1 := wreg_ne1 t
  have w25 := wreg_ne25 t
  obtain ⟨o', r', hfix, hvr, pr', htemps, g, hole, hgr, hg⟩ := fix_cases o r hv' pr
  have hpt : pt (.asgo o sz l r) = revd (.t (.asgo o')) sz (pt l) (pt r') := by
    show revd (.t (fix (.asgo o) (pt r)).1) sz (pt l) (fix (.asgo o) (pt r)).2 = _
    rw [hfix]
  have hE : Cg.E.asgo o sz l r = .asgo o sz l (g r') := by rw [hgr]
  have ht : temps (.asgo o sz l r) = max (temps l) (temps r' + 1) := by simp only [temps, htemps]
  rw [hpt, ht, hE, show isVoid (.asgo o sz l (g r')) = false from rfl]
  cases ho : isObj l with
  | true =>
    obtain ⟨p, ob, hp, hrev, hpt, hfree, hadr⟩ := named l ho
    obtain ⟨c, gen, sm⟩ := pr' t
    rw [hvr] at gen
    rw [hpt]
    refine ⟨c ++ (rd TB sz ob ++ opOf o' (wreg t) TB (wreg t) ++ wr (wreg t) sz ob ++ extend (wreg t) sz), gen.rev hp (by simp [noIf]) ?_, fun V => ?_⟩
    · intro m _
      simp only [step, hrev]
    · refine ((sm V).mono (d' := dep t (max (temps l) (temps r' + 1))) (by simp only [dep]; omega)).then' (f := fun x => .asgo o sz l (g x)) (hole V _ (Cg.hole_asgoR V o sz l)) ?_
      rintro s m v hb ha hr ⟨m0, m1, hst⟩ hsafe
      obtain ⟨n, hn, hsame⟩ := hg V v m0 m1 hst
      rw [hn] at hsafe ⊢
      obtain ⟨a, h1, h2⟩ := hadr V s m hb
      have st := (Cg.hole_asgoL V o sz (.num n)).steps (.one h1)
      obtain ⟨hacc, z, hz1, st2⟩ := asgo_end (hsafe.steps st)
      obtain ⟨z', hz2, hz3⟩ := hsame _ z hz1
      obtain ⟨s1, a1, a2, a3, a4⟩ := rd_ok V.G s hz (d := TB) (by decide) ob
      rw [h2, Cg.agree_val ha hacc] at a2
      have hw : s1.get (wreg t) = wd 4 v := by
        rw [get_pos w0, a4 _ (by simp; exact ⟨w25, w1⟩), hr]
      obtain ⟨s2, b1, b2, b3, b4⟩ := op_ok V.G s1 (o := o') (d := wreg t) (l := TB) (r := wreg t) w0 (z := z') (by rw [get_pos (by decide), a2, hw]; exact hz2)
      obtain ⟨s3, c1, c2, c3⟩ := wr_ok V.G s2 hz w1 ob
      have n30 := wreg_ne30 t
      rw [oaddr_only b4 (hfree _ (by simp; exact n30.symm)), oaddr_only a4 (hfree _ (by decide)), h2, get_pos w0, b2, hz3, b3, a3] at c2
      obtain ⟨s4, d1, d2, d3, d4⟩ := extend_ok V.G s3 hz w0
      rw [c3 _ (by simpa using w1), b2, hz3, Cg.conv_wd (natAbs4 hz)] at d2
      refine ⟨s4, _, _, execs_app (execs_app (execs_app a1 b1) c1) d1, st.trans st2, d2,
        (((a4.mono (by simp)).trans (b4.mono (by simp))).trans (c3.mono (by simp))).trans (d4.mono (by simp)), ?_, ?_⟩
      · rw [d3, c2]; exact Cg.agree_upd ha _ _ _
      · intro b hb; rw [d3, c2]; exact Cg.upd_frame hacc b hb
  | false =>
    rw [revd_else _ sz ho]
    obtain ⟨c, gen, sm⟩ := pl t
    obtain ⟨c', gen', sm'⟩ := pr' (t + 1)
    rw [hv] at gen
    rw [hvr] at gen'
    refine ⟨c ++ (pushc t ++ (c' ++ (popc t ++ (asgoOf o' (wreg t) (lreg t) (wreg (t + 1)) sz ++ extend (wreg t) sz)))), ?_, fun V => ?_⟩
    · refine GenTo.two gen gen' (pt_headL r') (nx_any (by simp) (by simp) rfl rfl) ?_
      intro m _
      simp only [step, last_rev, pop_eq, Option.map_some, List.append_assoc]
    · refine fin2 (f := fun l x => .asgo o sz l (g x)) (Cg.hole_asgoL V o sz _) (fun l => hole V _ (Cg.hole_asgoR V o sz l)) (sm V) (sm' V) ?_
      rintro s m v w hb ha hl hr ⟨m0, m1, hst⟩ hsafe
      obtain ⟨n, hn, hsame⟩ := hg V w m0 m1 hst
      rw [hn] at hsafe ⊢
      obtain ⟨hacc, z, hz1, st2⟩ := asgo_end hsafe
      obtain ⟨z', hz2, hz3⟩ := hsame _ z hz1
      obtain ⟨s1, a1, a2, a3, a4⟩ := asgoOf_ok V.G s hz t hl hr (by rw [Cg.agree_val ha hacc]; exact hz2)
      obtain ⟨s2, b1, b2, b3, b4⟩ := extend_ok V.G s1 hz w0
      rw [a2, hz3, Cg.conv_wd (natAbs4 hz)] at b2
      refine ⟨s2, _, _, execs_app a1 b1, st2, b2, Only.trans a4 (b4.mono (by simp)), ?_, ?_⟩
      · rw [b3, a3, hz3]; exact Cg.agree_upd ha _ _ _
      · intro b hb; rw [b3, a3]; exact Cg.upd_frame hacc b hb

end Smlr.Mips
