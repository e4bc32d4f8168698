import Verif.Cg.Full
set_option autoImplicit false
/-! Operators with one operand, and those that jump. -/
namespace Smlr.Cg
variable {W : Nat}

/-! ### leaves and conversions -/

theorem full_num (v : Int) : Full W (.num v) := by
  refine ⟨p2 W .mov .ax (.imm v), gen_of (by simp) fun r _ => rfl, fun V => SimG.leaf (fun s m hb ha _ => ?_) _⟩
  exact ⟨_, _, m, mov_ax_imm V.G s v, .refl _ _, ⟨v, rfl, rfl⟩, rfl, rfl, ha, fun _ _ => rfl⟩

theorem full_glob (x : Int) : Full W (.glob x) := by
  refine ⟨p2 W .mov .ax (.lab x), gen_of (by simp) fun r _ => rfl, fun V => SimG.leaf (fun s m hb ha _ => ?_) _⟩
  exact ⟨_, _, m, mov_ax_lab V.G s x, .one (.glob x m), ⟨_, rfl, (wd_toInt _).symm⟩, rfl, rfl, ha, fun _ _ => rfl⟩

theorem full_loc (x : Int) : Full W (.loc x) := by
  refine ⟨p2 W .lea .ax (.mem (.loc x) none), gen_of (by simp) fun r _ => rfl, fun V => SimG.leaf (fun s m hb ha _ => ?_) _⟩
  exact ⟨_, _, m, lea_ax V.G s x, .one (.loc x m), ⟨_, rfl, by rw [wd_toInt, hb]⟩, rfl, rfl, ha, fun _ _ => rfl⟩

/-- straight code that changes `ax` only -/
theorem full_ax (u : Un) (e : E) (hu : u ≠ .plus) (c' : List Ins) (hg : ∀ r, gen W ((u.tok, 0) :: r) = (gen W r).map (c' ++ ·))
    (hx : ∀ (G : Int → Wd W) (s : St W), ∃ f, execs G c' s = some { s with ax := wd W (unary u s.ax), flags := f })
    (h : Full W e) : Full W (.un u e) := by
  obtain ⟨c, g, sm⟩ := h
  refine ⟨c ++ c', ?_, fun V => ?_⟩
  · rw [fz_un W u e hu]
    exact g.app (gen_of (by cases u <;> simp [Un.tok]) fun r _ => hg r)
  · refine (sm V).then (hole_un V u) ?_
    rintro s m e' hb ha ⟨v, rfl, hv⟩ _
    obtain ⟨f, hf⟩ := hx V.G s
    exact ⟨_, _, m, hf, .one (.un u v m), ⟨_, rfl, by rw [hv]⟩, rfl, rfl, ha, fun _ _ => rfl⟩

theorem full_plus (e : E) (h : Full W e) : Full W (.un .plus e) := by
  obtain ⟨c, g, sm⟩ := h
  refine ⟨c, g, fun V => ?_⟩
  have := (sm V).then (c' := []) (Q' := FullQ W) (hole_un V .plus) (by
    rintro s m e' hb ha ⟨v, rfl, hv⟩ _
    exact ⟨s, _, m, rfl, .one (.un .plus v m), ⟨_, rfl, by rw [hv]; exact (wd_toInt _).symm⟩, rfl, rfl, ha, fun _ _ => rfl⟩)
  rw [List.append_nil] at this
  exact this

theorem test_flags (x : Wd W) : (testFlags x x).holds .ne = decide (x.toNat ≠ 0) := by
  simp only [Flags.holds, testFlags, BitVec.and_self]
  have : (x = 0) ↔ (x.toNat = 0) := ⟨fun h => by rw [h]; simp, fun h => BitVec.eq_of_toNat_eq (by rw [h]; simp)⟩
  simp
  exact this

theorem testFlags_eq (x : Wd W) : (testFlags x x).holds .eq = decide (x = 0) := by
  simp only [Flags.holds, testFlags, BitVec.and_self]

theorem testFlags_ne (x : Wd W) : (testFlags x x).holds .ne = !decide (x = 0) := by
  simp only [Flags.holds, testFlags, BitVec.and_self]

def boolCode (W : Nat) : List Ins :=
  p2 W .test .ax .ax ++ .i1 (.setcc .ne) .al :: (if W = 2 then [.i0 .cbw] else p2 W .movsx .ax .al)

theorem test_exec (G : Int → Wd W) (s : St W) : execs G (p2 W .test .ax .ax) s = some { s with flags := some (testFlags s.ax s.ax) } := by
  simp [p2, execs, exec, exec2, size2, Opd.size, read]

theorem boolCode_ok (hW : W = 2 ∨ W = 4) (G : Int → Wd W) (s : St W) :
    ∃ f, execs G (boolCode W) s = some { s with ax := wd W (unary .bool s.ax), flags := f } := by
  refine ⟨some (testFlags s.ax s.ax), execs_app (test_exec G s) ?_⟩
  have h1 := s.ax.isLt
  have ht := test_flags s.ax
  simp only [unary]
  rcases hW with rfl | rfl
  · cases hh : decide (s.ax.toNat ≠ 0) <;> rw [hh] at ht
    · simp [execs, exec, exec1, Opd.size, ht, write, exec0, sext_eq, b2i]
      refine congrArg _ (bmod_congr (y := 0) (by simp)) |>.trans ?_
      rfl
    · simp [execs, exec, exec1, Opd.size, ht, write, exec0, sext_eq, b2i]
      refine congrArg _ (bmod_congr (y := 1) (by simp)) |>.trans ?_
      rfl
  · cases hh : decide (s.ax.toNat ≠ 0) <;> rw [hh] at ht
    · simp [execs, exec, exec1, exec2, p2, Opd.size, ht, write, read, sext_eq, b2i]
    · simp [execs, exec, exec1, exec2, p2, Opd.size, ht, write, read, sext_eq, b2i]

theorem toInt_mod {n : Nat} (h : n ∣ 2 ^ (8 * W)) (x : Wd W) : x.toInt % (n : Int) = (x.toNat : Int) % n := by
  rw [BitVec.toInt_eq_toNat_bmod]
  exact Int.emod_bmod_of_dvd' h
where
  Int.emod_bmod_of_dvd' {n N : Nat} {x : Int} (h : n ∣ N) : Int.bmod x N % (n : Int) = x % n := by
    have h1 : (n : Int) ∣ N := by exact_mod_cast h
    have h2 := Int.bmod_emod (x := x) (m := N)
    rw [← Int.emod_emod_of_dvd (Int.bmod x N) h1, h2, Int.emod_emod_of_dvd _ h1]

theorem conv_toInt (sz : Int) (h : sz.natAbs ≤ W) (x : Wd W) : conv sz x.toInt = conv sz x.toNat := by
  have := toInt_mod (pow_dvd h) x
  simp only [conv]
  split
  · simpa using this
  · exact bmod_congr this

theorem full_un (hW : W = 2 ∨ W = 4) (u : Un) (e : E) (ho : (E.un u e).ok W) (h : Full W e) : Full W (.un u e) := by
  have hW1 : 1 ≤ W := by omega
  cases u with
  | plus => exact full_plus e h
  | void =>
    refine full_ax .void e (by simp) [] (fun r => ?_) (fun G s => ⟨s.flags, ?_⟩) h
    · show gen W r = _
      cases gen W r <;> rfl
    · show some s = _
      rw [unary, wd_toInt]
  | not =>
    refine full_ax .not e (by simp) [.i1 .not .ax] (fun r => rfl) (fun G s => ⟨s.flags, ?_⟩) h
    simp [execs, exec, exec1, Opd.size, write, read, unary]
    rw [Int.sub_eq_add_neg, wd, BitVec.ofInt_add, BitVec.ofInt_neg, BitVec.ofInt_toInt, BitVec.ofInt_neg, BitVec.not_eq_neg_add,
      BitVec.sub_eq_add_neg]
    congr 2
  | neg =>
    refine full_ax .neg e (by simp) [.i1 .neg .ax] (fun r => rfl) (fun G s => ⟨none, ?_⟩) h
    simp [execs, exec, exec1, Opd.size, write, read, unary]
    rw [wd, BitVec.ofInt_neg, BitVec.ofInt_toInt]
  | bool => exact full_ax .bool e (by simp) (boolCode W) (fun r => rfl) (fun G s => boolCode_ok hW G s) h
  | uchar =>
    refine full_ax .uchar e (by simp) (p2 W .band .ax (.imm 0xFF)) (fun r => rfl) (fun G s => ?_) h
    obtain ⟨f, hf⟩ := alu2imm (G := G) (s := s) (i := .band) (v := 255) rfl
    refine ⟨f, hf.trans ?_⟩
    have : s.ax &&& wd W 255 = wd W (unary .uchar s.ax) := by
      rw [unary, conv_toInt 1 (by simpa using hW1)]
      apply BitVec.eq_of_toNat_eq
      rcases hW with rfl | rfl
      · simp [conv, BitVec.toNat_ofInt, wd]
        rw [show 255 = 2 ^ 8 - 1 from rfl, Nat.and_two_pow_sub_one_eq_mod]
        omega
      · simp [conv, BitVec.toNat_ofInt, wd]
        rw [show 255 = 2 ^ 8 - 1 from rfl, Nat.and_two_pow_sub_one_eq_mod]
        omega
    rw [this]
  | schar =>
    refine full_ax .schar e (by simp) _ (fun r => rfl) (fun G s => ⟨s.flags, ?_⟩) h
    rw [unary, conv_toInt (-1) (by simpa using hW1)]
    have := ext_ok hW (sz := -1) (Or.inr (Or.inr (Or.inl rfl))) G s s.ax.toNat rfl
    rw [← this]
    rcases hW with rfl | rfl <;> rfl
  | short =>
    have h4 : W = 4 := ho.1 (Or.inl rfl)
    subst h4
    refine full_ax .short e (by simp) _ (fun r => rfl) (fun G s => ⟨s.flags, ?_⟩) h
    rw [unary, conv_toInt (-2) (by simp)]
    exact ext_ok hW (sz := -2) (Or.inr (Or.inr (Or.inr ⟨rfl, Or.inr rfl⟩))) G s s.ax.toNat rfl
  | ushort =>
    have h4 : W = 4 := ho.1 (Or.inr rfl)
    subst h4
    refine full_ax .ushort e (by simp) _ (fun r => rfl) (fun G s => ⟨s.flags, ?_⟩) h
    rw [unary, conv_toInt 2 (by simp)]
    exact ext_ok hW (sz := 2) (Or.inr (Or.inr (Or.inr ⟨rfl, Or.inl rfl⟩))) G s s.ax.toNat rfl

/-! ### operators on objects -/

def adr : Cls → Adr
  | .id x => .lab x
  | .loc o => .loc o
  | _ => .bx

theorem unF_eq (ind : Bool) (tok : Tok) (sz : Int) (c : Cls) (F : List T) :
    ∃ t, unF ind tok sz c F = (if (lc sz c).isAcc then F else []) ++ [(tok, sz), t] ∧ Tok.place t = some (adr c, (lc sz c).isAcc) := by
  cases ind <;> cases c <;> exact ⟨_, rfl, rfl⟩

theorem postF_eq (tok : Tok) (sz n : Int) (c : Cls) (F : List T) :
    ∃ t, postF tok sz n c F = (if (lc sz c).isAcc then F else []) ++ [(tok, sz), t, (.opNum, n)] ∧
      Tok.place t = some (adr c, (lc sz c).isAcc) := by
  cases c <;> exact ⟨_, rfl, rfl⟩

/-- code on the object that an address designates -/
theorem sim_obj {V : Env W} {e : E} {c K : List Ins} (sz : Int) {f : E → E} (hf : Hole V f) (h : SimG V c e.depth e (FullQ W))
    (hK : ∀ s m w, s.bp = V.bp → Agree V.A s.mem m → Safe V (f (.num w)) m → ea V.G s (adr (cls e)) = wd W w →
      ∃ s' e'' m', execs V.G K s = some s' ∧ Steps V (f (.num w)) m e'' m' ∧ FullQ W s'.ax e'' ∧ s'.sp = s.sp ∧ s'.bp = s.bp ∧
        Agree V.A s'.mem m' ∧ ∀ a, ¬ V.A a → s'.mem a = s.mem a) :
    SimG V ((if (lc sz (cls e)).isAcc then c else []) ++ (toB W (lc sz (cls e)).isAcc ++ K)) e.depth (f e) (FullQ W) := by
  cases hc : (lc sz (cls e)).isAcc with
  | true =>
    refine h.then hf ?_
    rintro s m e' hb ha ⟨v, rfl, hv⟩ hsafe
    have hadr : ea V.G { s with bx := s.ax } (adr (cls e)) = wd W v := by
      have : adr (cls e) = .bx := by
        cases h : cls e <;> rw [h] at hc <;> first | rfl | exact Bool.noConfusion hc
      rw [this, ← hv]; rfl
    obtain ⟨s', e'', m', h1, h2⟩ := hK { s with bx := s.ax } m v hb ha hsafe hadr
    exact ⟨s', e'', m', execs_app (mov_bx_ax V.G s) h1, h2⟩
  | false =>
    refine SimG.leaf (fun s m hb ha hsafe => ?_) _
    obtain ⟨w, h2, h3⟩ := aends_leaf V sz e s.ax hc m (hf.safe hsafe)
    have st1 := hf.steps h2
    have hadr : ea V.G s (adr (cls e)) = wd W w := by
      rw [h3]
      cases h : cls e <;> rw [h] at hc <;> first | (simp only [adr, ea, lc, opa, hb]; done) | exact Bool.noConfusion hc
    obtain ⟨s', e'', m', g1, g2, g3⟩ := hK s m w hb ha (hsafe.steps st1) hadr
    exact ⟨s', e'', m', g1, st1.trans g2, g3⟩

theorem gen_obj {e : E} {c : List Ins} (sz : Int) (g : Gen W (fz W e) c) :
    Gen W (if (lc sz (cls e)).isAcc then fz W e else []) (if (lc sz (cls e)).isAcc then c else []) := by
  cases (lc sz (cls e)).isAcc
  · exact gen_nil W
  · exact g

theorem full_deref (hW : W = 2 ∨ W = 4) (sz : Int) (e : E) (hz : okSz W sz) (h : Full W e) : Full W (.deref sz e) := by
  obtain ⟨c, g, sm⟩ := h
  obtain ⟨t, ht, hp⟩ := unF_eq false .star sz (cls e) (fz W e)
  refine ⟨(if (lc sz (cls e)).isAcc then c else []) ++ (toB W (lc sz (cls e)).isAcc ++ readA W sz (adr (cls e))), ?_, fun V => ?_⟩
  · rw [fz, ht]
    refine (gen_obj sz g).app (gen_of (by simp) fun r _ => ?_)
    simp only [List.cons_append, List.nil_append, gen, genUn, hp]
  · refine sim_obj sz (hole_deref V sz) (sm V) ?_
    intro s m w hb ha hsafe hadr
    have hacc := acc_of_safe hsafe
    refine ⟨_, _, m, readA_ok hW hz V.G s (adr (cls e)), .one (.deref sz w m hacc), ⟨_, rfl, ?_⟩, rfl, rfl, ha, fun _ _ => rfl⟩
    show wd W (val s.mem (ea V.G s (adr (cls e))) sz) = _
    rw [hadr, agree_val ha hacc]

theorem acc_inc {V : Env W} {k : IncK} {sz a : Int} {m : Mem W} (h : Safe V (.inc k sz (.num a)) m) : Acc V.A (wd W a) sz :=
  Classical.byContradiction fun hn => h _ _ (.refl _ _) (.inc _ _ _ _ hn)

theorem acc_padd {V : Env W} {b : Bool} {sz n a : Int} {m : Mem W} (h : Safe V (.padd b sz n (.num a)) m) : Acc V.A (wd W a) sz :=
  Classical.byContradiction fun hn => h _ _ (.refl _ _) (.padd _ _ _ _ _ hn)

theorem toInt_add_one (v : Int) (k : Int) : wd W ((wd W v).toInt + (wd W k).toInt) = wd W (v + k) := by
  rw [wd, BitVec.ofInt_add, BitVec.ofInt_toInt, BitVec.ofInt_toInt]
  simp only [wd, BitVec.ofInt_add]

theorem toInt_sub_one (v : Int) (k : Int) : wd W ((wd W v).toInt - (wd W k).toInt) = wd W (v - k) := by
  rw [Int.sub_eq_add_neg, Int.sub_eq_add_neg, wd, BitVec.ofInt_add, BitVec.ofInt_neg, BitVec.ofInt_toInt, BitVec.ofInt_toInt]
  simp only [wd, BitVec.ofInt_add, BitVec.ofInt_neg]

/-- `E += 1` and `E -= 1` -/
theorem pre_steps (hW : W = 2 ∨ W = 4) {V : Env W} {dec : Bool} {sz a : Int} {m : Mem W} (hz : okSz W sz) (h : Acc V.A (wd W a) sz) :
    ∃ z, Steps V (.inc (if dec then .dec else .inc) sz (.num a)) m (.num (conv sz z))
        (upd m (wd W a) sz (wd W (val m (wd W a) sz + if dec then -1 else 1))) ∧
      conv sz z = conv sz (val m (wd W a) sz + if dec then -1 else 1) := by
  have hn := natAbs_le hW hz
  cases dec
  · refine ⟨(wd W (val m (wd W a) sz)).toInt + (wd W 1).toInt, ?_, ?_⟩
    · refine .step (.preInc sz a m) (.step (.asgo _ _ _ _ _) (.step (.asgR (.binL (.deref sz a m h))) (.step (.asgR (.bin m rfl)) ?_)))
      have := Step.asg sz a ((wd W (val m (wd W a) sz)).toInt + (wd W 1).toInt) m h
      rw [toInt_add_one] at this
      exact .one this
    · rw [← conv_wd hn, toInt_add_one, conv_wd hn]; rfl
  · refine ⟨(wd W (val m (wd W a) sz)).toInt - (wd W 1).toInt, ?_, ?_⟩
    · refine .step (.preDec sz a m) (.step (.asgo _ _ _ _ _) (.step (.asgR (.binL (.deref sz a m h))) (.step (.asgR (.bin m rfl)) ?_)))
      have := Step.asg sz a ((wd W (val m (wd W a) sz)).toInt - (wd W 1).toInt) m h
      rw [toInt_sub_one] at this
      exact .one this
    · rw [← conv_wd hn, toInt_sub_one, conv_wd hn]; rfl

theorem post_steps {V : Env W} {dec : Bool} {sz a : Int} {m : Mem W} (h : Acc V.A (wd W a) sz) :
    Steps V (.inc (if dec then .pdec else .pinc) sz (.num a)) m (.num (val m (wd W a) sz))
        (upd m (wd W a) sz (wd W (val m (wd W a) sz + if dec then -1 else 1))) := by
  cases dec
  · exact .one (.postInc sz a m h)
  · exact .one (.postDec sz a m h)

theorem padd_steps {V : Env W} {sub : Bool} {sz n a : Int} {m : Mem W} (h : Acc V.A (wd W a) sz) :
    Steps V (.padd sub sz n (.num a)) m (.num (val m (wd W a) sz))
        (upd m (wd W a) sz (wd W (val m (wd W a) sz + if sub then -n else n))) := by
  cases sub
  · exact .one (.postAdd sz n a m h)
  · exact .one (.postSub sz n a m h)

theorem full_inc (hW : W = 2 ∨ W = 4) (k : IncK) (sz : Int) (e : E) (hz : okSz W sz) (h : Full W e) : Full W (.inc k sz e) := by
  obtain ⟨c, g, sm⟩ := h
  obtain ⟨t, ht, hp⟩ := unF_eq true k.tok sz (cls e) (fz W e)
  have pre : ∀ dec : Bool, ∀ V : Env W, SimG V ((if (lc sz (cls e)).isAcc then c else []) ++
      (toB W (lc sz (cls e)).isAcc ++ incDec W dec sz (adr (cls e)))) e.depth (.inc (if dec then .dec else .inc) sz e) (FullQ W) := by
    intro dec V
    refine sim_obj sz (hole_inc V _ sz) (sm V) ?_
    intro s m w hb ha hsafe hadr
    have hacc := acc_inc hsafe
    have h1 := inc_ok hW hz V.G s (adr (cls e)) dec
    rw [hadr, agree_val ha hacc] at h1
    obtain ⟨z, hz1, hz2⟩ := pre_steps hW (V := V) (dec := dec) (m := m) hz hacc
    have h2 := readA_ok hW hz V.G { s with mem := upd s.mem (wd W w) sz (wd W (val m (wd W w) sz + if dec then -1 else 1)), flags := none } (adr (cls e))
    have hadr' : ea V.G { s with mem := upd s.mem (wd W w) sz (wd W (val m (wd W w) sz + if dec then -1 else 1)), flags := none } (adr (cls e)) = wd W w := by
      rw [← hadr]; cases adr (cls e) <;> rfl
    rw [hadr', val_upd hW _ _ hz] at h2
    refine ⟨_, _, _, execs_app (a := [_]) ((execs_one _ _ _).trans h1) h2, hz1, ⟨_, rfl, ?_⟩, rfl, rfl, agree_upd ha _ _ _, fun a hA => upd_frame hacc a hA⟩
    rw [hz2]
  have post : ∀ dec : Bool, ∀ V : Env W, SimG V ((if (lc sz (cls e)).isAcc then c else []) ++
      (toB W (lc sz (cls e)).isAcc ++ postIncDec W dec sz (adr (cls e)))) e.depth (.inc (if dec then .pdec else .pinc) sz e) (FullQ W) := by
    intro dec V
    refine sim_obj sz (hole_inc V _ sz) (sm V) ?_
    intro s m w hb ha hsafe hadr
    have hacc := acc_inc hsafe
    have h1 := readA_ok hW hz V.G s (adr (cls e))
    rw [hadr, agree_val ha hacc] at h1
    have h2 := inc_ok hW hz V.G { s with ax := wd W (val m (wd W w) sz) } (adr (cls e)) dec
    have hadr' : ea V.G { s with ax := wd W (val m (wd W w) sz) } (adr (cls e)) = wd W w := by
      rw [← hadr]; cases adr (cls e) <;> rfl
    rw [hadr'] at h2
    have hv : val s.mem (wd W w) sz = val m (wd W w) sz := agree_val ha hacc
    rw [hv] at h2
    exact ⟨_, _, _, execs_app h1 ((execs_one _ _ _).trans h2), post_steps hacc, ⟨_, rfl, rfl⟩, rfl, rfl, agree_upd ha _ _ _, fun a hA => upd_frame hacc a hA⟩
  cases k
  · refine ⟨_, ?_, pre false⟩
    rw [fz, ht]
    refine (gen_obj sz g).app (gen_of (by simp [IncK.tok]) fun r _ => ?_)
    simp only [List.cons_append, List.nil_append, IncK.tok, gen, genUn, hp]
  · refine ⟨_, ?_, pre true⟩
    rw [fz, ht]
    refine (gen_obj sz g).app (gen_of (by simp [IncK.tok]) fun r _ => ?_)
    simp only [List.cons_append, List.nil_append, IncK.tok, gen, genUn, hp]
  · refine ⟨_, ?_, post false⟩
    rw [fz, ht]
    refine (gen_obj sz g).app (gen_of (by simp [IncK.tok]) fun r _ => ?_)
    simp only [List.cons_append, List.nil_append, IncK.tok, gen, genUn, hp]
  · refine ⟨_, ?_, post true⟩
    rw [fz, ht]
    refine (gen_obj sz g).app (gen_of (by simp [IncK.tok]) fun r _ => ?_)
    simp only [List.cons_append, List.nil_append, IncK.tok, gen, genUn, hp]

theorem full_padd (hW : W = 2 ∨ W = 4) (sub : Bool) (sz n : Int) (e : E) (hz : okSz W sz) (h : Full W e) : Full W (.padd sub sz n e) := by
  obtain ⟨c, g, sm⟩ := h
  obtain ⟨t, ht, hp⟩ := postF_eq (if sub then .psub else .padd) sz n (cls e) (fz W e)
  refine ⟨(if (lc sz (cls e)).isAcc then c else []) ++ (toB W (lc sz (cls e)).isAcc ++ postAddSub W sub sz n (adr (cls e))), ?_, fun V => ?_⟩
  · rw [fz, ht]
    refine (gen_obj sz g).app (gen_of (by cases sub <;> simp) fun r _ => ?_)
    cases sub <;> simp only [List.cons_append, List.nil_append, Bool.false_eq_true, if_false, if_true, gen, genUn, hp]
  · refine sim_obj sz (hole_padd V _ sz n) (sm V) ?_
    intro s m w hb ha hsafe hadr
    have hacc := acc_padd hsafe
    have h1 := readA_ok hW hz V.G s (adr (cls e))
    rw [hadr, agree_val ha hacc] at h1
    obtain ⟨f, h2⟩ := padd_ok hW hz V.G { s with ax := wd W (val m (wd W w) sz) } (adr (cls e)) sub n
    have hadr' : ea V.G { s with ax := wd W (val m (wd W w) sz) } (adr (cls e)) = wd W w := by
      rw [← hadr]; cases adr (cls e) <;> rfl
    rw [hadr'] at h2
    have hv : val s.mem (wd W w) sz = val m (wd W w) sz := agree_val ha hacc
    rw [hv] at h2
    exact ⟨_, _, _, execs_app h1 h2, padd_steps hacc, ⟨_, rfl, rfl⟩, rfl, rfl, agree_upd ha _ _ _, fun a hA => upd_frame hacc a hA⟩

end Smlr.Cg
