import Verif.Cg.Sim
set_option autoImplicit false
/-! The code of operators with one and with two operands. -/
namespace Smlr.Cg
variable {W : Nat}

/-- the code for an expression evaluates it -/
def Full (W : Nat) (e : E) : Prop := ∃ c, Gen W (fz W e) c ∧ ∀ V : Env W, SimG V c e.depth e (FullQ W)

/-- the code for what has to be computed of an operand -/
def Part (W : Nat) (e : E) : Prop :=
  ∃ c, Gen W (rpart (rInfo W (cls e)) (fz W e)) c ∧
    ∀ V : Env W, if (cls e).isAcc then SimG V c e.depth e (fun a e' => Ends V (cls e) a e') else ∀ a, Ends V (cls e) a e

theorem part_leaf (e : E) (h : (cls e).isAcc = false) : Part W e := by
  refine ⟨[], ?_, fun V => ?_⟩
  · rw [rpart, isAcc_typ, h]; exact gen_nil W
  · rw [h]; exact fun a => ends_leaf V e a h

theorem part_full (e : E) (h : cls e = .acc) (hf : Full W e) : Part W e := by
  obtain ⟨c, h1, h2⟩ := hf
  refine ⟨c, ?_, fun V => ?_⟩
  · rw [h]; exact h1
  · rw [h]
    refine (h2 V).mono (Nat.le_refl _) ?_
    rintro a e' ⟨v, rfl, rfl⟩
    exact ends_acc V v

theorem part_deref (sz : Int) (e : E) (h : cls (.deref sz e) = .dAcc sz) (hf : Full W e) : Part W (.deref sz e) := by
  obtain ⟨c, h1, h2⟩ := hf
  refine ⟨c, ?_, fun V => ?_⟩
  · have : fz W (.deref sz e) = fz W e ++ [(.star, sz), (.opAcc, 0)] := by
      simp only [cls] at h
      simp only [fz, unF]
      cases hc : cls e <;> rw [hc] at h <;> first | rfl | cases h
    rw [this, h]
    have h' : (fz W e ++ [(Tok.star, sz), (.opAcc, 0)]).dropLast.dropLast = fz W e := by
      rw [show fz W e ++ [(Tok.star, sz), (.opAcc, 0)] = (fz W e ++ [(.star, sz)]) ++ [(.opAcc, 0)] by simp]
      rw [List.dropLast_concat, List.dropLast_concat]
    simp only [rpart, rInfo, Tok.isAcc, Bool.not_true, Bool.false_eq_true, if_false, if_true, h']
    exact h1
  · rw [h]
    intro P pre post hP hn s m hb ha hs hsafe
    obtain ⟨s', e', m', h1, h2, ⟨v, rfl, h3⟩, h4⟩ := h2 V P pre post hP hn s m hb ha hs ((hole_deref V sz).safe hsafe)
    refine ⟨s', _, m', h1, (hole_deref V sz).steps h2, ?_, h4⟩
    show Ends V (.dAcc sz) s'.ax (.deref sz (.num v))
    rw [h3]
    exact ends_dacc V sz v

theorem part_plus (e : E) (h : Part W e) : Part W (.un .plus e) := by
  obtain ⟨c, h1, h2⟩ := h
  refine ⟨c, h1, fun V => ?_⟩
  have h2 := h2 V
  show if (cls e).isAcc then SimG V c e.depth (.un .plus e) (fun a e' => Ends V (cls e) a e') else ∀ a, Ends V (cls e) a (.un .plus e)
  cases hc : (cls e).isAcc with
  | false =>
    rw [hc] at h2
    exact fun a => ends_plus (h2 a)
  | true =>
    rw [hc] at h2
    simp only [if_true] at h2 ⊢
    intro P pre post hP hn s m hb ha hs hsafe
    obtain ⟨s', e', m', h1, h2, h3, h4⟩ := h2 P pre post hP hn s m hb ha hs ((hole_un V .plus).safe hsafe)
    exact ⟨s', _, m', h1, (hole_un V .plus).steps h2, ends_plus h3, h4⟩

theorem upd_frame {A : Wd W → Prop} {M : Mem W} {a : Wd W} {sz : Int} {x : Wd W} (h : Acc A a sz) (b : Wd W) (hb : ¬ A b) :
    upd M a sz x b = M b := by
  apply st_other
  intro i hi hx
  exact hb (hx ▸ h i hi)

/-! ### two operands -/

theorem gen_rpart_acc {e : E} {c : List Ins} (h : Gen W (rpart (rInfo W (cls e)) (fz W e)) c) :
    Gen W (rpart (rInfo W (cls e)) (fz W e)) (rcode (cls e) c) := by
  cases hc : (cls e).isAcc with
  | false => rw [rpart, isAcc_typ, rcode, hc]; exact gen_nil W
  | true => rw [rcode, hc]; exact h

theorem gen_push (v : Int) : Gen W [(.push, v)] [.i1 .push .ax] := gen_of (by simp) fun r _ => rfl

theorem gen_lpart {e : E} {c : List Ins} (R : Cls) (h : Gen W (rpart (rInfo W (cls e)) (fz W e)) c) :
    Gen W (lpart (rInfo W (cls e)) (rInfo W R) (fz W e)) (lcode (cls e) R c) := by
  rw [rpart, isAcc_typ] at h
  rw [lpart, isAcc_typ, isAcc_typ, lcode]
  cases hc : (cls e).isAcc with
  | false => exact gen_nil W
  | true =>
    rw [hc] at h
    simp only [Bool.not_true, Bool.false_eq_true, if_false, if_true] at h ⊢
    cases hr : R.isAcc with
    | false => simp only [Bool.false_eq_true, if_false, List.append_nil]; exact h
    | true => simp only [if_true]; exact h.app (gen_push 0)

theorem lc_typ (sz : Int) (c : Cls) : (lInfo sz c).typ = (rInfo W (lc sz c)).typ := by cases c <;> rfl
theorem lc_val (sz : Int) (c : Cls) : (lInfo sz c).val = (rInfo W (lc sz c)).val := by cases c <;> rfl
theorem lc_size (sz : Int) (c : Cls) : (lInfo sz c).size = (rInfo W (lc sz c)).size := by cases c <;> rfl

theorem lInfo_isAcc (sz : Int) (c : Cls) : (lInfo sz c).typ.isAcc = (lc sz c).isAcc := by cases c <;> rfl

theorem ltyp_l (sz : Int) (c R : Cls) : ltyp (lInfo sz c) (rInfo W R) = ltyp (rInfo W (lc sz c)) (rInfo W R) := by
  simp only [ltyp, lc_typ (W := W)]

theorem gen_lpartA {e : E} {c : List Ins} (sz : Int) (R : Cls) (h : Gen W (fz W e) c) :
    Gen W (lpart (lInfo sz (cls e)) (rInfo W R) (fz W e)) (lcode (lc sz (cls e)) R c) := by
  rw [lpart, lInfo_isAcc, isAcc_typ, lcode, lInfo_del]
  cases hc : (lc sz (cls e)).isAcc with
  | false => exact gen_nil W
  | true =>
    simp only [Bool.not_true, Bool.false_eq_true, if_false, if_true]
    cases hr : R.isAcc with
    | false => simp only [Bool.false_eq_true, if_false, List.append_nil]; exact h
    | true => simp only [if_true]; exact h.app (gen_push 0)

theorem cls_ok {e : E} (h : e.ok W) : (cls e).ok W := by
  induction e with
  | un u e ih => cases u <;> first | exact trivial | exact ih h.2
  | deref sz e ih =>
    simp only [cls]
    cases hc : cls e <;> exact h.1
  | _ => trivial

theorem size_ok (hW : W = 2 ∨ W = 4) {c : Cls} (h : c.ok W) : -8 ≤ (rInfo W c).size ∧ (rInfo W c).size < 8 := by
  have : ∀ sz : Int, okSz W sz → -8 ≤ sz ∧ sz < 8 := by
    intro sz hz
    rcases hz with rfl | rfl | rfl | ⟨h4, rfl | rfl⟩ <;> omega
  cases c with
  | dId sz x => exact this _ h
  | dLoc sz x => exact this _ h
  | dAcc sz => exact this _ h
  | _ => simp only [rInfo]; omega

theorem lc_ok {sz : Int} (h : okSz W sz) (c : Cls) : (lc sz c).ok W := by cases c <;> exact h

theorem szL_enc {a b : Int} (h : -8 ≤ b ∧ b < 8) : szL ((a + 8) * 16 + (b + 8)) = a := by rw [szL]; omega
theorem szR_enc {a b : Int} (h : -8 ≤ b ∧ b < 8) : szR ((a + 8) * 16 + (b + 8)) = b := by rw [szR]; omega

/-- code with two operands and straight code after them -/
theorem fin2 {V : Env W} (hW : W = 2 ∨ W = 4) {f : E → E → E} (hL : ∀ r, Hole V (fun l => f l r)) (hR : ∀ l, Hole V (fun r => f l r)) {l r : E} {cl cr c' : List Ins}
    {QL QR Q : Wd W → E → Prop} {L R : Cls} {d : Nat}
    (hl : if L.isAcc then SimG V cl l.depth l QL else ∀ a, QL a l)
    (hr : if R.isAcc then SimG V cr r.depth r QR else ∀ a, QR a r) (hd : max l.depth (r.depth + 1) ≤ d)
    (hend : ∀ s m l' r' la ra, s.bp = V.bp → Agree V.A s.mem m → QL la l' → QR ra r' → Held s L R la ra → Safe V (f l' r') m →
      ∃ s' e'' m', execs V.G c' s = some s' ∧ Steps V (f l' r') m e'' m' ∧ Q s'.ax e'' ∧
        s'.sp = (if L.isAcc && R.isAcc then s.sp + BitVec.ofNat _ W else s.sp) ∧ s'.bp = s.bp ∧ Agree V.A s'.mem m' ∧
        ∀ a, ¬ V.A a → s'.mem a = s.mem a) :
    SimG V (lcode L R cl ++ rcode R cr ++ c') d (f l r) Q := by
  intro P pre post hP hn s m hb ha hs hsafe
  obtain ⟨t, l', r', n, la, ra, h1, h2, h3, h4, h5, h6, h7, h8, h9⟩ :=
    two hW hL hR hl hr hd (P := P) (pre := pre) (post := c' ++ post) (by rw [hP]; simp) hn hb ha hs hsafe
  obtain ⟨s', e'', m', g1, g2, g3, g4, g5, g6, g7⟩ := hend t n l' r' la ra (h7.trans hb) h8 h3 h4 h5 (hsafe.steps h2)
  refine ⟨s', e'', m', ?_, h2.trans g2, g3, ?_, g5.trans h7, g6, fun a hA hz => (g7 a hA).trans (h9 a hA hz)⟩
  · have h8 := run_execs g1 (pre ++ (lcode L R cl ++ rcode R cr)) post
    rw [show pre ++ (lcode L R cl ++ rcode R cr) ++ c' ++ post = P by rw [hP]; simp, List.length_append] at h8
    rw [List.length_append (as := lcode L R cl ++ rcode R cr), ← Nat.add_assoc]
    exact h1.trans h8
  · rw [g4, h6]
    split
    · rw [BitVec.sub_add_cancel]
    · rfl

theorem full_bin (hW : W = 2 ∨ W = 4) (o : Ar) (l r : E) (hl : l.ok W) (hr : r.ok W) (pl : Part W l) (pr : Part W r) : Full W (.bin o l r) := by
  obtain ⟨cl, gl, sl⟩ := pl
  obtain ⟨cr, gr, sr⟩ := pr
  have okl := cls_ok hl
  have okr := cls_ok hr
  refine ⟨lcode (cls l) (cls r) cl ++ rcode (cls r) cr ++
    genBin W (.ar o) (((rInfo W (cls l)).size + 8) * 16 + ((rInfo W (cls r)).size + 8))
      (ltyp (rInfo W (cls l)) (rInfo W (cls r)), (rInfo W (cls l)).val) (rT W (cls r)) none, ?_, fun V => ?_⟩
  · refine ((gen_lpart _ gl).app (gen_rpart_acc gr)).app (gen_of (by simp) fun q hq => ?_)
    simp only [List.cons_append, List.nil_append, gen, genBin, rT]
  · refine fin2 hW (f := fun l r => .bin o l r) (hole_binL V o) (hole_binR V o) (sl V) (sr V) (Nat.le_refl _) ?_
    intro s m l' r' la ra hb ha ql qr hh hsafe
    simp only [genBin, szL_enc (size_ok hW okr), szR_enc (size_ok hW okr)]
    obtain ⟨t, h1, h2, h3, _, h4, h5, h6⟩ := load_ok hW V.G s (cls l) (cls r) la ra okl okr hh
    obtain ⟨al, x, hx1, hx2⟩ := ql m ((hole_binL V o r').safe hsafe)
    have st1 := (hole_binL V o r').steps hx1
    obtain ⟨ar, y, hy1, hy2⟩ := qr m ((hole_binR V o (.num x)).safe (hsafe.steps st1))
    have st2 := st1.trans ((hole_binR V o (.num x)).steps hy1)
    have hs2 := hsafe.steps st2
    cases hz : arith o (wd W x) (wd W y) with
    | none => exact absurd (Ub.bin o x y m hz) (hs2 _ _ (.refl _ _))
    | some z =>
      have hax : t.ax = wd W x := by rw [h2, hx2, hb, agree_opv ha al]
      obtain ⟨s', g1, g2, g3⟩ := oper_ok hW (G := V.G) (s := t) (c := cls r) (a := ra) (y := wd W y) (o := o) (z := z) okr
        (by rw [hy2, h5, h6, hb, agree_opv ha ar]) (fun hc => by rw [h3 hc, hy2, hb, agree_opv ha ar]) (by rw [hax]; exact hz)
      refine ⟨s', .num z, m, execs_app h1 g1, st2.trans (.one (.bin m hz)), ⟨z, rfl, g2⟩, g3.sp.trans h4, g3.bp.trans h5, ?_, ?_⟩
      · rw [g3.mem, h6]; exact ha
      · intro a _; rw [g3.mem, h6]

theorem full_cmp (hW : W = 2 ∨ W = 4) (o : Cc) (l r : E) (hl : l.ok W) (hr : r.ok W) (pl : Part W l) (pr : Part W r) : Full W (.cmp o l r) := by
  obtain ⟨cl, gl, sl⟩ := pl
  obtain ⟨cr, gr, sr⟩ := pr
  have okl := cls_ok hl
  have okr := cls_ok hr
  refine ⟨lcode (cls l) (cls r) cl ++ rcode (cls r) cr ++
    genBin W (.cmp o) (((rInfo W (cls l)).size + 8) * 16 + ((rInfo W (cls r)).size + 8))
      (ltyp (rInfo W (cls l)) (rInfo W (cls r)), (rInfo W (cls l)).val) (rT W (cls r)) none, ?_, fun V => ?_⟩
  · refine ((gen_lpart _ gl).app (gen_rpart_acc gr)).app (gen_of (by simp) fun q hq => ?_)
    have : cmpEnd W o q.head? = cmpEnd W o none := by
      cases q with
      | nil => rfl
      | cons t q =>
        have := hq t rfl
        obtain ⟨k, v⟩ := t
        cases k <;> first | rfl | exact absurd rfl this.1 | exact absurd rfl this.2
    simp only [List.cons_append, List.nil_append, gen, genBin, rT, this]
  · refine fin2 hW (f := fun l r => .cmp o l r) (hole_cmpL V o) (hole_cmpR V o) (sl V) (sr V) (Nat.le_refl _) ?_
    intro s m l' r' la ra hb ha ql qr hh hsafe
    simp only [genBin, szL_enc (size_ok hW okr), szR_enc (size_ok hW okr)]
    obtain ⟨t, h1, h2, h3, _, h4, h5, h6⟩ := load_ok hW V.G s (cls l) (cls r) la ra okl okr hh
    obtain ⟨al, x, hx1, hx2⟩ := ql m ((hole_cmpL V o r').safe hsafe)
    have st1 := (hole_cmpL V o r').steps hx1
    obtain ⟨ar, y, hy1, hy2⟩ := qr m ((hole_cmpR V o (.num x)).safe (hsafe.steps st1))
    have st2 := st1.trans ((hole_cmpR V o (.num x)).steps hy1)
    have hax : t.ax = wd W x := by rw [h2, hx2, hb, agree_opv ha al]
    obtain ⟨u, g1, g2, g3⟩ := cmp_ok hW (G := V.G) (s := t) (c := cls r) (a := ra) (y := wd W y) okr
      (by rw [hy2, h5, h6, hb, agree_opv ha ar]) (fun hc => by rw [h3 hc, hy2, hb, agree_opv ha ar])
    obtain ⟨s', k1, k2, k3⟩ := setcc_ok hW V.G u o _ g2 none (by simp)
    have g4 := g3.trans k3
    refine ⟨s', _, m, execs_app (execs_app h1 g1) k1, st2.trans (.one (.cmp o x y m)), ⟨_, rfl, ?_⟩, g4.sp.trans h4, g4.bp.trans h5, ?_, ?_⟩
    · rw [k2, flags_rel (by omega), hax]
    · rw [g4.mem, h6]; exact ha
    · intro a _; rw [g4.mem, h6]

/-! ### assignments -/

theorem loadR_ok (hW : W = 2 ∨ W = 4) (G : Int → Wd W) (s : St W) (r : Cls) (ra : Wd W) (hr : r.ok W) (h : r.isAcc = true → ra = s.ax) :
    ∃ s', execs G (loadA W (rInfo W r).size (rT W r)) s = some s' ∧ s'.ax = opv G s.bp s.mem r ra ∧
      (r.isAcc = false → s'.bx = s.bx) ∧ s'.sp = s.sp ∧ s'.bp = s.bp ∧ s'.mem = s.mem := by
  cases hc : r.isAcc with
  | false => exact ⟨_, load_leaf hW G s r ra hr hc, rfl, fun _ => rfl, rfl, rfl, rfl⟩
  | true =>
    have h' := h hc
    cases r with
    | acc => exact ⟨s, rfl, h'.symm, fun h => (Bool.noConfusion h), rfl, rfl, rfl⟩
    | dAcc sz =>
      have h7 := execs_app (mov_bx_ax G s) (readA_ok hW hr G { s with bx := s.ax } .bx)
      exact ⟨_, h7, by rw [h']; rfl, fun h => (Bool.noConfusion h), rfl, rfl, rfl⟩
    | num v => exact Bool.noConfusion hc
    | id v => exact Bool.noConfusion hc
    | loc v => exact Bool.noConfusion hc
    | dId z v => exact Bool.noConfusion hc
    | dLoc z v => exact Bool.noConfusion hc

/-- storing into the left operand -/
theorem storeL_ok (hW : W = 2 ∨ W = 4) {sz : Int} (hz : okSz W sz) (G : Int → Wd W) (s : St W) (c R : Cls) (la : Wd W)
    (hb : (lc sz c).isAcc = true → s.bx = la) :
    execs G (store W sz (ltyp (rInfo W (lc sz c)) (rInfo W R), (rInfo W (lc sz c)).val)) s =
      some { s with mem := upd s.mem (opa G s.bp (lc sz c) la) sz s.ax, ax := wd W (conv sz s.ax.toNat) } := by
  cases hc : (lc sz c).isAcc with
  | false =>
    rw [ltyp_leaf hc]
    cases c with
    | id x => exact store_ok hW hz G s (.lab x)
    | loc x => exact store_ok hW hz G s (.loc x)
    | _ => exact Bool.noConfusion hc
  | true =>
    have hb := hb hc
    have e : lc sz c = .dAcc sz := lc_isAcc hc
    rw [e]
    have : store W sz (ltyp (rInfo W (.dAcc sz)) (rInfo W R), (rInfo W (.dAcc sz)).val) = p2 W .mov (.mem .bx none) (selA W sz) ++ extendA W sz := by
      cases R <;> rfl
    rw [this]
    have := store_ok hW hz G s .bx
    rw [this, ← hb]
    rfl

theorem Held.right {s : St W} {L R : Cls} {la ra : Wd W} (h : Held s L R la ra) (hr : R.isAcc = true) : ra = s.ax := by
  simp only [Held, hr, if_true] at h
  cases hl : L.isAcc
  · rw [hl] at h; exact h trivial
  · rw [hl] at h; exact h.1

theorem full_asg (hW : W = 2 ∨ W = 4) (sz : Int) (l r : E) (hz : okSz W sz) (hr : r.ok W) (pl : Full W l) (pr : Part W r) :
    Full W (.asg sz l r) := by
  obtain ⟨cl, gl, sl⟩ := pl
  obtain ⟨cr, gr, sr⟩ := pr
  have okl := lc_ok hz (cls l)
  have okr := cls_ok hr
  have hsz : -8 ≤ sz ∧ sz < 8 := by
    rcases hz with rfl | rfl | rfl | ⟨h4, rfl | rfl⟩ <;> omega
  refine ⟨lcode (lc sz (cls l)) (cls r) cl ++ rcode (cls r) cr ++
    genBin W .asg ((sz + 8) * 16 + ((rInfo W (cls r)).size + 8))
      (ltyp (rInfo W (lc sz (cls l))) (rInfo W (cls r)), (rInfo W (lc sz (cls l))).val) (rT W (cls r)) none, ?_, fun V => ?_⟩
  · refine ((gen_lpartA sz _ gl).app (gen_rpart_acc gr)).app (gen_of (by simp) fun q hq => ?_)
    rw [ltyp_l, lc_val (W := W)]
    have : (lInfo sz (cls l)).size = sz := by cases cls l <;> rfl
    rw [this]
    simp only [List.cons_append, List.nil_append, gen, genBin, rT]
  · have hl' : if (lc sz (cls l)).isAcc then SimG V cl l.depth l (fun a e' => AEnds V (lc sz (cls l)) a e') else ∀ a, AEnds V (lc sz (cls l)) a l := by
      cases hc : (lc sz (cls l)).isAcc with
      | false => exact fun a => aends_leaf V sz l a hc
      | true =>
        refine (sl V).mono (Nat.le_refl _) ?_
        rintro a e' ⟨v, rfl, rfl⟩
        exact aends_acc V _ hc v
    refine fin2 hW (f := fun l r => .asg sz l r) (hole_asgL V sz) (hole_asgR V sz) hl' (sr V) (Nat.le_refl _) ?_
    intro s m l' r' la ra hb ha ql qr hh hsafe
    have hR := size_ok hW okr
    have e1 : szL (((sz + 8) * 16 + ((rInfo W (cls r)).size + 8)) / 16 + ((sz + 8) * 16 + ((rInfo W (cls r)).size + 8)) % 16 * 16) = (rInfo W (cls r)).size := by
      rw [szL]; omega
    have e2 : ∀ v : Int, v = ((sz + 8) * 16 + ((rInfo W (cls r)).size + 8)) →
        szL ((v / 16 + v % 16 * 16) / 16 + (v / 16 + v % 16 * 16) % 16 * 16) = sz := by
      intro v hv
      have h1 : v / 16 = sz + 8 := by omega
      have h2 : v % 16 = (rInfo W (cls r)).size + 8 := by omega
      have h3 : (sz + 8 + ((rInfo W (cls r)).size + 8) * 16) / 16 = (rInfo W (cls r)).size + 8 := by omega
      have h4 : (sz + 8 + ((rInfo W (cls r)).size + 8) * 16) % 16 = sz + 8 := by omega
      rw [szL, h1, h2, h3, h4]
      omega
    simp only [genBin, e1, e2 _ rfl]
    obtain ⟨x, hx1, hx2⟩ := ql m ((hole_asgL V sz r').safe hsafe)
    have st1 := (hole_asgL V sz r').steps hx1
    obtain ⟨ar, y, hy1, hy2⟩ := qr m ((hole_asgR V sz (.num x)).safe (hsafe.steps st1))
    have st2 := st1.trans ((hole_asgR V sz (.num x)).steps hy1)
    have hs2 := hsafe.steps st2
    have hacc : Acc V.A (wd W x) sz := Classical.byContradiction fun hn => hs2 _ _ (.refl _ _) (.asg _ _ _ _ hn)
    -- the machine up to the store
    have key : ∃ t, execs V.G ((if ltyp (rInfo W (lc sz (cls l))) (rInfo W (cls r)) = .opIAcc then p2 W .mov .bx .ax else []) ++
          loadA W (rInfo W (cls r)).size (rT W (cls r)) ++
          (if ltyp (rInfo W (lc sz (cls l))) (rInfo W (cls r)) = .opIStk then [.i1 .pop .bx] else [])) s = some t ∧
        t.ax = opv V.G s.bp s.mem (cls r) ra ∧ ((lc sz (cls l)).isAcc = true → t.bx = la) ∧
        t.sp = (if (lc sz (cls l)).isAcc && (cls r).isAcc then s.sp + BitVec.ofNat _ W else s.sp) ∧ t.bp = s.bp ∧ t.mem = s.mem := by
      cases hc : (lc sz (cls l)).isAcc with
      | false =>
        rw [ltyp_leaf hc]
        have n1 : (rInfo W (lc sz (cls l))).typ ≠ .opIAcc := by cases h : cls l <;> rw [h] at hc <;> first | (exact Bool.noConfusion hc) | (simp [lc, rInfo])
        have n2 : (rInfo W (lc sz (cls l))).typ ≠ .opIStk := by cases h : cls l <;> simp [lc, rInfo]
        rw [if_neg n1, if_neg n2]
        simp only [List.nil_append, List.append_nil]
        obtain ⟨t, h1, h2, h3, h4, h5, h6⟩ := loadR_ok hW V.G s (cls r) ra okr (fun h => hh.right h)
        exact ⟨t, h1, h2, fun h => (Bool.noConfusion h), h4, h5, h6⟩
      | true =>
        have e : lc sz (cls l) = .dAcc sz := lc_isAcc hc
        cases hcr : (cls r).isAcc with
        | false =>
          have : ltyp (rInfo W (lc sz (cls l))) (rInfo W (cls r)) = .opIAcc := by
            rw [e]; cases h : cls r <;> rw [h] at hcr <;> first | rfl | exact Bool.noConfusion hcr
          rw [this, if_pos rfl, if_neg (by simp)]
          simp only [Held, hc, hcr, if_true, Bool.false_eq_true, if_false] at hh
          obtain ⟨t, h1, h2, h3, h4, h5, h6⟩ := loadR_ok hW V.G { s with bx := s.ax } (cls r) ra okr (fun h => by rw [hcr] at h; cases h)
          refine ⟨t, ?_, h2, fun _ => (h3 hcr).trans hh.symm, h4, h5, h6⟩
          rw [List.append_nil]
          exact execs_app (mov_bx_ax V.G s) h1
        | true =>
          have : ltyp (rInfo W (lc sz (cls l))) (rInfo W (cls r)) = .opIStk := by
            rw [e]; cases h : cls r <;> rw [h] at hcr <;> first | rfl | exact Bool.noConfusion hcr
          rw [this, if_neg (by simp), if_pos rfl]
          simp only [Held, hc, hcr, if_true] at hh
          obtain ⟨t, h1, h2, h3, h4, h5, h6⟩ := loadR_ok hW V.G s (cls r) ra okr (fun _ => hh.1)
          refine ⟨_, execs_app (by rw [List.nil_append]; exact h1) ((execs_one _ _ _).trans (pop_bx V.G t)), h2, fun _ => ?_, ?_, h5, h6⟩
          · show BitVec.ofNat (8 * W) (ld t.mem t.sp W) = la
            rw [h4, h6, hh.2]; simp
          · show t.sp + _ = _
            rw [h4]; rfl
    obtain ⟨t, h1, h2, h3, h4, h5, h6⟩ := key
    have hst := storeL_ok hW hz V.G t (cls l) (cls r) la h3
    have hax : t.ax = wd W y := by rw [h2, hy2, hb, agree_opv ha ar]
    have hadr : opa V.G t.bp (lc sz (cls l)) la = wd W x := by rw [h5, hb, hx2]
    rw [hadr, hax, h6] at hst
    refine ⟨_, _, _, execs_app h1 hst, st2.trans (.one (.asg sz x y m hacc)), ⟨_, rfl, ?_⟩, h4, h5, ?_, ?_⟩
    · exact congrArg (wd W) (conv_wd (natAbs_le hW hz) y)
    · exact agree_upd ha _ _ _
    · intro a hA
      exact upd_frame hacc a hA

theorem full_asgo (hW : W = 2 ∨ W = 4) (o : Ar) (sz : Int) (l r : E) (hz : okSz W sz) (hr : r.ok W) (pl : Full W l) (pr : Part W r) :
    Full W (.asgo o sz l r) := by
  obtain ⟨cl, gl, sl⟩ := pl
  obtain ⟨cr, gr, sr⟩ := pr
  have okl := lc_ok hz (cls l)
  have okr := cls_ok hr
  refine ⟨lcode (lc sz (cls l)) (cls r) cl ++ rcode (cls r) cr ++
    genBin W (.asgo o) ((sz + 8) * 16 + ((rInfo W (cls r)).size + 8))
      (ltyp (rInfo W (lc sz (cls l))) (rInfo W (cls r)), (rInfo W (lc sz (cls l))).val) (rT W (cls r)) none, ?_, fun V => ?_⟩
  · refine ((gen_lpartA sz _ gl).app (gen_rpart_acc gr)).app (gen_of (by simp) fun q hq => ?_)
    rw [ltyp_l, lc_val (W := W)]
    have : (lInfo sz (cls l)).size = sz := by cases cls l <;> rfl
    rw [this]
    simp only [List.cons_append, List.nil_append, gen, genBin, rT]
  · have hl' : if (lc sz (cls l)).isAcc then SimG V cl l.depth l (fun a e' => AEnds V (lc sz (cls l)) a e') else ∀ a, AEnds V (lc sz (cls l)) a l := by
      cases hc : (lc sz (cls l)).isAcc with
      | false => exact fun a => aends_leaf V sz l a hc
      | true =>
        refine (sl V).mono (Nat.le_refl _) ?_
        rintro a e' ⟨v, rfl, rfl⟩
        exact aends_acc V _ hc v
    refine fin2 hW (f := fun l r => .asgo o sz l r) (hole_asgoL V o sz) (hole_asgoR V o sz) hl' (sr V) (Nat.le_refl _) ?_
    intro s m l' r' la ra hb ha ql qr hh hsafe
    simp only [genBin, szL_enc (size_ok hW okr), szR_enc (size_ok hW okr)]
    have esz : (rInfo W (lc sz (cls l))).size = sz := by cases cls l <;> rfl
    obtain ⟨t, h1, h2, h3, h3', h4, h5, h6⟩ := load_ok hW V.G s (lc sz (cls l)) (cls r) la ra okl okr hh
    rw [esz] at h1
    obtain ⟨x, hx1, hx2⟩ := ql m ((hole_asgoL V o sz r').safe hsafe)
    have st1 := ((hole_asgoL V o sz r').steps hx1).trans (.one (.asgo o sz x r' m))
    -- the right operand, then the old value
    have hq := (hole_asgR V sz (.num x)).comp (hole_binR V o (.deref sz (.num x)))
    obtain ⟨ar, y, hy1, hy2⟩ := qr m (hq.safe (hsafe.steps st1))
    have st2 := st1.trans (hq.steps hy1)
    have hq' := ((hole_asgR V sz (.num x)).comp (hole_binL V o (.num y)))
    have hs2 := hsafe.steps st2
    have hacc : Acc V.A (wd W x) sz := acc_of_safe (hq'.safe hs2)
    have st3 := st2.trans (.one (hq'.step (.deref sz x m hacc)))
    have hs3 := hsafe.steps st3
    cases hv : arith o (wd W (val m (wd W x) sz)) (wd W y) with
    | none => exact absurd (Ub.bin o _ y m hv) ((hole_asgR V sz (.num x)).safe hs3 _ _ (.refl _ _))
    | some z =>
      have st4 := st3.trans (.one ((hole_asgR V sz (.num x)).step (.bin m hv)))
      have hopv : ∀ M : Mem W, opv V.G V.bp M (lc sz (cls l)) la = wd W (val M (opa V.G V.bp (lc sz (cls l)) la) sz) := by
        intro M; cases cls l <;> rfl
      have hax : t.ax = wd W (val m (wd W x) sz) := by
        rw [h2, hb, hopv, ← hx2, agree_val ha hacc]
      obtain ⟨u, g1, g2, g3⟩ := oper_ok hW (G := V.G) (s := t) (c := cls r) (a := ra) (y := wd W y) (o := o) (z := z) okr
        (by rw [hy2, h5, h6, hb, agree_opv ha ar]) (fun hc => by rw [h3 hc, hy2, hb, agree_opv ha ar]) (by rw [hax]; exact hv)
      have hst := storeL_ok hW hz V.G u (cls l) (cls r) la (fun hc => g3.bx.trans (h3' sz (lc_isAcc hc)))
      have hadr : opa V.G u.bp (lc sz (cls l)) la = wd W x := by rw [g3.bp, h5, hb, hx2]
      rw [hadr, g2, g3.mem, h6] at hst
      refine ⟨_, _, _, execs_app (execs_app h1 g1) hst, st4.trans (.one (.asg sz x z m hacc)), ⟨_, rfl, ?_⟩, g3.sp.trans h4, g3.bp.trans h5, ?_, ?_⟩
      · exact congrArg (wd W) (conv_wd (natAbs_le hW hz) z)
      · exact agree_upd ha _ _ _
      · intro a hA
        exact upd_frame hacc a hA

end Smlr.Cg
