import Verif.Mips.Gen
set_option autoImplicit false
/-! Code of leaves, of accesses to objects, and of operators with one operand. -/
namespace Smlr.Mips
open Smlr.Cg (Wd Mem ld st sext wd Env Ar Cc conv val upd arith rel unary okSz b2i E Steps Step Safe Agree Frame StkOk Hole Zone Un IncK Acc)

/-- The tokens of an expression become code that evaluates it. -/
def Full (e : E) : Prop := ∀ t, ∃ c, GenTo (pt e) t (!isVoid e) t c ∧ ∀ V, Sim V t c (dep t (temps e)) e

theorem wreg_ne0 (t : Nat) : wreg t ≠ 0 := by have := wreg_rng t; omega
theorem wreg_ne1 (t : Nat) : wreg t ≠ 1 := by have := wreg_rng t; omega
theorem wreg_ne24 (t : Nat) : wreg t ≠ 24 := by have := wreg_rng t; omega
theorem wreg_ne25 (t : Nat) : wreg t ≠ 25 := by have := wreg_rng t; omega
theorem wreg_ne30 (t : Nat) : wreg t ≠ 30 := by have := wreg_rng t; omega

theorem Only.chg {t : Nat} {w : List Nat} {s s' : St} (h : Only w s s') (hw : ∀ k ∈ w, k ∈ [wreg t, 1, 24, 25]) : Chg t s s' := h.mono hw

theorem full_num (n : Int) : Full (.num n) := by
  intro t
  refine ⟨_, genTo_num n t, fun V => Sim.leaf ?_ _⟩
  intro s m hb ha hsafe
  exact ⟨_, _, _, rfl, .refl _ _, set_r_same _ _ _, (only_set s (wreg t) _).chg (by simp), ha, fun _ _ => rfl⟩

theorem full_glob (x : Int) : Full (.glob x) := by
  intro t
  refine ⟨_, genTo_glob x t, fun V => Sim.leaf ?_ _⟩
  intro s m hb ha hsafe
  refine ⟨_, _, _, rfl, .one (.glob x m), ?_, (only_set s (wreg t) _).chg (by simp), ha, fun _ _ => rfl⟩
  rw [Cg.wd_toInt]; exact set_r_same _ _ _

theorem full_loc (x : Int) : Full (.loc x) := by
  intro t
  refine ⟨_, genTo_loc x t, fun V => Sim.leaf ?_ _⟩
  intro s m hb ha hsafe
  obtain ⟨s', h1, h2, h3, h4⟩ := p3_ok V.G s .addu (d := wreg t) (a := FP) (fun _ => wreg_ne0 t) (.imm x)
  refine ⟨s', _, _, h1, .one (.loc x m), ?_, h4.chg (by simp), by rw [h3]; exact ha, fun a _ => by rw [h3]⟩
  rw [Cg.wd_toInt, h2, ← hb]; rfl

/-! ### objects -/

/-- the register that an object is reached by is another one -/
def Obj.free (w : List Nat) : Obj → Prop
  | .ident _ => True
  | .locl _ => 30 ∉ w
  | .reg r => r ∉ w

theorem oaddr_only {G : Int → Wd 4} {w : List Nat} {s s' : St} (h : Only w s s') {o : Obj} (ho : o.free w) : oaddr G s' o = oaddr G s o := by
  cases o with
  | ident x => rfl
  | locl x => show s'.r 30 + _ = _; rw [h 30 ho]; rfl
  | reg r => simp only [oaddr, St.get]; rw [h r ho]

theorem add_wd (x : Wd 4) (v k : Int) (h : x = wd 4 v) (dec : Bool) :
    alu (if dec then .subu else .addu) x (wd 4 k) = wd 4 (v + if dec then -k else k) := by
  subst h
  cases dec
  · show wd 4 v + wd 4 k = wd 4 (v + k)
    rw [wd, wd, wd, BitVec.ofInt_add]
  · show wd 4 v - wd 4 k = wd 4 (v + -k)
    rw [wd, wd, wd, BitVec.ofInt_add, BitVec.ofInt_neg, BitVec.sub_eq_add_neg]

theorem natAbs4 {sz : Int} (hz : okSz 4 sz) : sz.natAbs ≤ 4 := Cg.natAbs_le (Or.inr rfl) hz

theorem conv_val {sz : Int} (m : Mem 4) (a : Wd 4) (hz : okSz 4 sz) : conv sz (val m a sz) = val m a sz := by
  have h := Cg.conv_mod sz (ld m a sz.natAbs)
  simp only [val]
  generalize hx : conv sz (ld m a sz.natAbs : Int) = y at h
  rw [← hx]
  have e : conv sz y = conv sz (ld m a sz.natAbs : Int) := by
    simp only [conv]
    split
    · simpa using h
    · exact Cg.bmod_congr h
  rw [hx, e, hx]

theorem incDec_ok (G : Int → Wd 4) (s : St) {sz : Int} (hz : okSz 4 sz) {d : Nat} (hd : d ≠ 1) (hd0 : d ≠ 0) {o : Obj} (ho : o.free [d, 1]) (dec : Bool) :
    ∃ s', execs G (incDec d sz o dec) s = some s' ∧ s'.r d = wd 4 (conv sz (val s.mem (oaddr G s o) sz + if dec then -1 else 1)) ∧
      s'.mem = upd s.mem (oaddr G s o) sz (wd 4 (val s.mem (oaddr G s o) sz + if dec then -1 else 1)) ∧ Only [d, 1] s s' := by
  obtain ⟨s1, a1, a2, a3, a4⟩ := rd_ok G s hz hd o
  obtain ⟨s2, b1, b2, b3, b4⟩ := p3_ok G s1 (if dec then .subu else .addu) (d := d) (a := d) (fun _ => hd0) (.imm 1)
  rw [get_pos hd0, show opd s1 (.imm 1) = wd 4 1 from rfl, add_wd _ _ _ a2] at b2
  have c12 : Only [d, 1] s s2 := a4.trans (b4.mono (by simp))
  obtain ⟨s3, c1, c2, c3⟩ := wr_ok G s2 hz hd o
  rw [oaddr_only c12 ho, get_pos hd0, b2, b3, a3] at c2
  obtain ⟨s4, d1, d2, d3, d4⟩ := extend_ok G s3 hz hd0
  refine ⟨s4, execs_app (execs_app (execs_app a1 b1) c1) d1, ?_, by rw [d3, c2], (c12.trans (c3.mono (by simp))).trans (d4.mono (by simp))⟩
  rw [d2, c3 d (by simpa using hd), b2, Cg.conv_wd (natAbs4 hz)]

theorem postIncDec_ok (G : Int → Wd 4) (s : St) {sz : Int} (hz : okSz 4 sz) {d : Nat} (hd : d ≠ 1) (hd0 : d ≠ 0) {o : Obj} (ho : o.free [d, 1]) (dec : Bool) :
    ∃ s', execs G (postIncDec d sz o dec) s = some s' ∧ s'.r d = wd 4 (val s.mem (oaddr G s o) sz) ∧
      s'.mem = upd s.mem (oaddr G s o) sz (wd 4 (val s.mem (oaddr G s o) sz + if dec then -1 else 1)) ∧ Only [d, 1] s s' := by
  obtain ⟨s1, a1, a2, a3, a4⟩ := rd_ok G s hz hd o
  obtain ⟨s2, b1, b2, b3, b4⟩ := p3_ok G s1 (if dec then .subu else .addu) (d := d) (a := d) (fun _ => hd0) (.imm 1)
  rw [get_pos hd0, show opd s1 (.imm 1) = wd 4 1 from rfl, add_wd _ _ _ a2] at b2
  have c12 : Only [d, 1] s s2 := a4.trans (b4.mono (by simp))
  obtain ⟨s3, c1, c2, c3⟩ := wr_ok G s2 hz hd o
  rw [oaddr_only c12 ho, get_pos hd0, b2, b3, a3] at c2
  obtain ⟨s4, d1, d2, d3, d4⟩ := p3_ok G s3 (if dec then .subu else .addu) (d := d) (a := d) (fun _ => hd0) (.imm (-1))
  rw [get_pos hd0, show opd s3 (.imm (-1)) = wd 4 (-1) from rfl, add_wd _ _ _ ((c3 d (by simpa using hd)).trans b2)] at d2
  have hk : val s.mem (oaddr G s o) sz + (if dec = true then -1 else 1) + (if dec = true then - -1 else -1) = val s.mem (oaddr G s o) sz := by
    cases dec <;> simp <;> omega
  rw [hk] at d2
  obtain ⟨s5, e1, e2, e3, e4⟩ := extend_ok G s4 hz hd0
  refine ⟨s5, execs_app (execs_app (execs_app (execs_app a1 b1) c1) d1) e1, ?_, by rw [e3, d3, c2],
    ((c12.trans (c3.mono (by simp))).trans (d4.mono (by simp))).trans (e4.mono (by simp))⟩
  rw [e2, d2, Cg.conv_wd (natAbs4 hz), conv_val _ _ hz]

/-! ### accesses -/

theorem last_reg {e : E} (h : isObj e = false) (r : Nat) : objOf (lastT (pt e)) r = .reg r := by
  obtain ⟨a, ⟨k, v⟩, h1, h2, h3⟩ := last_not_obj h
  rw [h1, lastT_snoc]
  unfold objOf
  split
  · next he => cases he; exact absurd rfl h2
  · next he => cases he; exact absurd rfl h3
  · rfl

theorem last_rev (e : E) : revOf (lastT (pt e)) = none := by
  rcases pt_last e with ⟨n, rfl⟩ | ⟨x, rfl⟩ | ⟨x, rfl⟩ | ⟨a, ⟨k, v⟩, h1, h2⟩
  · rfl
  · rfl
  · rfl
  · rw [h1, lastT_snoc]
    cases k <;> first | rfl | exact absurd rfl h2.2.2.2.1 | exact absurd rfl h2.2.2.2.2

/-- a token that takes no number and no object in place -/
theorem nx_any {p : T} {k : Cg.Tok} {v : Int} (h1 : k ≠ .ifT) (h2 : k ≠ .ifN) (h3 : immOp k = false) (h4 : objOp k = false) : nx p [(.t k, v)] := by
  intro x hx
  cases hx
  exact ⟨⟨fun h => h1 (by cases h; rfl), fun h => h2 (by cases h; rfl)⟩, fun _ => h3, fun _ => h4⟩

theorem nx_obj {e : E} (h : isObj e = false) {k : Cg.Tok} {v : Int} (h1 : k ≠ .ifT) (h2 : k ≠ .ifN) (h3 : immOp k = false) : nx (lastT (pt e)) [(.t k, v)] := by
  obtain ⟨a, y, e1, e2, e3⟩ := last_not_obj h
  rw [e1, lastT_snoc]
  intro x hx
  cases hx
  exact ⟨⟨fun h => h1 (by cases h; rfl), fun h => h2 (by cases h; rfl)⟩, fun _ => h3, fun h => absurd h (by rintro (h | h); exacts [e2 h, e3 h])⟩

theorem isObj_cases (e : E) : (∃ x, e = .glob x) ∨ (∃ x, e = .loc x) ∨ isObj e = false := by
  cases e <;> first | exact Or.inl ⟨_, rfl⟩ | exact Or.inr (Or.inl ⟨_, rfl⟩) | exact Or.inr (Or.inr rfl)

/-- an operator on the object at an address: code that is right for the object in all places -/
theorem full_object {k : Cg.Tok} {sz : Int} {e : E} {f : E → E} (hk : objOp k = true) (k1 : k ≠ .ifT) (k2 : k ≠ .ifN) (k3 : immOp k = false)
    (he : Full e) (hv : isVoid e = false) (hf : ∀ V : Env 4, Hole V f) (hpt : pt (f e) = pt e ++ [(.t k, sz)]) (hfv : isVoid (f e) = false) (hft : temps (f e) = temps e)
    (code : Nat → T → List Ins) (hs : ∀ t p m, step ⟨true, t, wreg t⟩ p m (.t k, sz) = some (code t p, ⟨true, t, wreg t⟩, false))
    (hc : ∀ (V : Env 4) (t : Nat) (p : T) (s : St) (m : Mem 4) (a : Int), s.fp = V.bp → Agree V.A s.mem m → oaddr V.G s (objOf p (wreg t)) = wd 4 a → Safe V (f (.num a)) m →
      ∃ s' w m', execs V.G (code t p) s = some s' ∧ Steps V (f (.num a)) m (.num w) m' ∧ s'.r (wreg t) = wd 4 w ∧ Chg t s s' ∧ Agree V.A s'.mem m' ∧
        ∀ a, ¬ V.A a → s'.mem a = s.mem a) : Full (f e) := by
  intro t
  rw [hpt, hfv, hft]
  rcases isObj_cases e with ⟨x, rfl⟩ | ⟨x, rfl⟩ | ho
  · refine ⟨_, GenTo.obj (Or.inl rfl) hk (fun m _ => hs t _ m), fun V => Sim.leaf ?_ _⟩
    intro s m hb ha hsafe
    have st := (hf V).steps (.one (.glob x m))
    obtain ⟨s', w, m', g1, g2, g3⟩ := hc V t (.t .ident, x) s m _ hb ha (by rw [Cg.wd_toInt]; rfl) (hsafe.steps st)
    exact ⟨s', w, m', g1, st.trans g2, g3⟩
  · refine ⟨_, GenTo.obj (Or.inr rfl) hk (fun m _ => hs t _ m), fun V => Sim.leaf ?_ _⟩
    intro s m hb ha hsafe
    have st := (hf V).steps (.one (.loc x m))
    obtain ⟨s', w, m', g1, g2, g3⟩ := hc V t (.t .locl, x) s m _ hb ha (by rw [Cg.wd_toInt, ← hb]; rfl) (hsafe.steps st)
    exact ⟨s', w, m', g1, st.trans g2, g3⟩
  · obtain ⟨c, g, sm⟩ := he t
    rw [hv] at g
    refine ⟨_, g.snoc (nx_obj ho k1 k2 k3) (fun m _ => hs t _ m), fun V => (sm V).then (hf V) ?_⟩
    intro s m v hb ha hr hsafe
    exact hc V t _ s m v hb ha (by rw [last_reg ho]; show s.get _ = _; rw [get_wreg, hr]) hsafe

theorem obj_free (p : T) (w : Nat) (hw : w ≠ 30) (hw1 : w ≠ 1) : (∃ r, objOf p w = .reg r ∧ r = w) ∨ (objOf p w).free [w, 1] ∧ ∀ s : St, ∀ x, ∀ G, oaddr G (s.set TA x) (objOf p w) = oaddr G s (objOf p w) := by
  unfold objOf
  split
  · exact Or.inr ⟨trivial, fun _ _ _ => rfl⟩
  · refine Or.inr ⟨by simp [Obj.free]; omega, fun s x G => ?_⟩
    show (s.set TA x).r 30 + _ = _
    rw [set_r_ne _ _ (by decide)]; rfl
  · exact Or.inl ⟨w, rfl, rfl⟩

theorem full_deref (sz : Int) (e : E) (hz : okSz 4 sz) (hv : isVoid e = false) (he : Full e) : Full (.deref sz e) := by
  refine full_object (k := .star) rfl (by simp) (by simp) rfl he hv (fun V => Cg.hole_deref V sz) rfl rfl rfl
    (fun t p => rd (wreg t) sz (objOf p (wreg t))) (fun t p m => rfl) ?_
  intro V t p s m a hb ha hadr hsafe
  obtain ⟨s', h1, h2, h3, h4⟩ := rd_ok V.G s hz (wreg_ne1 t) (objOf p (wreg t))
  have hacc := Cg.acc_of_safe hsafe
  rw [hadr, Cg.agree_val ha hacc] at h2
  exact ⟨s', _, _, h1, .one (.deref sz a m hacc), h2, h4.chg (by simp), by rw [h3]; exact ha, fun a _ => by rw [h3]⟩

/-- `incOf`: the address in a register is moved out of the way -/
theorem incOf_ok (G : Int → Wd 4) (s : St) (t : Nat) (p : T) {code : Obj → List Ins} {a : Wd 4} {mm : Mem 4} {Q : St → Prop} (hadr : oaddr G s (objOf p (wreg t)) = a)
    (h : ∀ s : St, ∀ o : Obj, o.free [wreg t, 1] → oaddr G s o = a → s.mem = mm → ∃ s' : St, execs G (code o) s = some s' ∧ Q s' ∧ Only [wreg t, 1] s s')
    (hm : s.mem = mm) : ∃ s', execs G (incOf p (wreg t) code) s = some s' ∧ Q s' ∧ Chg t s s' := by
  have hn := wreg_ne30 t
  unfold incOf
  rcases obj_free p (wreg t) (wreg_ne30 t) (wreg_ne1 t) with ⟨r, h1, rfl⟩ | ⟨h1, _⟩
  · rw [h1] at hadr ⊢
    have hf : Obj.free [wreg t, 1] (.reg TA) := by
      have := wreg_ne24 t
      simp only [Obj.free, List.mem_cons, List.not_mem_nil, or_false]
      show ¬ (24 = _ ∨ 24 = 1)
      omega
    obtain ⟨s', g1, g2, g3⟩ := h (s.set TA (s.get (wreg t))) (.reg TA) hf (by show St.get _ TA = _; rw [get_pos (by decide), set_r_same]; exact hadr) hm
    refine ⟨s', ?_, g2, ?_⟩
    · show execs G ([.move TA (wreg t)] ++ code (.reg TA)) s = _
      exact execs_app rfl g1
    · exact ((only_set s TA _).mono (by simp)).trans (g3.mono (by simp))
  · obtain ⟨s', g1, g2, g3⟩ := h s _ h1 hadr hm
    refine ⟨s', ?_, g2, g3.chg (by simp)⟩
    cases ho : objOf p (wreg t) with
    | reg r =>
      exfalso
      unfold objOf at ho h1
      split at ho
      · cases ho
      · cases ho
      · simp [Obj.free] at h1
    | ident x => rw [ho] at g1; exact g1
    | locl x => rw [ho] at g1; exact g1

theorem full_inc (k : IncK) (sz : Int) (e : E) (hz : okSz 4 sz) (hv : isVoid e = false) (he : Full e) : Full (.inc k sz e) := by
  have pre : ∀ (dec : Bool) (V : Env 4) (t : Nat) (p : T) (s : St) (m : Mem 4) (a : Int), s.fp = V.bp → Agree V.A s.mem m →
      oaddr V.G s (objOf p (wreg t)) = wd 4 a → Safe V (.inc (if dec then .dec else .inc) sz (.num a)) m →
      ∃ s' w m', execs V.G (incOf p (wreg t) (incDec (wreg t) sz · dec)) s = some s' ∧
        Steps V (.inc (if dec then .dec else .inc) sz (.num a)) m (.num w) m' ∧ s'.r (wreg t) = wd 4 w ∧ Chg t s s' ∧ Agree V.A s'.mem m' ∧
        ∀ a, ¬ V.A a → s'.mem a = s.mem a := by
    intro dec V t p s m a hb ha hadr hsafe
    have hacc := Cg.acc_inc hsafe
    obtain ⟨z, hz1, hz2⟩ := Cg.pre_steps (Or.inr rfl) (V := V) (dec := dec) (m := m) hz hacc
    obtain ⟨s', h1, ⟨h2, h3⟩, h4⟩ := incOf_ok V.G s t p (code := (incDec (wreg t) sz · dec)) (mm := s.mem)
      (Q := fun s' => s'.r (wreg t) = wd 4 (conv sz (val s.mem (wd 4 a) sz + if dec then -1 else 1)) ∧
        s'.mem = upd s.mem (wd 4 a) sz (wd 4 (val s.mem (wd 4 a) sz + if dec then -1 else 1))) hadr
      (by
        intro s1 o ho h1 h2
        obtain ⟨s2, g1, g2, g3, g4⟩ := incDec_ok V.G s1 hz (wreg_ne1 t) (wreg_ne0 t) ho dec
        rw [h1, h2] at g2 g3
        exact ⟨s2, g1, ⟨g2, g3⟩, g4⟩) rfl
    rw [Cg.agree_val ha hacc] at h2 h3
    refine ⟨s', _, _, h1, hz1, by rw [h2, hz2], h4, by rw [h3]; exact Cg.agree_upd ha _ _ _, fun b hb => by rw [h3]; exact Cg.upd_frame hacc b hb⟩
  have post : ∀ (dec : Bool) (V : Env 4) (t : Nat) (p : T) (s : St) (m : Mem 4) (a : Int), s.fp = V.bp → Agree V.A s.mem m →
      oaddr V.G s (objOf p (wreg t)) = wd 4 a → Safe V (.inc (if dec then .pdec else .pinc) sz (.num a)) m →
      ∃ s' w m', execs V.G (incOf p (wreg t) (postIncDec (wreg t) sz · dec)) s = some s' ∧
        Steps V (.inc (if dec then .pdec else .pinc) sz (.num a)) m (.num w) m' ∧ s'.r (wreg t) = wd 4 w ∧ Chg t s s' ∧ Agree V.A s'.mem m' ∧
        ∀ a, ¬ V.A a → s'.mem a = s.mem a := by
    intro dec V t p s m a hb ha hadr hsafe
    have hacc := Cg.acc_inc hsafe
    have hst := Cg.post_steps (V := V) (dec := dec) (m := m) hacc
    obtain ⟨s', h1, ⟨h2, h3⟩, h4⟩ := incOf_ok V.G s t p (code := (postIncDec (wreg t) sz · dec)) (mm := s.mem)
      (Q := fun s' => s'.r (wreg t) = wd 4 (val s.mem (wd 4 a) sz) ∧
        s'.mem = upd s.mem (wd 4 a) sz (wd 4 (val s.mem (wd 4 a) sz + if dec then -1 else 1))) hadr
      (by
        intro s1 o ho h1 h2
        obtain ⟨s2, g1, g2, g3, g4⟩ := postIncDec_ok V.G s1 hz (wreg_ne1 t) (wreg_ne0 t) ho dec
        rw [h1, h2] at g2 g3
        exact ⟨s2, g1, ⟨g2, g3⟩, g4⟩) rfl
    rw [Cg.agree_val ha hacc] at h2 h3
    exact ⟨s', _, _, h1, hst, h2, h4, by rw [h3]; exact Cg.agree_upd ha _ _ _, fun b hb => by rw [h3]; exact Cg.upd_frame hacc b hb⟩
  cases k
  · exact full_object (k := .inc) (f := .inc .inc sz) rfl (by simp) (by simp) rfl he hv (fun V => Cg.hole_inc V _ sz) rfl rfl rfl _ (fun t p m => rfl) (pre false)
  · exact full_object (k := .dec) (f := .inc .dec sz) rfl (by simp) (by simp) rfl he hv (fun V => Cg.hole_inc V _ sz) rfl rfl rfl _ (fun t p m => rfl) (pre true)
  · exact full_object (k := .pinc) (f := .inc .pinc sz) rfl (by simp) (by simp) rfl he hv (fun V => Cg.hole_inc V _ sz) rfl rfl rfl _ (fun t p m => rfl) (post false)
  · exact full_object (k := .pdec) (f := .inc .pdec sz) rfl (by simp) (by simp) rfl he hv (fun V => Cg.hole_inc V _ sz) rfl rfl rfl _ (fun t p m => rfl) (post true)

/-! ### unary operators -/

theorem full_un (u : Un) (e : E) (hv : u ≠ .void → isVoid e = false) (he : Full e) : Full (.un u e) := by
  intro t
  obtain ⟨c, g, sm⟩ := he t
  have w0 := wreg_ne0 t
  -- code that changes only the working register
  have key : ∀ (c' : List Ins), (∀ (G : Int → Wd 4) (s : St), ∃ s', execs G c' s = some s' ∧ s'.r (wreg t) = wd 4 (unary u (s.r (wreg t))) ∧ s'.mem = s.mem ∧ Only [wreg t] s s') →
      ∀ V, Sim V t (c ++ c') (dep t (temps (.un u e))) (.un u e) := by
    intro c' h V
    refine (sm V).then (Cg.hole_un V u) ?_
    intro s m v hb ha hr hsafe
    obtain ⟨s', h1, h2, h3, h4⟩ := h V.G s
    exact ⟨s', _, _, h1, .one (.un u v m), by rw [h2, hr], h4.chg (by simp), by rw [h3]; exact ha, fun a _ => by rw [h3]⟩
  have ext : ∀ sz : Int, okSz 4 sz → (∀ x : Wd 4, unary u x = conv sz x.toInt) → ∀ (G : Int → Wd 4) (s : St), ∃ s', execs G (extend (wreg t) sz) s = some s' ∧
      s'.r (wreg t) = wd 4 (unary u (s.r (wreg t))) ∧ s'.mem = s.mem ∧ Only [wreg t] s s' := by
    intro sz hz hu G s
    obtain ⟨s', h1, h2, h3, h4⟩ := extend_ok G s hz w0
    exact ⟨s', h1, by rw [h2, hu, Cg.conv_toInt sz (natAbs4 hz)], h3, h4⟩
  have alu3 : ∀ (i : Alu) (a : Nat) (o : Opd), (∀ s : St, alu i (s.get a) (opd s o) = wd 4 (unary u (s.r (wreg t)))) → ∀ (G : Int → Wd 4) (s : St),
      ∃ s', execs G (p3 i (wreg t) a o) s = some s' ∧ s'.r (wreg t) = wd 4 (unary u (s.r (wreg t))) ∧ s'.mem = s.mem ∧ Only [wreg t] s s' := by
    intro i a o h G s
    obtain ⟨s', h1, h2, h3, h4⟩ := p3_ok G s i (d := wreg t) (a := a) (fun _ => w0) o
    exact ⟨s', h1, by rw [h2, h], h3, h4⟩
  cases u with
  | void =>
    refine ⟨c ++ [], g.snoc (nx_any (by simp [Un.tok]) (by simp [Un.tok]) rfl rfl) (fun m _ => rfl), key [] fun G s => ⟨s, rfl, (Cg.wd_toInt _).symm, rfl, .refl _ _⟩⟩
  | plus =>
    rw [hv (by simp)] at g
    refine ⟨c ++ [], g.snoc (nx_any (by simp [Un.tok]) (by simp [Un.tok]) rfl rfl) (fun m _ => rfl), key [] fun G s => ⟨s, rfl, (Cg.wd_toInt _).symm, rfl, .refl _ _⟩⟩
  | not =>
    rw [hv (by simp)] at g
    refine ⟨_, g.snoc (nx_any (by simp [Un.tok]) (by simp [Un.tok]) rfl rfl) (fun m _ => rfl), key _ (alu3 _ _ _ fun s => ?_)⟩
    show ~~~ (s.get (wreg t) ||| s.get (wreg t)) = wd 4 (-(s.r (wreg t)).toInt - 1)
    rw [get_wreg, BitVec.or_self, wd, Int.sub_eq_add_neg, BitVec.ofInt_add, BitVec.ofInt_neg, BitVec.ofInt_toInt]
    have := BitVec.neg_eq_not_add (s.r (wreg t))
    rw [this]
    show _ = ~~~ (s.r (wreg t)) + 1#(8 * 4) + BitVec.ofInt _ (-1)
    rw [BitVec.add_assoc]
    have : (1#(8 * 4)) + BitVec.ofInt (8 * 4) (-1) = 0#(8 * 4) := by decide
    rw [this, BitVec.add_zero]
  | neg =>
    rw [hv (by simp)] at g
    refine ⟨_, g.snoc (nx_any (by simp [Un.tok]) (by simp [Un.tok]) rfl rfl) (fun m _ => rfl), key _ (alu3 _ _ _ fun s => ?_)⟩
    show 0 - s.get (wreg t) = wd 4 (-(s.r (wreg t)).toInt)
    rw [get_wreg, wd, BitVec.ofInt_neg, BitVec.ofInt_toInt]
    exact BitVec.zero_sub _
  | bool =>
    rw [hv (by simp)] at g
    refine ⟨_, g.snoc (nx_any (by simp [Un.tok]) (by simp [Un.tok]) rfl rfl) (fun m _ => rfl), key _ (alu3 _ _ _ fun s => ?_)⟩
    show bit (decide ((0 : Wd 4).toNat < (s.get (wreg t)).toNat)) = wd 4 (b2i (decide ((s.r (wreg t)).toNat ≠ 0)))
    rw [get_wreg, zn0]
    by_cases h : (s.r (wreg t)).toNat = 0
    · rw [decide_eq_false (by omega), decide_eq_false (by omega)]; rfl
    · rw [decide_eq_true (by omega), decide_eq_true h]; rfl
  | uchar =>
    rw [hv (by simp)] at g
    exact ⟨_, g.snoc (nx_any (by simp [Un.tok]) (by simp [Un.tok]) rfl rfl) (fun m _ => rfl), key (extend (wreg t) 1) (ext 1 (by simp [okSz]) fun _ => rfl)⟩
  | schar =>
    rw [hv (by simp)] at g
    exact ⟨_, g.snoc (nx_any (by simp [Un.tok]) (by simp [Un.tok]) rfl rfl) (fun m _ => rfl), key (extend (wreg t) (-1)) (ext (-1) (by simp [okSz]) fun _ => rfl)⟩
  | ushort =>
    rw [hv (by simp)] at g
    exact ⟨_, g.snoc (nx_any (by simp [Un.tok]) (by simp [Un.tok]) rfl rfl) (fun m _ => rfl), key (extend (wreg t) 2) (ext 2 (by simp [okSz]) fun _ => rfl)⟩
  | short =>
    rw [hv (by simp)] at g
    exact ⟨_, g.snoc (nx_any (by simp [Un.tok]) (by simp [Un.tok]) rfl rfl) (fun m _ => rfl), key (extend (wreg t) (-2)) (ext (-2) (by simp [okSz]) fun _ => rfl)⟩

end Smlr.Mips
