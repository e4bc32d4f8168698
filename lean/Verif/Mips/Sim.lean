import Verif.Mips.Ops
set_option autoImplicit false
/-! What it means that code evaluates an expression, and how the code of two operands is put together. -/
namespace Smlr.Mips
open Smlr.Cg (Wd Mem ld st sext wd Env Ar Cc conv val upd arith rel unary okSz b2i E Steps Safe Agree Frame StkOk Hole Zone)

/-- words of the stack for `n` more intermediate values -/
def dep (t n : Nat) : Nat := t + n - max t 8

/-- Wherever the code `c` is in a program, running it evaluates `e` into the working register. -/
def Sim (V : Env 4) (t : Nat) (c : List Ins) (d : Nat) (e : E) : Prop :=
  ∀ P pre post, P = pre ++ c ++ post → (labs P).Nodup → ∀ s m, s.fp = V.bp → Agree V.A s.mem m → StkOk V.A s.sp d → Safe V e m →
    ∃ s' v m', Run V.G P pre.length s (pre.length + c.length) s' ∧ Steps V e m (.num v) m' ∧ s'.r (wreg t) = wd 4 v ∧ Keep t s s' ∧
      Agree V.A s'.mem m' ∧ Frame V.A s.sp d s.mem s'.mem

theorem Sim.mono {V : Env 4} {t : Nat} {c : List Ins} {d d' : Nat} {e : E} (h : Sim V t c d e) (hd : d ≤ d') : Sim V t c d' e := by
  intro P pre post hP hn s m hb ha hs hsafe
  obtain ⟨s', v, m', h1, h2, h3, h4, h5, h6⟩ := h P pre post hP hn s m hb ha (hs.mono hd) hsafe
  exact ⟨s', v, m', h1, h2, h3, h4, h5, h6.mono hd⟩

/-- straight code after other code -/
theorem Sim.then {V : Env 4} {t : Nat} {c c' : List Ins} {d : Nat} {e : E} {f : E → E} (h : Sim V t c d e) (hf : Hole V f)
    (h' : ∀ s m v, s.fp = V.bp → Agree V.A s.mem m → s.r (wreg t) = wd 4 v → Safe V (f (.num v)) m →
      ∃ s' w m', execs V.G c' s = some s' ∧ Steps V (f (.num v)) m (.num w) m' ∧ s'.r (wreg t) = wd 4 w ∧ Chg t s s' ∧ Agree V.A s'.mem m' ∧
        ∀ a, ¬ V.A a → s'.mem a = s.mem a) : Sim V t (c ++ c') d (f e) := by
  intro P pre post hP hn s m hb ha hs hsafe
  obtain ⟨s', v, m', h1, h2, h3, h4, h5, h6⟩ := h P pre (c' ++ post) (by rw [hP]; simp) hn s m hb ha hs (hf.safe hsafe)
  have h2' := hf.steps h2
  obtain ⟨u, w, n, g1, g2, g3, g4, g5, g6⟩ := h' s' m' v (h4.fp.trans hb) h5 h3 (hsafe.steps h2')
  refine ⟨u, w, n, ?_, h2'.trans g2, g3, h4.trans g4.keep, g5, fun a hA hz => (g6 a hA).trans (h6 a hA hz)⟩
  have h8 := run_execs g1 (pre ++ c) post
  have e1 : pre ++ c ++ c' ++ post = P := by rw [hP]; simp
  rw [e1, List.length_append] at h8
  rw [List.length_append, ← Nat.add_assoc]
  exact h1.trans h8

theorem Sim.leaf {V : Env 4} {t : Nat} {c : List Ins} {e : E}
    (h : ∀ s m, s.fp = V.bp → Agree V.A s.mem m → Safe V e m →
      ∃ s' w m', execs V.G c s = some s' ∧ Steps V e m (.num w) m' ∧ s'.r (wreg t) = wd 4 w ∧ Chg t s s' ∧ Agree V.A s'.mem m' ∧
        ∀ a, ¬ V.A a → s'.mem a = s.mem a) (d : Nat) : Sim V t c d e := by
  intro P pre post hP hn s m hb ha hs hsafe
  obtain ⟨u, w, n, g1, g2, g3, g4, g5, g6⟩ := h s m hb ha hsafe
  refine ⟨u, w, n, ?_, g2, g3, g4.keep, g5, fun a hA _ => g6 a hA⟩
  rw [hP]
  exact run_execs g1 pre post

/-! ### two operands -/

def pushc (t : Nat) : List Ins := if t < 8 then [] else [.alu .subu 29 29 (.imm 4), .store .sw (wreg t) (.ind 29 0)]
def popc (t : Nat) : List Ins := if t < 8 then [] else [.load .lw 24 (.ind 29 0), .alu .addu 29 29 (.imm 4)]

/-- the register of the left operand -/
def lreg (t : Nat) : Nat := if t < 8 then wreg t else 24

theorem push_eq (t : Nat) : push ⟨true, t, wreg t⟩ = (pushc t, ⟨true, t + 1, wreg (t + 1)⟩) := by
  unfold push pushc
  by_cases h : t < 8
  · rw [if_pos h, if_pos h, incW_wreg h]
  · rw [if_neg h, if_neg h, wreg_ge (t := t + 1) (by omega), wreg_ge (t := t) (by omega)]; rfl

theorem pop_eq (g : Bool) (t : Nat) : pop ⟨g, t + 1, wreg (t + 1)⟩ = some (popc t, lreg t, wreg (t + 1), ⟨g, t, wreg t⟩) := by
  unfold pop popc lreg
  by_cases h : t < 8
  · simp only [h, if_true, decW_wreg h]
  · simp only [h, if_false, wreg_ge (t := t + 1) (by omega), wreg_ge (t := t) (by omega)]; rfl

theorem sub4 (x : Wd 4) : x - wd 4 4 = x - BitVec.ofNat _ 4 := rfl

theorem sub_add4 (x : Wd 4) : x - BitVec.ofNat (8 * 4) 4 + wd 4 4 = x := by
  show x - BitVec.ofNat (8 * 4) 4 + BitVec.ofNat (8 * 4) 4 = x
  exact BitVec.sub_add_cancel _ _

/-- a place in an expression where `r` may be evaluated -/
structure HoleAt (V : Env 4) (g : E → E) (r : E) : Prop where
  safe : ∀ {m : Mem 4}, Safe V (g r) m → Safe V r m
  steps : ∀ {r' : E} {m m' : Mem 4}, Steps V r m r' m' → Steps V (g r) m (g r') m'

theorem HoleAt.of {V : Env 4} {g : E → E} (h : Hole V g) (r : E) : HoleAt V g r := ⟨h.safe, h.steps⟩

theorem num_steps {V : Env 4} {n : Int} {e : E} {m m' : Mem 4} (h : Steps V (.num n) m e m') : e = .num n ∧ m' = m := by
  cases h with
  | refl => exact ⟨rfl, rfl⟩
  | step h _ => cases h

/-- numbers are already evaluated -/
theorem HoleAt.num (V : Env 4) (g : E → E) (n : Int) : HoleAt V g (.num n) where
  safe := by
    intro m _ e' m' h hu
    obtain ⟨rfl, rfl⟩ := num_steps h
    cases hu
  steps := by
    intro r' m m' h
    obtain ⟨rfl, rfl⟩ := num_steps h
    exact .refl _ _

/-- Two operands are evaluated one after the other; then they are in the two registers. -/
theorem two {V : Env 4} {f : E → E → E} {l r : E} (hL : Hole V (fun l => f l r)) (hR : ∀ l, HoleAt V (fun r => f l r) r) {cl cr : List Ins} {t nl nr d : Nat}
    (hl : Sim V t cl (dep t nl) l) (hr : Sim V (t + 1) cr (dep (t + 1) nr) r) (hd : dep t (max nl (nr + 1)) ≤ d)
    {P pre post : List Ins} (hP : P = pre ++ (cl ++ (pushc t ++ (cr ++ popc t))) ++ post) (hn : (labs P).Nodup) {s : St} {m : Mem 4}
    (hb : s.fp = V.bp) (ha : Agree V.A s.mem m) (hs : StkOk V.A s.sp d) (hsafe : Safe V (f l r) m) :
    ∃ s' v w m', Run V.G P pre.length s (pre.length + (cl ++ (pushc t ++ (cr ++ popc t))).length) s' ∧
      Steps V (f l r) m (f (.num v) (.num w)) m' ∧ s'.r (lreg t) = wd 4 v ∧ s'.r (wreg (t + 1)) = wd 4 w ∧ Keep t s s' ∧
      Agree V.A s'.mem m' ∧ Frame V.A s.sp d s.mem s'.mem ∧ ∃ m₀ m₁, Steps V r m₀ (.num w) m₁ := by
  by_cases ht : t < 8
  · have hp : pushc t = [] := if_pos ht
    have hq : popc t = [] := if_pos ht
    rw [hp, hq] at hP ⊢
    rw [List.append_nil, List.nil_append] at hP ⊢
    obtain ⟨s1, v, m1, h1, h2, h3, h4, h5, h6⟩ := hl P pre (cr ++ post) (by rw [hP]; simp) hn s m hb ha (hs.mono (by unfold dep at *; omega)) (hL.safe hsafe)
    have st1 := hL.steps h2
    obtain ⟨s2, w, m2, g1, g2, g3, g4, g5, g6⟩ := hr P (pre ++ cl) post (by rw [hP]; simp) hn s1 m1 (h4.fp.trans hb) h5
      (by rw [h4.sp]; exact hs.mono (by unfold dep at *; omega)) ((hR _).safe (hsafe.steps st1))
    refine ⟨s2, v, w, m2, ?_, st1.trans ((hR _).steps g2), ?_, g3, ?_, g5, ?_⟩
    · rw [List.length_append] at g1
      rw [List.length_append, ← Nat.add_assoc]
      exact h1.trans g1
    · unfold lreg
      rw [if_pos ht, g4.lower t (by omega), h3]
    · exact h4.trans ⟨g4.sp, g4.sv, fun k hk => g4.lower k (by omega)⟩
    · rw [h4.sp] at g6
      exact ⟨(h6.mono (by unfold dep at *; omega)).trans (g6.mono (by unfold dep at *; omega)), _, _, g2⟩
  · have ht : 8 ≤ t := by omega
    have w1 : wreg t = 15 := wreg_ge ht
    have w2 : wreg (t + 1) = 15 := wreg_ge (by omega)
    have hp : pushc t = [.alu .subu 29 29 (.imm 4), .store .sw 15 (.ind 29 0)] := by rw [pushc, if_neg (by omega), w1]
    have hq : popc t = [.load .lw 24 (.ind 29 0), .alu .addu 29 29 (.imm 4)] := if_neg (by omega)
    have hd1 : dep t nl ≤ d := by unfold dep at *; omega
    have hd2 : dep (t + 1) nr + 1 ≤ d := by unfold dep at *; omega
    obtain ⟨s1, v, m1, h1, h2, h3, h4, h5, h6⟩ := hl P pre (pushc t ++ (cr ++ popc t) ++ post) (by rw [hP]; simp) hn s m hb ha (hs.mono hd1) (hL.safe hsafe)
    have st1 := hL.steps h2
    have hs1 : StkOk V.A s1.sp d := by rw [h4.sp]; exact hs
    -- push
    have hpush : execs V.G (pushc t) s1 = some { s1.set 29 (s1.sp - BitVec.ofNat _ 4) with mem := st s1.mem (s1.sp - BitVec.ofNat _ 4) 4 (s1.r 15).toNat } := by
      rw [hp]
      simp only [execs, exec, Option.bind_some, ea, opd, alu, Store.size, set_mem, Option.some.injEq]
      rw [get_pos (s := s1) (by decide), sub4, get_pos (by decide), get_pos (by decide), set_r_same, set_r_ne _ _ (by decide), add0]
    have r1 := run_execs hpush (pre ++ cl) (cr ++ popc t ++ post)
    rw [show pre ++ cl ++ pushc t ++ (cr ++ popc t ++ post) = P by rw [hP]; simp, List.length_append] at r1
    generalize hs2 : ({ s1.set 29 (s1.sp - BitVec.ofNat _ 4) with mem := st s1.mem (s1.sp - BitVec.ofNat _ 4) 4 (s1.r 15).toNat } : St) = s2 at r1 hpush
    have e29 : s2.sp = s1.sp - BitVec.ofNat _ 4 := by rw [← hs2]; exact set_r_same s1 29 _
    have eo : ∀ k, k ≠ 29 → s2.r k = s1.r k := by intro k hk; rw [← hs2]; exact set_r_ne _ _ hk
    have em : s2.mem = st s1.mem (s1.sp - BitVec.ofNat _ 4) 4 (s1.r 15).toNat := by rw [← hs2]
    obtain ⟨s3, w, m2, g1, g2, g3, g4, g5, g6⟩ := hr P (pre ++ cl ++ pushc t) (popc t ++ post) (by rw [hP]; simp) hn s2 m1
      (by show s2.r 30 = _; rw [eo 30 (by decide)]; exact h4.fp.trans hb) (by rw [em]; exact Cg.push_agree (by omega) hs1 _ h5)
      (by rw [e29]; exact StkOk.push hd2 hs1) ((hR _).safe (hsafe.steps st1))
    rw [e29, em] at g6
    have hkept := Cg.slot_kept hd2 hs1 g6
    -- pop
    have e29' : s3.r 29 = s1.sp - BitVec.ofNat _ 4 := g4.sp.trans e29
    have hld : ld s3.mem (s1.sp - BitVec.ofNat _ 4) 4 = (s1.r 15).toNat := by
      rw [hkept, Cg.ld_st _ _ _ _ (by decide)]
      exact Nat.mod_eq_of_lt (s1.r 15).isLt
    have hpop : execs V.G (popc t) s3 = some ((s3.set 24 (s1.r 15)).set 29 s1.sp) := by
      rw [hq]
      simp only [execs, exec, Option.bind_some, ea, opd, alu, load, Option.some.injEq]
      rw [get_pos (s := s3) (by decide), e29', add0, hld, Cg.ofNat_mod_toNat, get_pos (by decide), set_r_ne _ _ (by decide), e29', sub_add4]
    have r2 := run_execs hpop (pre ++ cl ++ pushc t ++ cr) post
    rw [show pre ++ cl ++ pushc t ++ cr ++ popc t ++ post = P by rw [hP]; simp, List.length_append] at r2
    refine ⟨(s3.set 24 (s1.r 15)).set 29 s1.sp, v, w, m2, ?_, st1.trans ((hR _).steps g2), ?_, ?_, ?_, g5, ?_⟩
    · have : pre.length + (cl ++ (pushc t ++ (cr ++ popc t))).length = (pre ++ cl ++ pushc t).length + cr.length + (popc t).length := by
        simp only [List.length_append]; omega
      rw [this]
      refine (h1.trans r1).trans ?_
      rw [show pre.length + cl.length + (pushc t).length = (pre ++ cl ++ pushc t).length by simp only [List.length_append]]
      exact g1.trans r2
    · have : lreg t = 24 := if_neg (by omega)
      rw [this, set_r_ne _ _ (by decide), set_r_same, ← w1, h3]
    · rw [w2, set_r_ne _ _ (by decide), set_r_ne _ _ (by decide), ← w2, g3]
    · refine ⟨?_, fun i hi => ?_, fun k hk => ?_⟩
      · show ((s3.set 24 (s1.r 15)).set 29 s1.sp).r 29 = _
        rw [set_r_same, h4.sp]
      · by_cases h29 : i = 29
        · subst h29
          rw [set_r_same]
          exact h4.sp
        · rw [set_r_ne _ _ h29, set_r_ne _ _ (by have := hi.2.2.2; omega), g4.sv i hi, eo i h29, h4.sv i hi]
      · have hk' := wreg_rng k
        rw [set_r_ne _ _ (by omega), set_r_ne _ _ (by omega), g4.lower k (by omega), eo _ (by omega), h4.lower k hk]
    · have f1 := Cg.push_frame (A := V.A) (sp := s1.sp) (d := d) (by omega) s1.mem (s1.r 15).toNat
      have f2 : Frame V.A s1.sp d _ s3.mem := g6.push hd2
      have f3 := f1.trans f2
      rw [h4.sp] at f3
      exact ⟨(h6.mono hd1).trans f3, _, _, g2⟩

/-- … and then straight code makes the result -/
theorem fin2 {V : Env 4} {f : E → E → E} {l r : E} (hL : Hole V (fun l => f l r)) (hR : ∀ l, HoleAt V (fun r => f l r) r) {cl cr c' : List Ins} {t nl nr : Nat}
    (hl : Sim V t cl (dep t nl) l) (hr : Sim V (t + 1) cr (dep (t + 1) nr) r)
    (h' : ∀ s m v w, s.fp = V.bp → Agree V.A s.mem m → s.r (lreg t) = wd 4 v → s.r (wreg (t + 1)) = wd 4 w → (∃ m₀ m₁, Steps V r m₀ (.num w) m₁) →
      Safe V (f (.num v) (.num w)) m →
      ∃ s' x m', execs V.G c' s = some s' ∧ Steps V (f (.num v) (.num w)) m (.num x) m' ∧ s'.r (wreg t) = wd 4 x ∧ Chg t s s' ∧ Agree V.A s'.mem m' ∧
        ∀ a, ¬ V.A a → s'.mem a = s.mem a) : Sim V t (cl ++ (pushc t ++ (cr ++ (popc t ++ c')))) (dep t (max nl (nr + 1))) (f l r) := by
  intro P pre post hP hn s m hb ha hs hsafe
  obtain ⟨s', v, w, m', h1, h2, h3, h4, h5, h6, h7, h8⟩ := two hL hR hl hr (Nat.le_refl _) (P := P) (pre := pre) (post := c' ++ post) (by rw [hP]; simp) hn hb ha hs hsafe
  obtain ⟨u, x, n, g1, g2, g3, g4, g5, g6⟩ := h' s' m' v w (h5.fp.trans hb) h6 h3 h4 h8 (hsafe.steps h2)
  refine ⟨u, x, n, ?_, h2.trans g2, g3, h5.trans g4.keep, g5, fun a hA hz => (g6 a hA).trans (h7 a hA hz)⟩
  have h8 := run_execs g1 (pre ++ (cl ++ (pushc t ++ (cr ++ popc t)))) post
  rw [show pre ++ (cl ++ (pushc t ++ (cr ++ popc t))) ++ c' ++ post = P by rw [hP]; simp] at h8
  have e2 : (pre ++ (cl ++ (pushc t ++ (cr ++ popc t)))).length + c'.length = pre.length + (cl ++ (pushc t ++ (cr ++ (popc t ++ c')))).length := by
    simp only [List.length_append]; omega
  rw [e2, List.length_append] at h8
  exact h1.trans h8

end Smlr.Mips
