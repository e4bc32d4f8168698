import Verif.Cg.Run
set_option autoImplicit false
/-! What it means that code evaluates an expression, and how pieces of code are put together. -/
namespace Smlr.Cg
variable {W : Nat}

/-! ### `GenExpr1` goes from element to element -/

def NotIf (r : List T) : Prop := ∀ t, r.head? = some t → t.1 ≠ .ifT ∧ t.1 ≠ .ifN

/-- the elements `F` are printed as `c` -/
def Gen (W : Nat) (F : List T) (c : List Ins) : Prop := NotIf F ∧ ∀ r, NotIf r → gen W (F ++ r) = (gen W r).map (c ++ ·)

theorem notIf_app {F r : List T} (h : NotIf F) (h' : NotIf r) : NotIf (F ++ r) := by
  cases F with
  | nil => exact h'
  | cons t F => exact h

theorem gen_nil (W : Nat) : Gen W [] [] := by
  refine ⟨fun _ h => (nomatch h), fun r _ => ?_⟩
  simp only [List.nil_append]
  cases gen W r <;> rfl

theorem Gen.app {F F' : List T} {c c' : List Ins} (h : Gen W F c) (h' : Gen W F' c') : Gen W (F ++ F') (c ++ c') := by
  refine ⟨notIf_app h.1 h'.1, fun r hr => ?_⟩
  rw [List.append_assoc, h.2 _ (notIf_app h'.1 hr), h'.2 r hr]
  cases gen W r <;> simp

theorem gen_of {t : T} {F : List T} {c : List Ins} (ht : t.1 ≠ .ifT ∧ t.1 ≠ .ifN)
    (h : ∀ r, NotIf r → gen W (t :: F ++ r) = (gen W r).map (c ++ ·)) : Gen W (t :: F) c :=
  ⟨fun u hu => by cases hu; exact ht, h⟩

/-! ### Simulation -/

/-- Wherever the code `c` is in a program, running it evaluates `e` to an expression that is related to what is in `ax`; `d` words of the stack are enough. -/
def SimG (V : Env W) (c : List Ins) (d : Nat) (e : E) (Q : Wd W → E → Prop) : Prop :=
  ∀ P pre post, P = pre ++ c ++ post → (labs P).Nodup → ∀ s m, s.bp = V.bp → Agree V.A s.mem m → StkOk V.A s.sp d → Safe V e m →
    ∃ s' e' m', Run V.G P pre.length s (pre.length + c.length) s' ∧ Steps V e m e' m' ∧ Q s'.ax e' ∧ s'.sp = s.sp ∧ s'.bp = s.bp ∧
      Agree V.A s'.mem m' ∧ Frame V.A s.sp d s.mem s'.mem

/-- the expression has been evaluated, its value is in `ax` -/
def FullQ (W : Nat) (a : Wd W) (e : E) : Prop := ∃ v, e = .num v ∧ a = wd W v

theorem SimG.mono {V : Env W} {c : List Ins} {d d' : Nat} {e : E} {Q Q' : Wd W → E → Prop} (h : SimG V c d e Q) (hd : d ≤ d')
    (hq : ∀ a e', Q a e' → Q' a e') : SimG V c d' e Q' := by
  intro P pre post hP hn s m hb ha hs hsafe
  obtain ⟨s', e', m', h1, h2, h3, h4, h5, h6, h7⟩ := h P pre post hP hn s m hb ha (hs.mono hd) hsafe
  exact ⟨s', e', m', h1, h2, hq _ _ h3, h4, h5, h6, h7.mono hd⟩

/-- straight code after other code -/
theorem SimG.then {V : Env W} {c c' : List Ins} {d : Nat} {e : E} {f : E → E} {Q Q' : Wd W → E → Prop} (h : SimG V c d e Q) (hf : Hole V f)
    (h' : ∀ s m e', s.bp = V.bp → Agree V.A s.mem m → Q s.ax e' → Safe V (f e') m →
      ∃ s' e'' m', execs V.G c' s = some s' ∧ Steps V (f e') m e'' m' ∧ Q' s'.ax e'' ∧ s'.sp = s.sp ∧ s'.bp = s.bp ∧ Agree V.A s'.mem m' ∧
        ∀ a, ¬ V.A a → s'.mem a = s.mem a) : SimG V (c ++ c') d (f e) Q' := by
  intro P pre post hP hn s m hb ha hs hsafe
  obtain ⟨s', e', m', h1, h2, h3, h4, h5, h6, h7⟩ := h P pre (c' ++ post) (by rw [hP]; simp) hn s m hb ha hs (hf.safe hsafe)
  have h2' := hf.steps h2
  obtain ⟨t, e'', n, g1, g2, g3, g4, g5, g6, g7⟩ := h' s' m' e' (h5.trans hb) h6 h3 (hsafe.steps h2')
  refine ⟨t, e'', n, ?_, h2'.trans g2, g3, g4.trans h4, g5.trans h5, g6, fun a hA hz => (g7 a hA).trans (h7 a hA hz)⟩
  have h8 := run_execs g1 (pre ++ c) post
  have e1 : pre ++ c ++ c' ++ post = P := by rw [hP]; simp
  rw [e1, List.length_append] at h8
  rw [List.length_append, ← Nat.add_assoc]
  exact h1.trans h8

theorem SimG.leaf {V : Env W} {c : List Ins} {e : E} {Q : Wd W → E → Prop}
    (h : ∀ s m, s.bp = V.bp → Agree V.A s.mem m → Safe V e m →
      ∃ s' e' m', execs V.G c s = some s' ∧ Steps V e m e' m' ∧ Q s'.ax e' ∧ s'.sp = s.sp ∧ s'.bp = s.bp ∧ Agree V.A s'.mem m' ∧
        ∀ a, ¬ V.A a → s'.mem a = s.mem a) (d : Nat) : SimG V c d e Q := by
  intro P pre post hP hn s m hb ha hs hsafe
  obtain ⟨t, e'', n, g1, g2, g3, g4, g5, g6, g7⟩ := h s m hb ha hsafe
  refine ⟨t, e'', n, ?_, g2, g3, g4, g5, g6, fun a hA _ => g7 a hA⟩
  rw [hP]
  exact run_execs g1 pre post

/-! ### two operands -/

def lcode (L R : Cls) (cl : List Ins) : List Ins :=
  if L.isAcc then cl ++ (if R.isAcc then [.i1 .push .ax] else []) else []

def rcode (R : Cls) (cr : List Ins) : List Ins := if R.isAcc then cr else []

theorem push_exec (G : Int → Wd W) (s : St W) : execs G [.i1 .push .ax] s =
    some { s with sp := s.sp - BitVec.ofNat _ W, mem := st s.mem (s.sp - BitVec.ofNat _ W) W s.ax.toNat } := by
  simp [execs, exec, exec1, Opd.size, read]

theorem two {V : Env W} (hW : W = 2 ∨ W = 4) {f : E → E → E} (hL : ∀ r, Hole V (fun l => f l r)) (hR : ∀ l, Hole V (fun r => f l r)) {l r : E} {cl cr : List Ins}
    {QL QR : Wd W → E → Prop} {L R : Cls} {d : Nat}
    (hl : if L.isAcc then SimG V cl l.depth l QL else ∀ a, QL a l)
    (hr : if R.isAcc then SimG V cr r.depth r QR else ∀ a, QR a r) (hd : max l.depth (r.depth + 1) ≤ d)
    {P pre post : List Ins} (hP : P = pre ++ (lcode L R cl ++ rcode R cr) ++ post) (hn : (labs P).Nodup) {s : St W} {m : Mem W}
    (hb : s.bp = V.bp) (ha : Agree V.A s.mem m) (hs : StkOk V.A s.sp d) (hsafe : Safe V (f l r) m) :
    ∃ s' l' r' m' la ra, Run V.G P pre.length s (pre.length + (lcode L R cl ++ rcode R cr).length) s' ∧
      Steps V (f l r) m (f l' r') m' ∧ QL la l' ∧ QR ra r' ∧ Held s' L R la ra ∧
      s'.sp = (if L.isAcc && R.isAcc then s.sp - BitVec.ofNat _ W else s.sp) ∧ s'.bp = s.bp ∧
      Agree V.A s'.mem m' ∧ Frame V.A s.sp d s.mem s'.mem := by
  have hd1 : l.depth ≤ d := by omega
  have hd2 : r.depth + 1 ≤ d := by omega
  cases hLa : L.isAcc with
  | false =>
    simp only [hLa, Bool.false_eq_true, if_false] at hl
    cases hRa : R.isAcc with
    | false =>
      simp only [hRa, Bool.false_eq_true, if_false] at hr
      simp only [lcode, rcode, hLa, hRa, Bool.false_eq_true, if_false, List.append_nil, List.length_nil, Nat.add_zero]
      exact ⟨s, l, r, m, s.ax, s.ax, .refl _ _, .refl _ _, hl _, hr _, by simp [Held, hLa, hRa], rfl, rfl, ha, .refl _ _ _ _⟩
    | true =>
      simp only [hRa, if_true] at hr
      simp only [lcode, rcode, hLa, hRa, Bool.false_eq_true, if_false, if_true, List.nil_append] at hP ⊢
      obtain ⟨s', e', m', h1, h2, h3, h4, h5, h6, h7⟩ := hr P pre post hP hn s m hb ha (hs.mono (by omega)) ((hR l).safe hsafe)
      exact ⟨s', l, e', m', s.ax, s'.ax, h1, (hR l).steps h2, hl _, h3, by simp [Held, hLa], h4, h5, h6, h7.mono (by omega)⟩
  | true =>
    simp only [hLa, if_true] at hl
    cases hRa : R.isAcc with
    | false =>
      simp only [hRa, Bool.false_eq_true, if_false] at hr
      simp only [lcode, rcode, hLa, hRa, Bool.false_eq_true, if_false, if_true, List.append_nil] at hP ⊢
      obtain ⟨s', e', m', h1, h2, h3, h4, h5, h6, h7⟩ := hl P pre post hP hn s m hb ha (hs.mono hd1) ((hL r).safe hsafe)
      exact ⟨s', e', r, m', s'.ax, s.ax, h1, (hL r).steps h2, h3, hr _, by simp [Held, hLa, hRa], h4, h5, h6, h7.mono hd1⟩
    | true =>
      simp only [hRa, if_true] at hr
      simp only [lcode, rcode, hLa, hRa, if_true] at hP ⊢
      obtain ⟨s', e', m', h1, h2, h3, h4, h5, h6, h7⟩ :=
        hl P pre ([.i1 .push .ax] ++ cr ++ post) (by rw [hP]; simp) hn s m hb ha (hs.mono hd1) ((hL r).safe hsafe)
      have h8 := run_execs (push_exec V.G s') (pre ++ cl) (cr ++ post)
      rw [show pre ++ cl ++ [Ins.i1 .push .ax] ++ (cr ++ post) = P by rw [hP]; simp, List.length_append] at h8
      have st1 := (hL r).steps h2
      have hs' : StkOk V.A s'.sp d := by rw [h4]; exact hs
      obtain ⟨t, e'', n, g1, g2, g3, g4, g5, g6, g7⟩ := hr P (pre ++ cl ++ [.i1 .push .ax]) post (by rw [hP]; simp) hn
        { s' with sp := s'.sp - BitVec.ofNat _ W, mem := st s'.mem (s'.sp - BitVec.ofNat _ W) W s'.ax.toNat } m' (h5.trans hb)
        (push_agree (by omega) hs' _ h6) (StkOk.push (by omega) hs') ((hR e').safe (hsafe.steps st1))
      have hkept := slot_kept hd2 hs' g7
      refine ⟨t, e', e'', n, s'.ax, t.ax, ?_, st1.trans ((hR e').steps g2), h3, g3, ?_, ?_, g5.trans h5, g6, ?_⟩
      · have : pre.length + (cl ++ [Ins.i1 .push .ax] ++ cr).length = (pre ++ cl ++ [Ins.i1 .push .ax]).length + cr.length := by
          simp only [List.length_append]; omega
        rw [this]
        rw [show (pre ++ cl ++ [Ins.i1 .push .ax]).length = pre.length + cl.length + [Ins.i1 .push .ax].length by
          rw [List.length_append, List.length_append]] at g1 ⊢
        exact (h1.trans h8).trans g1
      · simp only [Held, hLa, hRa, if_true, true_and]
        rw [g4]
        show ld t.mem (s'.sp - _) W = _
        rw [hkept]
        show ld (st s'.mem (s'.sp - _) W s'.ax.toNat) _ W = _
        rw [ld_st _ _ _ _ (lt_two_pow' hW), pow_eq, Nat.mod_eq_of_lt s'.ax.isLt]
      · rw [g4, h4]; rfl
      · have f1 := push_frame (A := V.A) (sp := s'.sp) (d := d) (by omega) s'.mem s'.ax.toNat
        have f2 : Frame V.A s'.sp d _ t.mem := g7.push hd2
        have f3 := f1.trans f2
        rw [h4] at f3
        exact (h7.mono hd1).trans f3

end Smlr.Cg
