import Verif.Cg.Branch
import Verif.Cg.Labels
set_option autoImplicit false
/-! C25: the x86 code for an integer expression computes its value.

`toks e` is the stack that the parser builds for the expression `e`; `genExpr` is `GenExpr1`; `Steps` is evaluation as C defines it, with unsequenced operands evaluated in any order; `Safe` says that no order leads to undefined behaviour. -/
namespace Smlr.Cg
variable {W : Nat}

/-- There is code for every expression.  Wherever it is in a program whose labels are distinct, whatever the registers, memory and stack are, as long as the words under the stack pointer that it needs are not part of objects: it runs to its end, leaves in `ax` the value of the expression, in the objects what evaluation in one of the orders allowed by C leaves there, and does not change the stack pointer, the frame pointer, or anything else in memory. -/
theorem c25_code (hW : W = 2 ∨ W = 4) (e : E) (h : e.ok W) :
    ∃ code, genExpr W (toks e) = some code ∧
      ∀ (V : Env W) (P pre post : List Ins) (s : St W), P = pre ++ code ++ post → (labs P).Nodup → s.bp = V.bp →
        StkOk V.A s.sp e.depth → Safe V e s.mem →
        ∃ s' v m', Run V.G P pre.length s (pre.length + code.length) s' ∧ Steps V e s.mem (.num v) m' ∧ s'.ax = wd W v ∧
          s'.sp = s.sp ∧ s'.bp = s.bp ∧ (∀ a, V.A a → s'.mem a = m' a) ∧
          ∀ a, ¬ V.A a → ¬ Zone s.sp e.depth a → s'.mem a = s.mem a := by
  obtain ⟨c, g, sm⟩ := (full_part hW e h).1
  have hg := g.2 [] (fun _ h => (nomatch h))
  rw [List.append_nil] at hg
  refine ⟨c, by rw [genExpr_toks hW e h, hg]; simp [gen], ?_⟩
  intro V P pre post s hP hn hb hs hsafe
  obtain ⟨s', e', m', h1, h2, ⟨v, rfl, h3⟩, h4, h5, h6, h7⟩ := sm V P pre post hP hn s s.mem hb (fun _ _ => rfl) hs hsafe
  exact ⟨s', v, m', h1, h2, h3, h4, h5, h6, h7⟩

/-- The labels that the code defines are those of the expression, each once, if they are distinct in the expression. -/
theorem c25_labels (hW : W = 2 ∨ W = 4) (e : E) (h : e.ok W) (hd : e.labels.Nodup) :
    ∃ code, genExpr W (toks e) = some code ∧ (labs code).Nodup ∧ ∀ l ∈ labs code, l ∈ e.labels := by
  obtain ⟨code, g, -⟩ := c25_code hW e h
  have := genExpr_labs hW e h g
  exact ⟨code, g, hd.sublist this, fun l hl => this.subset hl⟩

/-- The code of a condition jumps to the label (and passes it) if the value is not zero, for `nz`, or if it is zero, for not `nz`; otherwise it goes on with what follows. -/
theorem c25_branch (hW : W = 2 ∨ W = 4) (e : E) (h : e.ok W) (nz : Bool) (lab : Int) :
    ∃ code, branch W e nz lab = some code ∧
      ∀ (V : Env W) (P pre post p' q' : List Ins) (s : St W), P = pre ++ code ++ post → P = p' ++ .lab lab :: q' → (labs P).Nodup →
        s.bp = V.bp → StkOk V.A s.sp e.depth → Safe V e s.mem →
        ∃ s' v m', Run V.G P pre.length s (if (wd W v ≠ 0 ↔ nz = true) then p'.length + 1 else pre.length + code.length) s' ∧
          Steps V e s.mem (.num v) m' ∧ s'.sp = s.sp ∧ s'.bp = s.bp ∧ (∀ a, V.A a → s'.mem a = m' a) ∧
          ∀ a, ¬ V.A a → ¬ Zone s.sp e.depth a → s'.mem a = s.mem a := by
  have key : ∀ c, (∀ V : Env W, SimJ V c e.depth e nz lab) → ∀ (V : Env W) (P pre post p' q' : List Ins) (s : St W), P = pre ++ c ++ post → P = p' ++ .lab lab :: q' →
      (labs P).Nodup → s.bp = V.bp → StkOk V.A s.sp e.depth → Safe V e s.mem →
        ∃ s' v m', Run V.G P pre.length s (if (wd W v ≠ 0 ↔ nz = true) then p'.length + 1 else pre.length + c.length) s' ∧
          Steps V e s.mem (.num v) m' ∧ s'.sp = s.sp ∧ s'.bp = s.bp ∧ (∀ a, V.A a → s'.mem a = m' a) ∧
          ∀ a, ¬ V.A a → ¬ Zone s.sp e.depth a → s'.mem a = s.mem a := by
    intro c sm V P pre post p' q' s hP hP' hn hb hs hsafe
    obtain ⟨s', v, m', h1, h2, h4, h5, h6, h7⟩ := sm V P pre post p' q' hP hP' hn s s.mem hb (fun _ _ => rfl) hs hsafe
    have h1 := h1.run
    refine ⟨s', v, m', ?_, h2, h4, h5, h6, h7⟩
    have : (decide (wd W v ≠ 0) = nz) ↔ (wd W v ≠ 0 ↔ nz = true) := by
      cases nz <;> simp
    unfold dest at h1
    by_cases hc : decide (wd W v ≠ 0) = nz
    · rw [if_pos hc] at h1; rw [if_pos (this.mp hc)]; exact h1
    · rw [if_neg hc] at h1; rw [if_neg (fun h => hc (this.mpr h))]; exact h1
  cases hc : e.isCmp with
  | true =>
    cases e with
    | cmp o l r =>
      obtain ⟨c, g, sm⟩ := jump_cmp hW o l r h.1 h.2 (full_part hW l h.1).2 (full_part hW r h.2).2 nz lab
      refine ⟨c, ?_, key c sm⟩
      rw [branch, if_pos hc, genExpr_end hW _ h _ _ (by cases nz <;> simp), g]
    | _ => exact Bool.noConfusion hc
  | false =>
    obtain ⟨c, g, sm⟩ := (full_part hW e h).1
    have hg := g.2 [(.ret, 0)] (fun t ht => by cases ht; simp)
    refine ⟨c ++ jumpIf W nz lab, ?_, key _ fun V => jump_val (sm V) nz lab⟩
    rw [branch, if_neg (by rw [hc]; simp), genExpr_end hW e h _ _ (by simp), hg]
    simp [gen]

/-- An expression without side effects has one value, the one that its operators give; the code computes it and leaves the objects alone. -/
theorem c25_pure (hW : W = 2 ∨ W = 4) (e : E) (h : e.ok W) (hp : e.pure = true) :
    ∃ code, genExpr W (toks e) = some code ∧
      ∀ (V : Env W) (P pre post : List Ins) (s : St W) (v : Int), P = pre ++ code ++ post → (labs P).Nodup → s.bp = V.bp →
        StkOk V.A s.sp e.depth → ev V s.mem e = some v →
        ∃ s', Run V.G P pre.length s (pre.length + code.length) s' ∧ s'.ax = wd W v ∧ s'.sp = s.sp ∧ s'.bp = s.bp ∧
          ∀ a, ¬ Zone s.sp e.depth a → s'.mem a = s.mem a := by
  obtain ⟨c, g, sm⟩ := c25_code hW e h
  refine ⟨c, g, ?_⟩
  intro V P pre post s v hP hn hb hs hv
  obtain ⟨s', w, m', h1, h2, h3, h4, h5, h6, h7⟩ := sm V P pre post s hP hn hb hs (pure_safe hp hv)
  obtain ⟨k1, _, k2⟩ := pure_steps h2 hp
  rw [hv] at k2
  cases k2
  refine ⟨s', h1, h3, h4, h5, fun a hz => ?_⟩
  by_cases ha : V.A a
  · rw [h6 a ha, k1]
  · exact h7 a ha hz

/-- Evaluation goes on until there is a value or the behaviour is undefined: `Safe` does not hide anything. -/
theorem c25_progress (V : Env W) (e : E) (m : Mem W) : (∃ v, e = .num v) ∨ (∃ e' m', Step V e m e' m') ∨ Ub V e m := by
  induction e with
  | num v => exact Or.inl ⟨v, rfl⟩
  | glob x => exact Or.inr (Or.inl ⟨_, _, .glob x m⟩)
  | loc x => exact Or.inr (Or.inl ⟨_, _, .loc x m⟩)
  | deref sz e ih =>
    rcases ih with ⟨v, rfl⟩ | ⟨e', m', h⟩ | h
    · by_cases ha : Acc V.A (wd W v) sz
      · exact Or.inr (Or.inl ⟨_, _, .deref sz v m ha⟩)
      · exact Or.inr (Or.inr (.deref sz v m ha))
    · exact Or.inr (Or.inl ⟨_, _, .derefC h⟩)
    · exact Or.inr (Or.inr (.derefC h))
  | un u e ih =>
    rcases ih with ⟨v, rfl⟩ | ⟨e', m', h⟩ | h
    · exact Or.inr (Or.inl ⟨_, _, .un u v m⟩)
    · exact Or.inr (Or.inl ⟨_, _, .unC h⟩)
    · exact Or.inr (Or.inr (.unC h))
  | inc k sz e ih =>
    rcases ih with ⟨v, rfl⟩ | ⟨e', m', h⟩ | h
    · by_cases ha : Acc V.A (wd W v) sz
      · cases k
        · exact Or.inr (Or.inl ⟨_, _, .preInc sz v m⟩)
        · exact Or.inr (Or.inl ⟨_, _, .preDec sz v m⟩)
        · exact Or.inr (Or.inl ⟨_, _, .postInc sz v m ha⟩)
        · exact Or.inr (Or.inl ⟨_, _, .postDec sz v m ha⟩)
      · exact Or.inr (Or.inr (.inc k sz v m ha))
    · exact Or.inr (Or.inl ⟨_, _, .incC h⟩)
    · exact Or.inr (Or.inr (.incC h))
  | padd b sz n e ih =>
    rcases ih with ⟨v, rfl⟩ | ⟨e', m', h⟩ | h
    · by_cases ha : Acc V.A (wd W v) sz
      · cases b
        · exact Or.inr (Or.inl ⟨_, _, .postAdd sz n v m ha⟩)
        · exact Or.inr (Or.inl ⟨_, _, .postSub sz n v m ha⟩)
      · exact Or.inr (Or.inr (.padd b sz n v m ha))
    · exact Or.inr (Or.inl ⟨_, _, .paddC h⟩)
    · exact Or.inr (Or.inr (.paddC h))
  | bin o l r ihl ihr =>
    rcases ihl with ⟨v, rfl⟩ | ⟨e', m', h⟩ | h
    · rcases ihr with ⟨w, rfl⟩ | ⟨e', m', h⟩ | h
      · cases ha : arith o (wd W v) (wd W w) with
        | none => exact Or.inr (Or.inr (.bin o v w m ha))
        | some x => exact Or.inr (Or.inl ⟨_, _, .bin m ha⟩)
      · exact Or.inr (Or.inl ⟨_, _, .binR h⟩)
      · exact Or.inr (Or.inr (.binR h))
    · exact Or.inr (Or.inl ⟨_, _, .binL h⟩)
    · exact Or.inr (Or.inr (.binL h))
  | cmp o l r ihl ihr =>
    rcases ihl with ⟨v, rfl⟩ | ⟨e', m', h⟩ | h
    · rcases ihr with ⟨w, rfl⟩ | ⟨e', m', h⟩ | h
      · exact Or.inr (Or.inl ⟨_, _, .cmp o v w m⟩)
      · exact Or.inr (Or.inl ⟨_, _, .cmpR h⟩)
      · exact Or.inr (Or.inr (.cmpR h))
    · exact Or.inr (Or.inl ⟨_, _, .cmpL h⟩)
    · exact Or.inr (Or.inr (.cmpL h))
  | asg sz l r ihl ihr =>
    rcases ihl with ⟨v, rfl⟩ | ⟨e', m', h⟩ | h
    · rcases ihr with ⟨w, rfl⟩ | ⟨e', m', h⟩ | h
      · by_cases ha : Acc V.A (wd W v) sz
        · exact Or.inr (Or.inl ⟨_, _, .asg sz v w m ha⟩)
        · exact Or.inr (Or.inr (.asg sz v w m ha))
      · exact Or.inr (Or.inl ⟨_, _, .asgR h⟩)
      · exact Or.inr (Or.inr (.asgR h))
    · exact Or.inr (Or.inl ⟨_, _, .asgL h⟩)
    · exact Or.inr (Or.inr (.asgL h))
  | asgo o sz l r ihl _ =>
    rcases ihl with ⟨v, rfl⟩ | ⟨e', m', h⟩ | h
    · exact Or.inr (Or.inl ⟨_, _, .asgo o sz v r m⟩)
    · exact Or.inr (Or.inl ⟨_, _, .asgoL h⟩)
    · exact Or.inr (Or.inr (.asgoL h))
  | land lab l r ihl _ =>
    rcases ihl with ⟨v, rfl⟩ | ⟨e', m', h⟩ | h
    · by_cases hv : wd W v = 0
      · exact Or.inr (Or.inl ⟨_, _, .landF lab v r m hv⟩)
      · exact Or.inr (Or.inl ⟨_, _, .landT lab v r m hv⟩)
    · exact Or.inr (Or.inl ⟨_, _, .landC h⟩)
    · exact Or.inr (Or.inr (.landC h))
  | lor lab l r ihl _ =>
    rcases ihl with ⟨v, rfl⟩ | ⟨e', m', h⟩ | h
    · by_cases hv : wd W v = 0
      · exact Or.inr (Or.inl ⟨_, _, .lorF lab v r m hv⟩)
      · exact Or.inr (Or.inl ⟨_, _, .lorT lab v r m hv⟩)
    · exact Or.inr (Or.inl ⟨_, _, .lorC h⟩)
    · exact Or.inr (Or.inr (.lorC h))
  | cond lab c a b ihc _ _ =>
    rcases ihc with ⟨v, rfl⟩ | ⟨e', m', h⟩ | h
    · by_cases hv : wd W v = 0
      · exact Or.inr (Or.inl ⟨_, _, .condF lab v a b m hv⟩)
      · exact Or.inr (Or.inl ⟨_, _, .condT lab v a b m hv⟩)
    · exact Or.inr (Or.inl ⟨_, _, .condC h⟩)
    · exact Or.inr (Or.inr (.condC h))
  | comma l r ihl _ =>
    rcases ihl with ⟨v, rfl⟩ | ⟨e', m', h⟩ | h
    · exact Or.inr (Or.inl ⟨_, _, .comma v r m⟩)
    · exact Or.inr (Or.inl ⟨_, _, .commaC h⟩)
    · exact Or.inr (Or.inr (.commaC h))

/-! ### Examples -/

/-- a machine with 32-bit words whose objects are the first 256 bytes: the identifier `n` is at `4 * n` -/
def exV : Env 4 := ⟨fun n => BitVec.ofInt _ (4 * n), 128, fun a => a.toNat < 256⟩

/-- its stack is higher up -/
def exS (m : Mem 4) : St 4 := ⟨0, 0, 0, 0, 4096, 128, m, none⟩

theorem exStk (m : Mem 4) (d : Nat) (hd : d ≤ 10) : StkOk exV.A (exS m).sp d := by
  refine ⟨?_, by omega⟩
  rintro a ⟨k, h1, h2, rfl⟩ h3
  have h4 : ((4096 : Wd 4) - BitVec.ofNat _ k).toNat < 256 := h3
  rw [BitVec.toNat_sub] at h4
  simp at h4
  omega

/-- `(x - 7 * y) < 3 && (unsigned char)z`, where `x` and `y` are identifiers 1 and 2, and `z` is at the frame pointer − 8 -/
def exE : E :=
  .land 20 (.cmp .lt (.bin .sub (.deref 4 (.glob 1)) (.bin .mul (.num 7) (.deref 4 (.glob 2)))) (.num 3)) (.un .bool (.un .uchar (.deref 4 (.loc (-8)))))

example : genExpr 4 (toks exE) = some [
    .i2 .mov .ax (.imm 7), .i1 .mul (.mem (.lab 2) (some 4)), .i2 .mov .cx .ax, .i2 .mov .ax (.mem (.lab 1) none), .i2 .sub .ax .cx,
    .i2 .cmp .ax (.imm 3), .i1 (.setcc .lt) .al, .i2 .movzx .ax .al,
    .i2 .test .ax .ax, .jcc .eq 20,
    .i2 .mov .ax (.mem (.loc (-8)) none), .i2 .band .ax (.imm 255),
    .i2 .test .ax .ax, .i1 (.setcc .ne) .al, .i2 .movsx .ax .al, .lab 20] := by decide +kernel

example : exE.ok 4 ∧ exE.pure = true := ⟨by simp [exE, E.ok, E.isBool, okSz], rfl⟩

/-- with `x = y = 0` and all of `z` zero, it is zero -/
example : ev exV (fun _ => 0) exE = some 0 := by
  have ha : ∀ a : Int, 0 ≤ a → a < 200 → Acc exV.A (wd 4 a) 4 := by
    intro a h0 h1 i hi
    show (wd 4 a + BitVec.ofNat _ i).toNat < 256
    simp only [wd, BitVec.toNat_add, BitVec.toNat_ofInt, BitVec.toNat_ofNat]
    simp at hi ⊢
    omega
  have e1 : wd 4 (exV.G 1).toInt = wd 4 4 := by decide
  have e2 : wd 4 (exV.G 2).toInt = wd 4 8 := by decide
  have e3 : wd 4 (exV.bp + wd 4 (-8)).toInt = wd 4 120 := by decide
  have h1 : Acc exV.A (wd 4 (exV.G 1).toInt) 4 := by rw [e1]; exact ha 4 (by omega) (by omega)
  have h2 : Acc exV.A (wd 4 (exV.G 2).toInt) 4 := by rw [e2]; exact ha 8 (by omega) (by omega)
  have h3 : Acc exV.A (wd 4 (exV.bp + wd 4 (-8)).toInt) 4 := by rw [e3]; exact ha 120 (by omega) (by omega)
  simp only [exE, ev, Option.bind_some, if_pos h1, if_pos h2, if_pos h3]
  simp only [e1, e2, e3]
  decide

/-- `*(p)++ = v`-like: a postfix increment of an object is safe, and the code increments it -/
def exI : E := .inc .pinc (-1) (.glob 3)

theorem exI_safe (m : Mem 4) : Safe exV exI m := by
  have acc : Acc exV.A (exV.G 3) (-1) := by
    intro i hi
    simp at hi
    subst hi
    show (exV.G 3 + BitVec.ofNat _ 0).toNat < 256
    decide
  have inv : ∀ e e' : E, ∀ n n' : Mem 4, Steps exV e n e' n' → (e = exI ∨ e = .inc .pinc (-1) (.num (exV.G 3).toInt) ∨ ∃ v, e = .num v) →
      (e' = exI ∨ e' = .inc .pinc (-1) (.num (exV.G 3).toInt) ∨ ∃ v, e' = .num v) := by
    intro e e' n n' h
    induction h with
    | refl => exact fun h => h
    | step hs _ ih =>
      intro h
      apply ih
      rcases h with rfl | rfl | ⟨v, rfl⟩
      · cases hs with
        | incC h => cases h; exact Or.inr (Or.inl rfl)
      · cases hs with
        | postInc => exact Or.inr (Or.inr ⟨_, rfl⟩)
        | incC h => cases h
      · cases hs
  intro e' m' hs hu
  rcases inv _ _ _ _ hs (Or.inl rfl) with rfl | rfl | ⟨v, rfl⟩
  · cases hu with
    | incC h => cases h
  · cases hu with
    | inc _ _ _ _ h => rw [wd_toInt] at h; exact h acc
    | incC h => cases h
  · cases hu

/-- the signed character at 12 is 127: the code returns 127 and leaves −128 there -/
example (m : Mem 4) (hm : m 12 = 127) :
    ∃ s', Run exV.G [.i2 .mov .al (.mem (.lab 3) none), .i2 .movsx .ax .al, .i1 .inc (.mem (.lab 3) (some 1))] 0 (exS m) 3 s' ∧
      s'.ax = 127 ∧ s'.sp = 4096 ∧ s'.mem 12 = 128 := by
  obtain ⟨code, h1, h2⟩ := c25_code (W := 4) (Or.inr rfl) exI (by simp [exI, E.ok, okSz])
  have hc : genExpr 4 (toks exI) = some [.i2 .mov .al (.mem (.lab 3) none), .i2 .movsx .ax .al, .i1 .inc (.mem (.lab 3) (some 1))] := by decide +kernel
  rw [hc] at h1
  cases h1
  obtain ⟨s', v, m', r1, r2, r3, r4, _, r5, _⟩ := h2 exV _ [] [] (exS m) rfl (by decide) rfl (exStk m _ (by decide)) (exI_safe m)
  have hg : exV.G 3 = 12 := by decide
  have hv : val m (exV.G 3) (-1) = 127 := by
    have hm' : (m 12).toNat = 127 := by rw [hm]; rfl
    have hl : ld m (exV.G 3) 1 = 127 := by rw [hg, ld, hm', ld]
    show conv (-1) (ld m (exV.G 3) 1 : Int) = 127
    rw [hl]
    decide
  have key : v = 127 ∧ m' 12 = 128 := by
    cases r2 with
    | step hs hr =>
      cases hs with
      | incC h =>
        cases h
        cases hr with
        | step hs hr =>
          cases hs with
          | postInc _ _ _ _ =>
            have hend : ∀ {e' : E} {n n' : Mem 4} {x : Int}, Steps exV (.num x) n e' n' → e' = .num x ∧ n' = n := by
              intro e' n n' x h
              cases h with
              | refl => exact ⟨rfl, rfl⟩
              | step h _ => cases h
            obtain ⟨k1, k2⟩ := hend hr
            rw [wd_toInt] at k1 k2
            refine ⟨(E.num.inj k1).trans hv, ?_⟩
            have : val (exS m).mem (exV.G 3) (-1) = 127 := hv
            rw [k2, this, hg]
            have h0 : upd (exS m).mem 12 (-1) (wd 4 (127 + 1)) 12 = BitVec.ofNat 8 (wd 4 (127 + 1)).toNat := by
              have h1 : ∀ (n : Mem 4) (a : Wd 4) (v : Nat), st n a 1 v a = BitVec.ofNat 8 v := by
                intro n a v
                simp only [st, if_true]
              exact h1 _ _ _
            rw [h0]
            decide
          | incC h => cases h
  refine ⟨s', r1, by rw [r3, key.1]; decide, r4, ?_⟩
  rw [r5 12 (by show (12 : Wd 4).toNat < 256; decide), key.2]

/-- conditions: `if (x < 5)` jumps to the label 7 if not -/
example : branch 2 (.cmp .ult (.deref 2 (.loc 4)) (.num 5)) false 7 =
    some [.i2 .mov .ax (.mem (.loc 4) none), .i2 .cmp .ax (.imm 5), .jcc .uge 7] := by decide +kernel

example : branch 2 (.deref 1 (.loc 4)) true 7 =
    some [.i2 .mov .al (.mem (.loc 4) none), .i2 .mov .ah (.imm 0), .i2 .test .ax .ax, .jcc .ne 7] := by decide +kernel

end Smlr.Cg
