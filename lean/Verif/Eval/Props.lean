import Verif.Eval.Mark
set_option autoImplicit false
/-! Properties of the `#if` evaluator. -/
namespace Smlr.Eval
variable {w : Nat}

theorem wd (hw : w = 32 ∨ w = 64) : Wd w := by rcases hw with rfl | rfl <;> exact ⟨by omega, by omega⟩

theorem run_tree (hw : w = 32 ∨ w = 64) {e : E} {ts : List Tok} (h : Writes w 2 1 e ts) (ht : SameTypes e) (hq : Quiet w e) :
    Gives w (shrd w (2 * ts.length + 1) (mark true ts) 0 true) [] 0 (ty e) (sem w e) := by
  obtain ⟨us, h1, h2⟩ := mark_writes h []
  rw [List.append_nil] at h1
  have hn : mark false ([] : List Tok) = [] := rfl
  rw [hn, List.append_nil] at h1
  have hl := mark_length ts true
  rw [S_eq (by omega), h1]
  have := eval_run (wd hw) h2 [] 0 trivial (.inr (.inl (by omega))) ht hq
  rw [List.append_nil] at this
  exact this

/-- C34, values.  The tokens of an expression give the truth of the value that C assigns to its tree.
Missing from the full property: expressions with a comma between `?` and `:` that is not in parentheses, which are rejected (`c34_comma_defect`); `?:` whose results differ in type (`c34_conditional_defect`); operands left unevaluated in which a negation would overflow (`c34_negation_defect`).  The first is excluded by the level 2 for that operand in `Writes`, the others by `SameTypes` and `Quiet`. -/
theorem c34_value_partial (hw : w = 32 ∨ w = 64) {e : E} {ts : List Tok} {v : SV} (h : Writes w 2 1 e ts)
    (ht : SameTypes e) (hq : Quiet w e) (hv : sem w e = .val v) : evalExpr w ts = .ok (decide (v.x ≠ 0)) := by
  have := run_tree hw h ht hq
  rw [hv] at this
  obtain ⟨h1, h2, _⟩ := this
  unfold evalExpr
  rw [h1, stop (show Follow 0 [] from trivial)]
  show Res.ok (boolval (rep w v)) = _
  rw [boolval_rep (wd hw) h2]

/-- C34, divisions.  A division by zero, or one whose quotient does not fit, is reported when it is evaluated. -/
theorem c34_division_partial (hw : w = 32 ∨ w = 64) {e : E} {ts : List Tok} (h : Writes w 2 1 e ts)
    (ht : SameTypes e) (hq : Quiet w e) (hv : sem w e = .nodiv) : evalExpr w ts = .err := by
  have := run_tree hw h ht hq
  rw [hv] at this
  unfold evalExpr
  rw [show shrd w (2 * ts.length + 1) (mark true ts) 0 true = .err from this]
  rfl

theorem Writes.mono {mid l l' : Nat} {e : E} {ts : List Tok} (h : Writes w mid l e ts) (hl : l' ≤ l) : Writes w mid l' e ts := by
  cases h with
  | num h1 h2 => exact .num (by omega) h2
  | chr h1 h2 => exact .chr (by omega) h2
  | paren h1 h2 => exact .paren (by omega) h2
  | un h1 h2 => exact .un (by omega) h2
  | bin h1 h2 h3 => exact .bin (by omega) h2 h3
  | cond h1 h2 h3 h4 => exact .cond (by omega) h2 h3 h4

theorem Writes.wide {l : Nat} {e : E} {ts : List Tok} (h : Writes w 2 l e ts) : Writes w 1 l e ts := by
  induction h with
  | num h1 h2 => exact .num h1 h2
  | chr h1 h2 => exact .chr h1 h2
  | paren h1 _ ih => exact .paren h1 ih
  | un h1 _ ih => exact .un h1 ih
  | bin h1 _ _ ih1 ih2 => exact .bin h1 ih1 ih2
  | cond h1 _ _ _ ih1 ih2 ih3 => exact .cond h1 ih1 (ih2.mono (by omega)) ih3

/-- C34, syntax.  Only what is an expression of the C grammar is accepted, for tokens as the lexer gives them and constants as in C. -/
theorem c34_accepted {ts : List Tok} {b : Bool} (hu : Unmarked ts) (hc : Consts w ts) (h : evalExpr w ts = .ok b) :
    ∃ e, Writes w 1 1 e ts := by
  unfold evalExpr at h
  obtain ⟨⟨v, r⟩, h1, h2⟩ := bind_ok h
  cases r with
  | cons t r => cases h2
  | nil =>
    have hcm : ∀ (ts : List Tok) (p : Bool), Consts w ts → Consts w (mark p ts) := by
      intro ts
      induction ts with
      | nil => intro p h; exact h
      | cons t ts ih =>
        intro p h s hs
        unfold mark at hs
        have htl := ih (unary (markTok p t)) h.tail s
        simp only [List.mem_cons] at hs
        have hhead : ∀ x : Tok, (x = .num s ∨ x = .chr s) → x = markTok p t → ∃ v, Const w s v := by
          intro x hx he
          unfold markTok at he
          split at he
          · split at he <;> (subst he; rcases hx with hx | hx <;> cases hx)
          · split at he <;> (subst he; rcases hx with hx | hx <;> cases hx)
          · subst he
            rcases hx with rfl | rfl
            · exact h s (.inl List.mem_cons_self)
            · exact h s (.inr List.mem_cons_self)
        rcases hs with (hs | hs) | (hs | hs)
        · exact hhead _ (.inl rfl) hs
        · exact htl (.inl hs)
        · exact hhead _ (.inr rfl) hs
        · exact htl (.inr hs)
    obtain ⟨us, e, h3, h4, _⟩ := (accepted _).1 _ _ _ _ _ h1 (by omega) (hcm ts true hc)
    rw [List.append_nil] at h3
    obtain ⟨vs, r, rfl, h5, h6⟩ := unmark h4 ts [] hu (by rw [List.append_nil]; exact h3)
    cases r with
    | nil => exact ⟨e, by rw [List.append_nil]; exact h5.wide⟩
    | cons t r => unfold mark at h6; cases h6

/-- C34, constants.  Integer and character constants have the value and the type that C gives them. -/
theorem c34_constant (hw : w = 32 ∨ w = 64) {s : List Char} {v : SV} (h : Const w s v) :
    ∃ r : V w, strtoconst w s = .ok r ∧ r.sign = v.sign ∧ (if r.sign then r.v.toInt else (r.v.toNat : Int)) = v.x := by
  obtain ⟨h1, h2⟩ := strtoconst_const (wd hw) h
  refine ⟨_, h1, rfl, ?_⟩
  unfold Ok at h2
  unfold rep
  dsimp only
  split at h2
  · rename_i hs
    rw [if_pos hs, toInt_ofInt (wd hw) h2]
  · rename_i hs
    rw [if_neg hs, toNat_ofInt_ok h2.1 h2.2]

/-! ### examples -/

theorem digit1 (n : Nat) (h : n < 10) : Digits 10 [['0', '1', '2', '3', '4', '5', '6', '7', '8', '9'][n]!] n := by
  have := Digits.snoc (.nil (b := 10)) (.num n h h rfl)
  simpa using this

/-- constants of one digit -/
theorem const1 (n : Nat) (h0 : 0 < n) (h : n < 10) : Const 64 [['0', '1', '2', '3', '4', '5', '6', '7', '8', '9'][n]!] ⟨true, n⟩ := by
  have hne : (['0', '1', '2', '3', '4', '5', '6', '7', '8', '9'][n]! : Char) ≠ '0' := by
    have : ∀ n, n < 10 → 0 < n → (['0', '1', '2', '3', '4', '5', '6', '7', '8', '9'][n]! : Char) ≠ '0' := by decide
    exact this n h h0
  have := Const.signed (w := 64) (.dec hne (digit1 n h)) (t := []) (by decide) (by omega)
  simpa using this

theorem const0 : Const 64 ['0'] ⟨true, 0⟩ := by
  have := Const.signed (w := 64) (.oct .nil) (t := []) (by decide) (by omega)
  simpa using this

theorem const0u : Const 64 ['0', 'u'] ⟨false, 0⟩ := by
  have := Const.unsigned (w := 64) (.oct .nil) (t := ['u']) (by decide) (by omega)
  simpa using this

/-- `0xFFu` -/
example : Const 64 ['0', 'x', 'F', 'F', 'u'] ⟨false, 255⟩ := by
  have h : Digits 16 ['F', 'F'] 255 := .snoc (.snoc .nil (.up 5 (by omega) rfl)) (.up 5 (by omega) rfl)
  exact Const.unsigned (.hex (.inl rfl) (by simp) h) (t := ['u']) (by decide) (by omega)

/-- `'\x41'` -/
example : Const 32 ['\'', '\\', 'x', '4', '1', '\''] ⟨true, 65⟩ := by
  have h : Digits 16 ['4', '1'] 65 := .snoc (.snoc .nil (.num 4 (by omega) (by omega) rfl)) (.num 1 (by omega) (by omega) rfl)
  exact Const.char (.hex (by simp) h (by omega))

/-- `2 - 3 - 4 * -5 == 19 || 1 / 0` -/
def sampleE : E :=
  .bin .lor
    (.bin .same
      (.bin .minus (.bin .minus (.lit ⟨true, 2⟩) (.lit ⟨true, 3⟩)) (.bin .star (.lit ⟨true, 4⟩) (.un .uminus (.lit ⟨true, 5⟩))))
      (.lit ⟨true, 19⟩))
    (.bin .slash (.lit ⟨true, 1⟩) (.lit ⟨true, 0⟩))

def sampleT : List Tok :=
  [.num ['2'], .bin .minus, .num ['3'], .bin .minus, .num ['4'], .bin .star, .bin .minus, .num ['5'], .bin .same, .num ['1', '9'],
   .bin .lor, .num ['1'], .bin .slash, .num ['0']]

theorem sample_writes : Writes 64 2 1 sampleE sampleT := by
  have c19 : Const 64 ['1', '9'] ⟨true, 19⟩ := by
    have h : Digits 10 ['1', '9'] 19 := .snoc (.snoc .nil (.num 1 (by omega) (by omega) rfl)) (.num 9 (by omega) (by omega) rfl)
    exact Const.signed (.dec (by decide) h) (t := []) (by decide) (by omega)
  refine .bin (ts := [_, _, _, _, _, _, _, _, _, _]) (us := [_, _, _]) (by decide) ?_ ?_
  · refine .bin (ts := [_, _, _, _, _, _, _, _]) (us := [_]) (by decide) ?_ (.num (by decide) c19)
    refine .bin (ts := [_, _, _]) (us := [_, _, _, _]) (by decide) ?_ ?_
    · exact .bin (ts := [_]) (us := [_]) (by decide) (.num (by decide) (const1 2 (by omega) (by omega))) (.num (by decide) (const1 3 (by omega) (by omega)))
    · exact .bin (ts := [_]) (us := [_, _]) (by decide) (.num (by decide) (const1 4 (by omega) (by omega)))
        (.un (by decide) (.num (by decide) (const1 5 (by omega) (by omega))))
  · exact .bin (ts := [_]) (us := [_]) (by decide) (.num (by decide) (const1 1 (by omega) (by omega))) (.num (by decide) const0)

/-- the hypotheses of the theorem are met: the division is not evaluated -/
example : evalExpr 64 sampleT = .ok true :=
  c34_value_partial (v := ⟨true, 1⟩) (.inr rfl) sample_writes (by simp [sampleE, SameTypes]) (by simp [sampleE, Quiet, skipped]) (by decide)

/-- `1 && 1 / 0` is an error -/
example : evalExpr 64 [.num ['1'], .bin .land, .num ['1'], .bin .slash, .num ['0']] = .err :=
  c34_division_partial (e := .bin .land (.lit ⟨true, 1⟩) (.bin .slash (.lit ⟨true, 1⟩) (.lit ⟨true, 0⟩))) (.inr rfl)
    (.bin (ts := [_]) (us := [_, _, _]) (by decide) (.num (by decide) (const1 1 (by omega) (by omega)))
      (.bin (ts := [_]) (us := [_]) (by decide) (.num (by decide) (const1 1 (by omega) (by omega))) (.num (by decide) const0)))
    (by simp [SameTypes]) (by simp [Quiet, skipped]) (by decide)

/-- `- 1 < 0u` compares as unsigned -/
example : evalExpr 64 [.bin .minus, .num ['1'], .bin .lt, .num ['0', 'u']] = .ok false := by decide +kernel

/-- `1 +` is no expression -/
example : evalExpr 64 [.num ['1'], .bin .plus] = .err := by decide +kernel

/-! ### defects -/

/-- C34 fails: `(1 ? - 1 : 0u) > 0`.  In C the conditional has the unsigned type, so that the result is true; the code keeps the type of the selected operand (eval.c:660-662). -/
theorem c34_conditional_defect : ∃ (e : E) (ts : List Tok) (v : SV), Writes 64 1 1 e ts ∧ Quiet 64 e ∧
    sem 64 e = .val v ∧ v.x ≠ 0 ∧ evalExpr 64 ts = .ok false := by
  refine ⟨.bin .gt (.cond (.lit ⟨true, 1⟩) (.un .uminus (.lit ⟨true, 1⟩)) (.lit ⟨false, 0⟩)) (.lit ⟨true, 0⟩),
    [.lpar, .num ['1'], .quest, .bin .minus, .num ['1'], .colon, .num ['0', 'u'], .rpar, .bin .gt, .num ['0']], ⟨true, 1⟩, ?_, ?_, by decide, by decide, by decide +kernel⟩
  · refine .bin (ts := [_, _, _, _, _, _, _, _]) (us := [_]) (by decide) (.paren (ts := [_, _, _, _, _, _]) (by decide) ?_) (.num (by decide) const0)
    exact .cond (ts := [_]) (us := [_, _]) (vs := [_]) (by decide) (.num (by decide) (const1 1 (by omega) (by omega)))
      (.un (by decide) (.num (by decide) (const1 1 (by omega) (by omega)))) (.num (by decide) const0u)
  · simp [Quiet, skipped, semUn, fit, inS]

/-- C34 fails: `0 ? 1 , 2 : 3` is an expression of C, and the comma is not evaluated (6.6p3); the code rejects it (eval.c:650). -/
theorem c34_comma_defect : ∃ (e : E) (ts : List Tok), Writes 64 1 1 e ts ∧ SameTypes e ∧ Quiet 64 e ∧
    sem 64 e = .val ⟨true, 3⟩ ∧ evalExpr 64 ts = .err := by
  refine ⟨.cond (.lit ⟨true, 0⟩) (.bin .comma (.lit ⟨true, 1⟩) (.lit ⟨true, 2⟩)) (.lit ⟨true, 3⟩),
    [.num ['0'], .quest, .num ['1'], .bin .comma, .num ['2'], .colon, .num ['3']], ?_, ?_, ?_, by decide, by decide +kernel⟩
  · exact .cond (ts := [_]) (us := [_, _, _]) (vs := [_]) (by decide) (.num (by decide) const0)
      (.bin (ts := [_]) (us := [_]) (by decide) (.num (by decide) (const1 1 (by omega) (by omega))) (.num (by decide) (const1 2 (by omega) (by omega))))
      (.num (by decide) (const1 3 (by omega) (by omega)))
  · simp [SameTypes, ty]
  · simp [Quiet, skipped]

/-- C34 fails: in `0 && - ~ M`, with `M` the largest signed number, the right operand is not evaluated in C; the code negates it all the same (eval.c:606), with a signed overflow of its own. -/
theorem c34_negation_defect : ∃ (e : E) (ts : List Tok), Writes 64 1 1 e ts ∧ SameTypes e ∧
    sem 64 e = .val ⟨true, 0⟩ ∧ evalExpr 64 ts = .ub := by
  have hM : Const 64 ['0', 'x', '7', 'f', 'f', 'f', 'f', 'f', 'f', 'f', 'f', 'f', 'f', 'f', 'f', 'f', 'f', 'f'] ⟨true, 0x7fffffffffffffff⟩ := by
    have f : Digit 16 'f' 15 := .low 5 (by omega) rfl
    have h : Digits 16 ['7', 'f', 'f', 'f', 'f', 'f', 'f', 'f', 'f', 'f', 'f', 'f', 'f', 'f', 'f', 'f'] 0x7fffffffffffffff :=
      ((((((((((((((((Digits.nil.snoc (.num 7 (by omega) (by omega) rfl)).snoc f).snoc f).snoc f).snoc f).snoc f).snoc f).snoc f).snoc f).snoc f).snoc f).snoc f).snoc f).snoc f).snoc f).snoc f)
    exact Const.signed (.hex (.inl rfl) (by simp) h) (t := []) (by decide) (by omega)
  refine ⟨.bin .land (.lit ⟨true, 0⟩) (.un .uminus (.un .not (.lit ⟨true, 0x7fffffffffffffff⟩))),
    [.num ['0'], .bin .land, .bin .minus, .un .not, .num ['0', 'x', '7', 'f', 'f', 'f', 'f', 'f', 'f', 'f', 'f', 'f', 'f', 'f', 'f', 'f', 'f', 'f']],
    ?_, by simp [SameTypes], by decide, by decide +kernel⟩
  exact .bin (ts := [_]) (us := [_, _, _]) (by decide) (.num (by decide) const0)
    (.un (by decide) (.un (by decide) (.num (by decide) hM)))

end Smlr.Eval
