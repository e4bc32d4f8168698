import Verif.Mips.Labels
set_option autoImplicit false
/-! C51: the MIPS code for an integer expression computes its value.

`toks e` is the stack that the parser builds for the expression `e`; `genExpr` is `GenExpr0`, with `GenPrep`; `Steps` is evaluation as C defines it, with unsequenced operands evaluated in any order; `Safe` says that no order leads to undefined behaviour. -/
namespace Smlr.Mips
open Smlr.Cg (Wd Mem ld st wd Env E Steps Safe StkOk Zone toks ev exV exI exI_safe)

theorem dep_words (e : E) : dep 0 (temps e) = words e := by unfold dep words; omega

/-- There is code for every expression whose value is used (`tokReturn` is at the end of the stack).  Wherever it is in a program whose labels are distinct, whatever the registers, memory and stack are, as long as the words under the stack pointer that it needs are not part of objects: it runs to its end, leaves in `$2` the value of the expression, in the objects what evaluation in one of the orders allowed by C leaves there, and does not change the stack pointer, the frame pointer, the registers that functions preserve, or anything else in memory. -/
theorem c51_code (e : E) (h : e.ok 4) (ht : typed e) :
    ∃ code, genExpr (toks e ++ [(.ret, 0)]) = some code ∧
      ∀ (V : Env 4) (P pre post : List Ins) (s : St), P = pre ++ code ++ post → (labs P).Nodup → s.fp = V.bp → StkOk V.A s.sp (words e) → Safe V e s.mem →
        ∃ s' v m', Run V.G P pre.length s (pre.length + code.length) s' ∧ Steps V e s.mem (.num v) m' ∧ s'.r 2 = wd 4 v ∧ s'.sp = s.sp ∧
          (∀ i, saved i → s'.r i = s.r i) ∧ (∀ a, V.A a → s'.mem a = m' a) ∧ ∀ a, ¬ V.A a → ¬ Zone s.sp (words e) a → s'.mem a = s.mem a := by
  obtain ⟨c, g, sm⟩ := full e h ht 0
  refine ⟨c, genExpr_ret e g, ?_⟩
  intro V P pre post s hP hn hb hs hsafe
  rw [← dep_words] at hs ⊢
  obtain ⟨s', v, m', h1, h2, h3, h4, h5, h6⟩ := sm V P pre post hP hn s s.mem hb (fun _ _ => rfl) hs hsafe
  exact ⟨s', v, m', h1, h2, h3, h4.sp, h4.sv, h5, h6⟩

/-- The same for expressions whose value is not used; it need not be in `$2`. -/
theorem c51_effect (e : E) (h : e.ok 4) (ht : typed e) :
    ∃ code, genExpr (toks e) = some code ∧
      ∀ (V : Env 4) (P pre post : List Ins) (s : St), P = pre ++ code ++ post → (labs P).Nodup → s.fp = V.bp → StkOk V.A s.sp (words e) → Safe V e s.mem →
        ∃ s' v m', Run V.G P pre.length s (pre.length + code.length) s' ∧ Steps V e s.mem (.num v) m' ∧ s'.sp = s.sp ∧
          (∀ i, saved i → s'.r i = s.r i) ∧ (∀ a, V.A a → s'.mem a = m' a) ∧ ∀ a, ¬ V.A a → ¬ Zone s.sp (words e) a → s'.mem a = s.mem a := by
  obtain ⟨c, g, sm⟩ := effect e h ht
  refine ⟨c, g, ?_⟩
  intro V P pre post s hP hn hb hs hsafe
  rw [← dep_words] at hs ⊢
  obtain ⟨s', v, m', h1, h2, h4, h5, h6⟩ := sm V P pre post hP hn s s.mem hb (fun _ _ => rfl) hs hsafe
  exact ⟨s', v, m', h1, h2, h4.sp, h4.sv, h5, h6⟩

/-- The code of a condition jumps to the label (and passes it) if the value is not zero, for `nz`, or if it is zero, for not `nz`; otherwise it goes on with what follows. -/
theorem c51_branch (e : E) (h : e.ok 4) (ht : typed e) (nz : Bool) (lab : Int) :
    ∃ code, branch e nz lab = some code ∧
      ∀ (V : Env 4) (P pre post p' q' : List Ins) (s : St), P = pre ++ code ++ post → P = p' ++ .lab lab :: q' → (labs P).Nodup →
        s.fp = V.bp → StkOk V.A s.sp (words e) → Safe V e s.mem →
        ∃ s' v m', Run V.G P pre.length s (if (wd 4 v ≠ 0 ↔ nz = true) then p'.length + 1 else pre.length + code.length) s' ∧
          Steps V e s.mem (.num v) m' ∧ s'.sp = s.sp ∧ (∀ i, saved i → s'.r i = s.r i) ∧ (∀ a, V.A a → s'.mem a = m' a) ∧
          ∀ a, ¬ V.A a → ¬ Zone s.sp (words e) a → s'.mem a = s.mem a := by
  obtain ⟨c, g, sm⟩ := branch_ok e h ht nz lab
  refine ⟨c, g, ?_⟩
  intro V P pre post p' q' s hP hP' hn hb hs hsafe
  rw [← dep_words] at hs ⊢
  obtain ⟨s', v, m', h1, h2, h4, h5, h6⟩ := sm V P pre post p' q' hP hP' hn s s.mem hb (fun _ _ => rfl) hs hsafe
  refine ⟨s', v, m', ?_, h2, h4.sp, h4.sv, h5, h6⟩
  have : (decide (wd 4 v ≠ 0) = nz) ↔ (wd 4 v ≠ 0 ↔ nz = true) := by cases nz <;> simp
  have h1 := h1.run
  unfold Cg.dest at h1
  by_cases hc : decide (wd 4 v ≠ 0) = nz
  · rw [if_pos hc] at h1; rw [if_pos (this.mp hc)]; exact h1
  · rw [if_neg hc] at h1; rw [if_neg (fun h => hc (this.mpr h))]; exact h1

/-- The labels that the code defines are those of the expression, each once, if they are distinct in the expression. -/
theorem c51_labels (e : E) (hd : e.labels.Nodup) (code : List Ins)
    (hc : genExpr (toks e) = some code ∨ genExpr (toks e ++ [(.ret, 0)]) = some code ∨ ∃ nz lab, branch e nz lab = some code) :
    (labs code).Nodup ∧ ∀ l ∈ labs code, l ∈ e.labels := by
  have : (labs code).Sublist e.labels := by
    rcases hc with hc | hc | ⟨nz, lab, hc⟩
    · exact top_labs e hc
    · exact ret_labs e hc
    · exact branch_labs e nz lab hc
  exact ⟨hd.sublist this, fun l hl => this.subset hl⟩

/-- An expression without side effects has one value, the one that its operators give; the code computes it and leaves the objects alone. -/
theorem c51_pure (e : E) (h : e.ok 4) (ht : typed e) (hp : e.pure = true) :
    ∃ code, genExpr (toks e ++ [(.ret, 0)]) = some code ∧
      ∀ (V : Env 4) (P pre post : List Ins) (s : St) (v : Int), P = pre ++ code ++ post → (labs P).Nodup → s.fp = V.bp →
        StkOk V.A s.sp (words e) → ev V s.mem e = some v →
        ∃ s', Run V.G P pre.length s (pre.length + code.length) s' ∧ s'.r 2 = wd 4 v ∧ s'.sp = s.sp ∧ (∀ i, saved i → s'.r i = s.r i) ∧
          ∀ a, ¬ Zone s.sp (words e) a → s'.mem a = s.mem a := by
  obtain ⟨c, g, sm⟩ := c51_code e h ht
  refine ⟨c, g, ?_⟩
  intro V P pre post s v hP hn hb hs hv
  obtain ⟨s', w, m', h1, h2, h3, h4, h5, h6, h7⟩ := sm V P pre post s hP hn hb hs (Cg.pure_safe hp hv)
  obtain ⟨k1, _, k2⟩ := Cg.pure_steps h2 hp
  rw [hv] at k2
  cases k2
  refine ⟨s', h1, h3, h4, h5, fun a hz => ?_⟩
  by_cases ha : V.A a
  · rw [h6 a ha, k1]
  · exact h7 a ha hz

/-- One step of the machine leads to one state: the runs of the theorems above are the only ones. -/
theorem c51_run (G : Int → Wd 4) (P : List Ins) (pc : Nat) (s : St) (p1 p2 : Nat) (s1 s2 : St) (h1 : Run G P pc s p1 s1) (h2 : Run G P pc s p2 s2) :
    Run G P p1 s1 p2 s2 ∨ Run G P p2 s2 p1 s1 := by
  induction h1 with
  | refl => exact Or.inl h2
  | step hs hr ih =>
    cases h2 with
    | refl => exact Or.inr (.step hs hr)
    | step hs' hr' =>
      rw [hs] at hs'
      cases hs'
      exact ih hr'

/-! ### Examples -/

/-- the example of `Cg`: `(x - 7 * y) < 3 && (unsigned char)z` -/
example : genExpr (toks Cg.exE ++ [(.ret, 0)]) = some [
    .lui 1, .load .lw 2 (.lo 1), .lui 2, .load .lw 8 (.lo 2), .li 9 7, .alu .mul 8 8 (.reg 9), .alu .subu 2 2 (.reg 8),
    .alu .slt 2 2 (.imm 3), .beq 2 0 20, .load .lw 2 (.ind 30 (-8)), .alu .and 2 2 (.imm 255), .alu .sltu 2 0 (.reg 2), .lab 20] := by decide +kernel

example : Cg.exE.ok 4 ∧ typed Cg.exE ∧ Cg.exE.pure = true ∧ words Cg.exE = 0 :=
  ⟨by simp [Cg.exE, E.ok, E.isBool, Cg.okSz], by simp [Cg.exE, typed, isVoid], rfl, rfl⟩

/-- `a[i] %= 16u`, `x = 0`, `p->c == 0x7FFFFFFF ? …` -/
example : genExpr (toks (.asgo .umod 4 (.bin .add (.glob 1) (.bin .mul (.deref 4 (.loc (-4))) (.num 4))) (.num 16))) = some [
    .la 2 1, .load .lw 8 (.ind 30 (-4)), .alu .sll 8 8 (.imm 2), .alu .addu 2 2 (.reg 8), .li 8 15, .move 25 2, .load .lw 2 (.ind 2 0),
    .alu .and 2 2 (.reg 8), .store .sw 2 (.ind 25 0)] := by decide +kernel

example : genExpr (toks (.asg 1 (.glob 1) (.num 0))) = some [.lui 1, .store .sb 0 (.lo 1)] := by decide +kernel

example : branch (.cmp .gt (.num 5) (.deref 4 (.loc 8))) false 3 = some [.load .lw 2 (.ind 30 8), .alu .slt 2 2 (.imm 5), .beq 2 0 3] := by decide +kernel

example : branch (.cmp .ugt (.deref 4 (.loc 8)) (.num (-1))) true 3 = some [.load .lw 2 (.ind 30 8), .alu .and 2 2 (.imm 0), .bne 2 0 3] := by decide +kernel

/-- an expression with more intermediate values than registers: `x - (x - (x - … ))` -/
def deepE : Nat → E
  | 0 => .deref 4 (.glob 1)
  | n + 1 => .bin .sub (.deref 4 (.glob 1)) (deepE n)

example : words (deepE 10) = 2 ∧ (deepE 10).ok 4 ∧ typed (deepE 10) ∧ (deepE 10).pure = true :=
  ⟨rfl, by simp [deepE, E.ok, Cg.okSz], by simp [deepE, typed, isVoid], rfl⟩

/-- the stack pointer is at 4096, the frame pointer at 128 -/
def exS (m : Mem 4) : St := ⟨fun i => if i = 29 then 4096 else if i = 30 then 128 else 0, 0, 0, m⟩

theorem exStk (m : Mem 4) (d : Nat) (hd : d ≤ 10) : StkOk exV.A (exS m).sp d := Cg.exStk m d hd

/-- with `x = 7` at the address 4, the value of `x - (x - … )` with eleven `x` is 7, and that is what the code puts into `$2` -/
example (m : Mem 4) (hm : ld m 4 4 = 7) :
    ∃ code s', genExpr (toks (deepE 10) ++ [(.ret, 0)]) = some code ∧ Run exV.G code 0 (exS m) code.length s' ∧ s'.r 2 = 7 := by
  have acc : Cg.Acc exV.A (wd 4 (exV.G 1).toInt) 4 := by
    intro i hi
    show (wd 4 (exV.G 1).toInt + BitVec.ofNat _ i).toNat < 256
    simp at hi
    have : i = 0 ∨ i = 1 ∨ i = 2 ∨ i = 3 := by omega
    rcases this with rfl | rfl | rfl | rfl <;> decide
  have hx : ev exV m (.deref 4 (.glob 1)) = some 7 := by
    simp only [ev, Option.bind_some, if_pos acc]
    have e1 : wd 4 (exV.G 1).toInt = 4 := by decide
    rw [e1]
    show some (Cg.conv 4 (ld m 4 4 : Int)) = some 7
    rw [hm]; decide
  have he : ∀ n, ev exV m (deepE n) = some (if n % 2 = 0 then 7 else 0) := by
    intro n
    induction n with
    | zero => exact hx
    | succ n ih =>
      show (ev exV m (.deref 4 (.glob 1))).bind _ = _
      rw [hx, Option.bind_some, ih, Option.bind_some]
      rcases Nat.mod_two_eq_zero_or_one n with h | h
      · rw [if_pos h, if_neg (by omega)]; decide
      · rw [if_neg (by omega), if_pos (by omega)]; decide
  obtain ⟨code, h1, h2⟩ := c51_pure (deepE 10) (by simp [deepE, E.ok, Cg.okSz]) (by simp [deepE, typed, isVoid]) rfl
  have hl : (labs code).Nodup := (c51_labels (deepE 10) List.nodup_nil code (Or.inr (Or.inl h1))).1
  obtain ⟨s', r1, r2, -⟩ := h2 exV code [] [] (exS m) 7 (by simp) hl rfl (exStk m _ (by decide)) (he 10)
  rw [List.length_nil, Nat.zero_add] at r1
  exact ⟨code, s', h1, r1, by rw [r2]; decide⟩

/-- `c++` is safe (`Cg.exI_safe`): its value is not used, and the code increments the character at 12 -/
example (m : Mem 4) : genExpr (toks exI) = some [.lui 3, .load .lb 2 (.lo 3), .alu .addu 2 2 (.imm 1), .lui 3, .store .sb 2 (.lo 3), .alu .addu 2 2 (.imm (-1)), .seb 2 2] ∧
    Safe exV exI m ∧ exI.ok 4 ∧ typed exI := ⟨by decide +kernel, exI_safe m, by simp [exI, E.ok, Cg.okSz], by simp [exI, typed, isVoid]⟩

end Smlr.Mips
