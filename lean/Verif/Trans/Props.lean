import Verif.Trans.Labels
import Verif.Expr.Sim3
import Verif.Cg.Props
import Verif.Trans.Front
import Verif.Parse.Props
set_option autoImplicit false
/-! C46: `exprval` keeps the meaning of expressions.

`den c e` is what the expression `e` means in C: its type, and a tree of operations on words, with conversions, scaling of pointer arithmetic and loads made explicit and nothing computed.  `exprval` gets the stack `e.post` that the parser builds, computes constant parts, and leaves the stack that the code generator gets. -/
namespace Smlr.Trans
open Smlr.Expr (Ty Sym Cfg V)

/-- Whatever is on the stack beside the expression: unless the stack gets too long, `exprval` succeeds, finds the type of the expression, changes its part of the stack only, and leaves there the tokens of a tree that the code generator can translate.  If evaluation of the expression has a defined outcome in all orders then so has evaluation of this tree, and what it leads to, value and memory, evaluation of the expression may lead to as well.
A constant is left as one number.  The labels of the tree are new and distinct. -/
theorem c46_exprval {c : Cfg} (hW : c.W = 2 ∨ c.W = 4) (e : Expr.E) (d : D) (hd : den c e = some d) (n : Nat) (hn : e.depth ≤ n) (A B : List (Expr.Tok × V)) (lab : Nat) (ws : List Expr.Warn) (h0 : 0 < lab) (hl : lab + labels e < 2 ^ 31) :
    Expr.exprval c n (A.length + e.post.length - 1) ⟨A ++ e.post ++ B, lab, ws⟩ = .error .long ∨
    ∃ (r : Expr.Res) (S : List (Expr.Tok × V)) (ws' : List Expr.Warn) (x : Cg.E),
      Expr.exprval c n (A.length + e.post.length - 1) ⟨A ++ e.post ++ B, lab, ws⟩ = .ok (r, ⟨A ++ S ++ B, lab + labels e, ws'⟩) ∧
      r.idx = A.length - 1 ∧ r.ty = d.ty ∧ (r.const = true → ∃ u, S = [(Expr.numTok u, r.s)]) ∧
      S.map tk = Cg.toks x ∧ x.ok c.W ∧ x.labels.Nodup ∧ (∀ l ∈ x.labels, lab ≤ l ∧ l < lab + labels e) ∧
      ∀ (V : Cg.Env c.W) (m : Cg.Mem c.W), Cg.Safe V d.x m → Cg.Safe V x m ∧ ∀ v m', Cg.Steps V x m (.num v) m' → ∃ w, Cg.wd c.W w = Cg.wd c.W v ∧ Cg.Steps V d.x m (.num w) m' := by
  obtain ⟨r, w, x, h1, g, -⟩ := runs_ev hW e d hd ⟨lab, ws⟩ h0 hl
  rcases Expr.exprval_ev e (wf_den e d hd) n hn A B lab ws with h | h
  · exact Or.inl h
  · right
    rw [h1] at h
    have hlab : x.labels.Nodup ∧ ∀ l ∈ x.labels, (lab : Int) ≤ l ∧ l < lab + labels e := by
      have hf := fresh_ev e _ _ _ h1
      have hs := cg_labs _ _ g.tree
      refine ⟨List.Nodup.sublist hs (List.Pairwise.map _ (fun a b hab e => hab (Int.ofNat.inj e)) hf.nodup), fun l hl => ?_⟩
      obtain ⟨k, hk, rfl⟩ := List.mem_map.mp (hs.subset hl)
      have := hf.mem k hk
      dsimp only at this
      exact ⟨Int.ofNat_le.mpr this.1, by have := this.2; show (k : Int) < _; omega⟩
    refine ⟨_, r.t.post, w, x, h, rfl, g.ty, fun hc => ⟨_, by rw [g.const hc]; rfl⟩, cg_toks _ _ g.tree, g.ok, hlab.1, hlab.2, fun V m hs => ?_⟩
    have hr := g.ref V
    refine ⟨hr.safe hs, fun v m' st => ?_⟩
    obtain ⟨y, s1, r1⟩ := hr.steps st hs
    obtain ⟨w, w1, w2⟩ := r1.sim.val v rfl m' (safe_steps hs s1)
    exact ⟨w, w1, s1.trans w2⟩

/-- From the stack of the parser to x86 code: unless the stack gets too long, there is code for every expression that has a meaning.  Wherever it is in a program whose labels are distinct, and as long as the words under the stack pointer that it needs are not part of objects, it leaves in `ax` a value that evaluation of the expression may give, in the objects what it then leaves there, and changes nothing else.  The labels in the code are distinct, and they are among those that `exprval` has taken. -/
theorem c46_code {c : Cfg} (hW : c.W = 2 ∨ c.W = 4) (e : Expr.E) (d : D) (hd : den c e = some d) (n : Nat) (hn : e.depth ≤ n) (lab : Nat) (ws : List Expr.Warn) (h0 : 0 < lab) (hl : lab + labels e < 2 ^ 31) :
    Expr.exprval c n (e.post.length - 1) ⟨e.post, lab, ws⟩ = .error .long ∨
    ∃ (r : Expr.Res) (S : List (Expr.Tok × V)) (ws' : List Expr.Warn) (code : List Cg.Ins) (k : Nat),
      Expr.exprval c n (e.post.length - 1) ⟨e.post, lab, ws⟩ = .ok (r, ⟨S, lab + labels e, ws'⟩) ∧ r.ty = d.ty ∧
      Cg.genExpr c.W (S.map tk) = some code ∧ (Cg.labs code).Nodup ∧ (∀ l ∈ Cg.labs code, lab ≤ l ∧ l < lab + labels e) ∧
      ∀ (V : Cg.Env c.W) (P pre post : List Cg.Ins) (s : Cg.St c.W), P = pre ++ code ++ post → (Cg.labs P).Nodup → s.bp = V.bp →
        Cg.StkOk V.A s.sp k → Cg.Safe V d.x s.mem →
        ∃ s' v m', Cg.Run V.G P pre.length s (pre.length + code.length) s' ∧ Cg.Steps V d.x s.mem (.num v) m' ∧ s'.ax = Cg.wd c.W v ∧
          s'.sp = s.sp ∧ s'.bp = s.bp ∧ (∀ a, V.A a → s'.mem a = m' a) ∧
          ∀ a, ¬ V.A a → ¬ Cg.Zone s.sp k a → s'.mem a = s.mem a := by
  have := c46_exprval hW e d hd n hn [] [] lab ws h0 hl
  simp only [List.length_nil, List.nil_append, List.append_nil, Int.ofNat_zero, Int.natCast_zero, Int.zero_add] at this
  rcases this with h | ⟨r, S, ws', x, h1, -, h2, -, h3, h4, l1, l2, h5⟩
  · exact Or.inl h
  · right
    obtain ⟨code, g1, g2⟩ := Cg.c25_code hW x h4
    have gl := Cg.genExpr_labs hW x h4 g1
    refine ⟨r, S, ws', code, x.depth, h1, h2, by rw [h3]; exact g1, l1.sublist gl, fun l hl => l2 l (gl.subset hl), ?_⟩
    intro V P pre post s hP hn hb hs hsafe
    obtain ⟨k1, k2⟩ := h5 V s.mem hsafe
    obtain ⟨s', v, m', t1, t2, t3, t4⟩ := g2 V P pre post s hP hn hb hs k1
    obtain ⟨w, w1, w2⟩ := k2 v m' t2
    exact ⟨s', w, m', t1, w2, by rw [t3, w1], t4⟩

/-- From the tokens of the source to x86 code.  The tokens of an expression that has a meaning, followed by a token that can follow one, are read up to that token; then the parser and `exprval` leave a stack from which the code generator makes code that computes the expression (see `c46_code`) - unless one of them says that the expression is too long.  `nm` are the names under which types are entered in the table of identifiers. -/
theorem c46_compile {c : Cfg} (hW : c.W = 2 ∨ c.W = 4) (nm : Nat → V) {ts : List Parse.Lx} {ex : Parse.Spec.Ex} (dv : Parse.Spec.D 1 ts ex) (e : Expr.E) (he : toE nm ex = some e) (d : D) (hd : den c e = some d)
    (cap : Parse.Cap) (t : Parse.Lx) (ht : Parse.Spec.stop t.1) (hc : t.1 ≠ .comma) (rest O : List Parse.Lx) (lab : Nat) (ws : List Expr.Warn) (h0 : 0 < lab) (hl : lab + labels e < 2 ^ 31) :
    ∃ N, ∀ n, N ≤ n →
      Parse.parse cap n false ⟨ts ++ t :: rest, [], O⟩ = .error .long ∨
      ∃ stk, Parse.parse cap n false ⟨ts ++ t :: rest, [], O⟩ = .ok ((t, true), ⟨rest, stk, O⟩) ∧
        (Expr.exprval c n (stk.length - 1) ⟨stk.map (lx nm), lab, ws⟩ = .error .long ∨
        ∃ (r : Expr.Res) (S : List (Expr.Tok × V)) (ws' : List Expr.Warn) (code : List Cg.Ins) (k : Nat),
          Expr.exprval c n (stk.length - 1) ⟨stk.map (lx nm), lab, ws⟩ = .ok (r, ⟨S, lab + labels e, ws'⟩) ∧ r.ty = d.ty ∧
          Cg.genExpr c.W (S.map tk) = some code ∧ (Cg.labs code).Nodup ∧ (∀ l ∈ Cg.labs code, lab ≤ l ∧ l < lab + labels e) ∧
          ∀ (V : Cg.Env c.W) (P pre post : List Cg.Ins) (s : Cg.St c.W), P = pre ++ code ++ post → (Cg.labs P).Nodup → s.bp = V.bp →
            Cg.StkOk V.A s.sp k → Cg.Safe V d.x s.mem →
            ∃ s' v m', Cg.Run V.G P pre.length s (pre.length + code.length) s' ∧ Cg.Steps V d.x s.mem (.num v) m' ∧ s'.ax = Cg.wd c.W v ∧
              s'.sp = s.sp ∧ s'.bp = s.bp ∧ (∀ a, V.A a → s'.mem a = m' a) ∧
              ∀ a, ¬ V.A a → ¬ Cg.Zone s.sp k a → s'.mem a = s.mem a) := by
  obtain ⟨N, hN⟩ := Parse.c24_long dv cap t ht hc rest [] O
  refine ⟨N + e.depth, fun n hn => ?_⟩
  rcases hN n (by omega) with h | h
  · exact Or.inl h
  · refine Or.inr ⟨ex.post, h, ?_⟩
    have hp := toE_post nm ex e he
    have hlen : (ex.post.length : Int) = e.post.length := by rw [← hp, List.length_map]
    rw [hp, hlen]
    exact c46_code hW e d hd n (by omega) lab ws h0 hl

/-! ### where the compiler departs from C -/

private def exC (W : Nat) : Cfg := ⟨W, true, fun s =>
  if s = 1#32 then some (.localVar (-12) (.arr 10 .char)) else if s = 2#32 then some (.globalVar (.ptr .int)) else if s = 3#32 then some (.localVar (-4) .uchar) else if s = 4#32 then some (.cast .short) else none⟩

/-- The value of an array as the right operand of a comma operator is a pointer to its first element (C99 6.3.2.1), so that `sizeof (0, a)` is the size of a pointer.  The compiler makes it the size of the array: with `char a[10]`, 10. -/
theorem c46_comma_defect (n : Nat) :
    (Expr.exprval (exC 4) (n + 5) 3 ⟨(Expr.E.sizeof (.comma (.num false 0#32) (.id 1#32))).post, 1, []⟩).toOption.map (fun p => (p.1.ty, p.1.const, p.1.s)) = some (.uint, true, 10#32) := rfl

/-! ### cases -/

/-- `a[*p] = c + 1 > 2 || p == 0`, with `char a[10]`, `int *p` and `unsigned char c`: the type is `char`; the index is scaled by 1 (a multiplication that is left out of the code), the comparisons are signed and unsigned, and the result of || is stored as a byte -/
example : den (exC 4) (.assign (.deref (.add .plus (.id 1#32) (.deref (.id 2#32)))) (.logic false (.rel .gt (.add .plus (.id 3#32) (.num false 1#32)) (.num false 2#32)) (.rel .eq (.id 2#32) (.num false 0#32)))) =
    some { ty := .char, x := .asg (-1) (.bin .add (.loc (-12)) (.bin .mul (.deref 4 (.deref 4 (.glob 2))) (.num 1))) (.lor 0 (.cmp .gt (.bin .add (.deref 1 (.loc (-4))) (.num 1)) (.num 2)) (.cmp .eq (.deref 4 (.glob 2)) (.num 0))) } := rfl

/-- `p + 3 - 2 * 2`: the constants are scaled and folded -/
example : den (exC 4) (.add .minus (.add .plus (.id 2#32) (.num false 3#32)) (.bin .mul (.num false 2#32) (.num false 2#32))) =
    some { ty := .ptr .int, x := .bin .sub (.bin .add (.deref 4 (.glob 2)) (.bin .mul (.num 3) (.num 4))) (.bin .mul (.bin .mul (.num 2) (.num 2)) (.num 4)) } := rfl

example : (Expr.exprval (exC 4) 9 6 ⟨(Expr.E.add .minus (.add .plus (.id 2#32) (.num false 3#32)) (.bin .mul (.num false 2#32) (.num false 2#32))).post, 1, []⟩).toOption.map (fun p => p.2.stack.map tk) =
    some (Cg.toks (.bin .add (.deref 4 (.glob 2)) (.num (-4)))) := by decide

/-- `-1 / 2u ? (short)c : 5`: the condition is unsigned, hence not zero, and nothing but the cast is left -/
example : (Expr.exprval (exC 4) 9 7 ⟨(Expr.E.cond (.bin .div (.un .neg (.num false 1#32)) (.num true 2#32)) (.cast 4#32 (.id 3#32)) (.num false 5#32)).post, 1, []⟩).toOption.map (fun p => (p.1.ty, p.2.stack.map tk)) =
    some (.int, Cg.toks (.un .short (.deref 1 (.loc (-4))))) := by decide

/-- `0 || c` is left for the code -/
example : (Expr.exprval (exC 2) 9 2 ⟨(Expr.E.logic false (.num false 0#32) (.id 3#32)).post, 7, []⟩).toOption.map (fun p => p.2.stack.map tk) =
    some (Cg.toks (.lor 7 (.num 0) (.un .bool (.deref 1 (.loc (-4)))))) := by decide

/-- `*p++ = !c;` has a derivation and a meaning -/
example : ∃ ex e d, Parse.Spec.D 1 [(.star, 0), (.ident, 2), (.inc, 0), (.assign, 0), (.excl, 0), (.ident, 3)] ex ∧ toE (fun _ => 4#32) ex = some e ∧ den (exC 4) e = some d ∧
    d.x = .asg 4 (.padd false 4 4 (.glob 2)) (.cmp .eq (.deref 1 (.loc (-4))) (.num 0)) := by
  refine ⟨.assign .set (.un .deref (.postfix false (.id 2))) (.un .lnot (.id 3)), _, _, ?_, rfl, rfl, rfl⟩
  have i : ∀ n, Parse.Spec.D 14 [(.ident, n)] (.id n) := fun n => .up (by omega) (.up (by omega) (.up (by omega) (.id n)))
  refine .up (by omega) (.assign .set (ts := [(.star, 0), (.ident, 2), (.inc, 0)]) (.un .deref (.up (by omega) (.up (by omega) (.postfix false (ts := [(.ident, 2)]) (.up (by omega) (.id 2)))))) ?_)
  have up : ∀ k p ts e, 1 ≤ p → Parse.Spec.D (p + k) ts e → Parse.Spec.D p ts e := by
    intro k
    induction k with
    | zero => intro p ts e _ h; exact h
    | succ k ih => intro p ts e hp h; exact .up hp (ih (p + 1) ts e (by omega) (by rwa [show p + 1 + k = p + (k + 1) by omega]))
  exact up 13 2 _ _ (by omega) (.un .lnot (i 3))

end Smlr.Trans
