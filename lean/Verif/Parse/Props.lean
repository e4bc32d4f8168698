import Verif.Parse.Derive
import Verif.Parse.Caps
set_option autoImplicit false
/-! C24 -/
namespace Smlr.Parse
open Spec

/-- `ParseExpr` and the other users call `expr` with the first token read already -/
def parse (c : Cap) (n : Nat) (cs : Bool) : P (Lx × Bool) := getToken >>= fun x => expr c n x cs

/-- C24.  The tokens of an expression, followed by a token that can follow one, are turned into the reverse Polish notation of the tree that the grammar gives them.  The stacks below are left
alone, the following token is returned, and nothing behind it is read.  Twice the number of tokens on each stack (and one on the operator stack) is enough. -/
theorem c24_parse {ts : List Lx} {e : Ex} (d : D 1 ts e) (c : Cap) (t : Lx) (ht : stop t.1) (hc : t.1 ≠ .comma) (rest A O : List Lx)
    (hS : A.length + 2 * ts.length ≤ c.S) (hP : O.length + 2 * ts.length + 1 ≤ c.P) :
    ∃ N, ∀ n, N ≤ n → parse c n false ⟨ts ++ t :: rest, A, O⟩ = .ok ((t, true), ⟨rest, A ++ e.post, O⟩) := by
  have h := (D_good (c := c) d).expr (cs := false) d (by omega) (by simp) A O t rest (by
    rw [fix_ne hc]; obtain ⟨t, v⟩ := t; cases t <;> first | rfl | exact ht.elim) hS hP
  rwa [fix_ne hc] at h

/-- The same where the comma is a separator (arguments, initialisers): there an assignment expression is read. -/
theorem c24_parse_separated {ts : List Lx} {e : Ex} (d : D 2 ts e) (c : Cap) (t : Lx) (ht : stop t.1) (rest A O : List Lx)
    (hS : A.length + 2 * ts.length ≤ c.S) (hP : O.length + 2 * ts.length + 1 ≤ c.P) :
    ∃ N, ∀ n, N ≤ n → parse c n true ⟨ts ++ t :: rest, A, O⟩ = .ok ((t, true), ⟨rest, A ++ e.post, O⟩) := by
  have e1 : fixComma true t = t := if_neg (by simp)
  have h := (D_good (c := c) d).expr (cs := true) d (by omega) (by simp) A O t rest (by
    rw [e1]; obtain ⟨t, v⟩ := t; cases t <;> first | rfl | exact ht.elim) hS hP
  rwa [e1] at h

/-- Whatever the sizes of the stacks, an expression is turned into its own tree or given up with the message that it is too long. -/
theorem c24_long {ts : List Lx} {e : Ex} (d : D 1 ts e) (c : Cap) (t : Lx) (ht : stop t.1) (hc : t.1 ≠ .comma) (rest A O : List Lx) :
    ∃ N, ∀ n, N ≤ n → parse c n false ⟨ts ++ t :: rest, A, O⟩ = .error .long ∨ parse c n false ⟨ts ++ t :: rest, A, O⟩ = .ok ((t, true), ⟨rest, A ++ e.post, O⟩) := by
  obtain ⟨N, hN⟩ := c24_parse d ⟨c.S + A.length + 2 * ts.length, c.P + O.length + 2 * ts.length + 1⟩ t ht hc rest A O (by simp only; omega) (by simp only; omega)
  refine ⟨N, fun n hn => ?_⟩
  have h : Sub (parse c n false) (parse ⟨c.S + A.length + 2 * ts.length, c.P + O.length + 2 * ts.length + 1⟩ n false) :=
    Sub.rfl.bind fun x => (sub_all (by simp only; omega) (by simp only; omega) n).2.2.2.2.1 x false
  rcases h ⟨ts ++ t :: rest, A, O⟩ with h | h
  · exact .inl h
  · exact .inr (h.trans (hN n hn))

/-- Redundant parentheses: an expression in parentheses may be written in the place of any operand, and it makes the tree of the expression. -/
theorem c24_paren {ts : List Lx} {e : Ex} (d : D 1 ts e) (c : Cap) (t : Lx) (ht : stop t.1) (hc : t.1 ≠ .comma) (rest A O : List Lx)
    (hS : A.length + 2 * ts.length + 4 ≤ c.S) (hP : O.length + 2 * ts.length + 5 ≤ c.P) :
    ∃ N, ∀ n, N ≤ n → parse c n false ⟨((.lpar, 0) :: ts ++ [(.rpar, 0)]) ++ t :: rest, A, O⟩ = parse c n false ⟨ts ++ t :: rest, A, O⟩ := by
  have up : ∀ k p ts e, 1 ≤ p → D (p + k) ts e → D p ts e := by
    intro k
    induction k with
    | zero => intro p ts e _ h; exact h
    | succ k ih => intro p ts e hp h; exact .up hp (ih (p + 1) ts e (by omega) (by rwa [show p + 1 + k = p + (k + 1) by omega]))
  obtain ⟨N1, h1⟩ := c24_parse d c t ht hc rest A O (by omega) (by omega)
  obtain ⟨N2, h2⟩ := c24_parse (up 16 1 _ _ (by omega) (D.paren d)) c t ht hc rest A O (by simp; omega) (by simp; omega)
  exact ⟨N1 + N2, fun n hn => by rw [h1 n (by omega), h2 n (by omega)]⟩

/-- Whatever the input, well-formed or not, neither stack is ever written to outside its array: after any call that returns, both are within their sizes. -/
theorem c24_bounded (c : Cap) (n : Nat) (cs : Bool) (inp A O : List Lx) (hA : A.length ≤ c.S) (hO : O.length ≤ c.P) (r : Lx × Bool) (s' : PS)
    (h : parse c n cs ⟨inp, A, O⟩ = .ok (r, s')) : s'.stk.length ≤ c.S ∧ s'.ops.length ≤ c.P :=
  (keep_getToken.bind fun x => (keep_all n).2.2.2.2.1 x cs) ⟨inp, A, O⟩ ⟨hA, hO⟩ r s' h

example : parse ⟨4, 3⟩ 20 false ⟨[(.ident, 1), (.star, 0), (.numInt, 2), (.semi, 0)], [], []⟩ = .ok (((.semi, 0), true), ⟨[], [(.ident, 1), (.numInt, 2), (.star, 0)], []⟩) := by rfl

/-- Two trees of the same tokens are the same for the compiler. -/
theorem c24_unambiguous {ts : List Lx} {e e' : Ex} (d : D 1 ts e) (d' : D 1 ts e') : e.post = e'.post := by
  obtain ⟨N, h⟩ := c24_parse d ⟨2 * ts.length, 2 * ts.length + 1⟩ (.semi, 0) trivial (by simp) [] [] [] (by simp) (by simp)
  obtain ⟨N', h'⟩ := c24_parse d' ⟨2 * ts.length, 2 * ts.length + 1⟩ (.semi, 0) trivial (by simp) [] [] [] (by simp) (by simp)
  have e1 := h (N + N') (by omega)
  rw [h' (N + N') (by omega)] at e1
  simp only [Except.ok.injEq, Prod.mk.injEq, PS.mk.injEq, List.nil_append] at e1
  exact e1.2.2.1.symm

/-! ### cases -/

private def v (n : Nat) : Lx := (.ident, n)

/-- `a - b - c * d`: a derivation, and what the parser makes of it -/
example : D 12 [v 0, (.minus, 0), v 1, (.minus, 0), v 2, (.star, 0), v 3] (.bin .sub (.bin .sub (.id 0) (.id 1)) (.bin .mul (.id 2) (.id 3))) := by
  have i : ∀ n, D 13 [v n] (.id n) := fun n => .up (by omega) (.up (by omega) (.up (by omega) (.up (by omega) (.id n))))
  exact .bin .sub (ts := [v 0, (.minus, 0), v 1]) (.bin .sub (ts := [v 0]) (.up (by decide) (i 0)) (i 1)) (.bin .mul (ts := [v 2]) (i 2) (.up (by decide) (.up (by decide) (.up (by decide) (.id 3)))))

deriving instance DecidableEq for PS

/-- `a = b ? c, d : e || f` -/
example : ((parse ⟨129, 129⟩ 40 false ⟨[v 0, (.assign, 0), v 1, (.quest, 0), v 2, (.comma, 0), v 3, (.colon, 0), v 4, (.lor, 0), v 5, (.semi, 0)], [], []⟩).toOption.map (·.2.stk))
    = some (Ex.assign .set (.id 0) (.cond (.id 1) (.comma (.id 2) (.id 3)) (.bin .lor (.id 4) (.id 5)))).post := by decide +kernel

/-- `f(a, b + 1)[2].m` -/
example : ((parse ⟨129, 129⟩ 40 false ⟨[v 9, (.lpar, 0), v 0, (.comma, 0), v 1, (.plus, 0), (.numInt, 1), (.rpar, 0), (.lbrk, 0), (.numInt, 2), (.rbrk, 0), (.dot, 0), v 7, (.semi, 0)], [], []⟩).toOption.map
    (·.2.stk)) = some (Ex.dot (.index (.call (.id 9) (.more (.id 0) (.one (.bin .add (.id 1) (.lit .int 1))))) (.lit .int 2)) 7).post := by decide +kernel

/-- an expression that is too long for the stack of the compiler -/
example : (match parse ⟨3, 9⟩ 40 false ⟨[v 0, (.plus, 0), (.minus, 0), v 1, (.semi, 0)], [], []⟩ with | .error .long => true | _ => false) = true := by decide +kernel

end Smlr.Parse
