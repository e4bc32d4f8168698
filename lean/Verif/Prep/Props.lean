import Verif.Prep.Lemmas
set_option autoImplicit false
/-! Property C28: conditional directives select the right lines. -/
namespace Smlr.Prep

/-- C28: a balanced text nested at most 8 deep passes on exactly the text lines, and obeys exactly the `#define`s and
`#undef`s, all of whose enclosing branches are taken, and leaves no conditional open -/
theorem c28_select (g : Group) (env env' : Env) (out : List Nat) (hd : g.depth ≤ 8) (hs : g.sem env = some (env', out)) :
    run init env g.lines = .ok (init, env', out) :=
  live_group g [] env (by simpa [stackSize] using hd) env' out hs

/-- `#ifdef 1 / text 10 / #else / text 11 / #define 2 / #if / #elif / text 12 / #endif / #endif / #ifndef 2 / text 13 / #endif` -/
def sample : Group :=
  .cond (.ifdef 1) (.plain (.text 10) .nil)
    (.els (.plain (.text 11) (.plain (.define 2) .nil)))
    (.cond (.ifndef 2) (.cond .ifExpr (.plain .other .nil) (.elif (.plain (.text 12) .nil) .endif) .nil)
      (.els (.plain (.text 13) .nil)) .nil)
example : ∃ env', sample.sem (fun _ => false) = some (env', [11, 13]) ∧ sample.depth = 2 := ⟨_, rfl, rfl⟩
example : sample.lines = [.ifdef 1, .text 10, .els, .text 11, .define 2, .endif, .ifndef 2, .ifExpr, .other, .elif, .text 12,
  .endif, .els, .text 13, .endif] := rfl

/-- C28: conditionals nested deeper than 8 are diagnosed, wherever they are -/
theorem c28_depth (g : Group) (env : Env) (hd : 8 < g.depth) : ∃ e, run init env g.lines = .error e := by
  cases h : run init env g.lines with
  | error e => exact ⟨e, rfl⟩
  | ok x =>
    obtain ⟨s, e, o⟩ := x
    have := (depth_group g init s env e o (by decide) h).2
    simp [init, stackSize] at this
    omega

example : ∃ g : Group, 8 < g.depth :=
  ⟨Nat.rec .nil (fun _ g => .cond (.ifdef 1) g .endif .nil) 9, by decide⟩

/-- C28, unbalanced directives: if a sequence of lines without `#elif` is accepted and leaves no conditional open, then it
is balanced.  So a stray `#else` or `#endif` and a second `#else` are always diagnosed -/
theorem c28_balanced_partial (ls : List Line) (s : St) (env env' : Env) (out : List Nat) (h : run init env ls = .ok (s, env', out))
    (hs : s.stack = []) (he : .elif ∉ ls) : ∃ g : Group, ls = g.lines := by
  have := closes_of_run ls init s env env' out h hs he
  cases this with
  | done g => exact ⟨g, rfl⟩

example : run init (fun _ => false) [.ifdef 1, .text 2, .endif] = .ok (init, fun _ => false, []) := rfl

/-- C28: `#if` and `#elif` in a place that is not skipped are diagnosed -/
theorem c28_unsupported (g : Group) (env env' : Env) (out : List Nat) (hd : g.depth ≤ 8) (hs : g.sem env = some (env', out))
    (l : Line) (hl : l = .ifExpr ∨ l = .elif ∨ l = .other) (rest : List Line) :
    run init env (g.lines ++ l :: rest) = .error .directive := by
  apply run_err_append (c28_select g env env' out hd hs)
  rcases hl with rfl | rfl | rfl <;> rfl

example : ∃ env' out, (Group.plain (.text 1) .nil).sem (fun _ => false) = some (env', out) := ⟨_, _, rfl⟩

/-- C28 does not hold at the end of the input: an unterminated conditional is not diagnosed, and swallows the text -/
theorem c28_defect : run init (fun _ => false) [.ifdef 1, .text 2] = .ok (⟨0, [(1, 0)]⟩, fun _ => false, []) := rfl

/-- C28 does not hold for `#elif` after a branch that was not taken: instead of being diagnosed as unsupported, it is
treated as false, whatever its expression; and after an `#else` it re-enables the following `#else` -/
theorem c28_defect_elif :
    run init (fun _ => false) [.ifdef 1, .elif, .text 2, .endif] = .ok (init, fun _ => false, []) ∧
    run init (fun _ => true) [.ifdef 1, .els, .elif, .els, .text 2, .endif] = .ok (init, fun _ => true, [2]) := ⟨rfl, rfl⟩

end Smlr.Prep
