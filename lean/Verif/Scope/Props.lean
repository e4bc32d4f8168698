import Verif.Scope.Block
/-!
# Scopes: theorems (C21)
-/
set_option autoImplicit false

namespace Smlr.Scope

/-- C21: every name, typedef name and tag of a program refers to what C says: the latest declaration in the innermost scope that has one; names of parameters of other functions are not seen.
Partial: programs in which a name is looked up inside its own declarator are left out, because the claim is false for them (`c21_own_defect`); programs in which a name in an expression is that of a typedef have no meaning here, the compiler accepts some of them (`c21_typedef_defect`). -/
theorem c21_resolve_partial (p : List Top) (tr : List SEv) (h : meaning p = some tr) (hown : ∀ v ∈ tr, v.own = false) :
    run p = some (tr.map (·.ev)) := by
  unfold meaning at h
  obtain ⟨⟨e, a⟩, h1, h⟩ := Option.bind_eq_some_iff.mp h
  simp only [Option.some.injEq] at h
  subst h
  obtain ⟨l, m, _⟩ := prog_ok p [] h1 hown inv_start
  unfold run
  rw [m]
  simp [evs]

/-- `x`, the declaration numbered `id` -/
def nm (x id : Nat) : Dr := .mk 0 (.name x id) .none
def us (x : Nat) : Expr := .mk .nil [⟨x, false, 0⟩]

/-- `int x1; typedef int x2; struct x9 { int x1, *x3; }; typedef struct x9 x10(x2 x5);`
`int x3(int x4, int (*x5)(int x4, x2 x6), int x7[x1], ...) { int x1 = x4; x10 x11; { static int x1 = x1; x1; (x2*)x4 + x50() + x50; struct x9; struct x9 { struct x9 *x1; }; struct x9 x20; } x1 + x5 + x7 + x11 + x50(); for (int x1; ...) x1; x1; }` -/
def sample : List Top := [
  .decl ⟨.none, .prim, [(nm 1 100, .none)]⟩,
  .decl ⟨.typedef, .prim, [(nm 2 101, .none)]⟩,
  .tag (.def .struct (some 9) 150 (.cons .prim (.cons (nm 1 0) (.cons (.mk 1 (.name 3 7) .none) .nil)) .nil)),
  .decl ⟨.typedef, .ref .struct 9 151, [(.mk 0 (.name 10 152) (.fn (.cons (.tdef 2) (nm 5 4) .nil)), .none)]⟩,
  .fn .prim (.mk 0 (.name 3 102) (.fn (.cons .prim (nm 4 103)
      (.cons .prim (.mk 0 (.nest (.mk 1 (.name 5 104) .none)) (.fn (.cons .prim (nm 4 105) (.cons (.tdef 2) (nm 6 106) .nil))))
      (.cons .prim (.mk 0 (.name 7 107) (.arr (.cons (us 1) .nil))) .ell)))))
    (.decl ⟨.none, .prim, [(nm 1 108, .assign (us 4))]⟩
    (.decl ⟨.none, .tdef 10, [(nm 11 130, .none)]⟩
    (.block (.decl ⟨.static, .prim, [(nm 1 109, .data [us 1])]⟩ (.expr (us 1)
      (.expr (.mk (.cons (.tdef 2) (.mk 1 .anon .none) .nil) [⟨4, false, 0⟩, ⟨50, true, 140⟩, ⟨50, false, 140⟩])
      (.tag (.ref .struct 9 160) (.tag (.def .struct (some 9) 161 (.cons (.ref .struct 9 162) (.cons (.mk 1 (.name 1 1) .none) .nil) .nil))
      (.decl ⟨.none, .ref .struct 9 163, [(nm 20 170, .none)]⟩ .nil))))))
    (.expr (.mk .nil [⟨1, false, 0⟩, ⟨5, false, 0⟩, ⟨7, false, 0⟩, ⟨11, false, 0⟩, ⟨50, true, 3⟩])
    (.for_ ⟨.none, .prim, [(nm 1 180, .none)]⟩ (.expr (us 1) .nil) (.expr (us 1) .nil))))))]

/-- the hypotheses are met by the sample -/
example : (meaning sample).map (fun tr => (tr.length, tr.all fun v => !v.own)) = some (26, true) := by decide +kernel

/-- and these are the outcomes -/
example : run sample = some
    [.notag 9, .tag 9 150 .struct true, .tdef 2 101, .tdef 2 101, .sym 1 100 .plain, .sym 4 103 .auto, .sym 1 108 .auto, .tdef 10 152,
      .sym 1 109 .static, .sym 1 109 .static, .tdef 2 101, .self true, .sym 4 103 .auto, .sym 50 140 .plain, .sym 50 140 .plain,
      .tag 9 150 .struct false, .tag 9 160 .struct true, .tag 9 161 .struct true, .tag 9 161 .struct true,
      .sym 1 108 .auto, .sym 5 104 .auto, .sym 7 107 .auto, .sym 11 130 .plain, .sym 50 3 .plain, .sym 1 180 .auto, .sym 1 108 .auto] := by
  decide +kernel

/-- `int x1; int x2(void) { int x1[sizeof x1]; }` -/
def ownSample : List Top := [
  .decl ⟨.none, .prim, [(nm 1 100, .none)]⟩,
  .fn .prim (.mk 0 (.name 2 101) (.fn (.cons .void (.mk 0 .anon .none) .nil)))
    (.decl ⟨.none, .prim, [(.mk 0 (.name 1 102) (.arr (.cons (us 1) .nil)), .none)]⟩ .nil)]

/-- `enum { x1 }; struct { int x1[x1]; } x2;` -/
def memSample : List Top := [
  .tag (.enm none 90 (.auto 1 100 .nil)),
  .decl ⟨.none, .def .struct none 91 (.cons .prim (.cons (.mk 0 (.name 1 101) (.arr (.cons (us 1) .nil))) .nil) .nil), [(nm 2 102, .none)]⟩]

/-- In the dimension of an array the name being declared is already found, though its scope begins only after the declarator; this happens even for members of structures, whose names are not in the same name space. -/
theorem c21_own_defect :
    (meaning ownSample).map (·.map (·.ev)) = some [.sym 1 100 .plain] ∧ run ownSample = some [.sym 1 102 .plain] ∧
    (meaning memSample).map (·.map (·.ev)) = some [.sym 1 100 .enum] ∧ run memSample = some [.sym 1 101 .plain] := by
  decide +kernel

/-- `int x1; int x2(void) { typedef int x1; x3 = x1; }` with `int x3;` before -/
def tdefSample : List Top := [
  .decl ⟨.none, .prim, [(nm 1 100, .none), (nm 3 103, .none)]⟩,
  .fn .prim (.mk 0 (.name 2 101) (.fn (.cons .void (.mk 0 .anon .none) .nil)))
    (.decl ⟨.typedef, .prim, [(nm 1 102, .none)]⟩ (.expr (.mk .nil [⟨3, false, 0⟩, ⟨1, false, 0⟩]) .nil))]

/-- `FindSymbol` does not see typedef names: a variable of an outer scope that is hidden by a typedef is found. -/
theorem c21_typedef_defect : meaning tdefSample = none ∧ run tdefSample = some [.sym 3 103 .plain, .sym 1 100 .plain] := by
  decide +kernel

end Smlr.Scope
