import Verif.Declr.Inj

set_option autoImplicit false
/-
C45: a declaration gives its name the type that C says.
-/
namespace Smlr.Declr
open Spec

/-- **C45.** Every declarator of C is parsed, up to its end, and the symbol table gets its name and its type.
`Env env s ts`: the typedefs in the tokens have types which stand in the symbol table; the top of the symbol table is not
in the middle of another declarator (true where declarations start). -/
theorem c45_declare (env : Nat → Ty) (b : Sp) (d : D) (rest : List Tok) (s : List Ent) (k : Nat)
    (hok : ok env true b d) (hf : follow rest = true) (henv : Env env s (b.text :: d.text ++ rest))
    (htop : s.getLast? ≠ some .rpar ∧ s.getLast? ≠ some .rbrk) (hk : (d.text ++ rest).length < k) :
    declaration k (b.text :: d.text ++ rest) s = .ok (rest, s ++ .ident d.nm :: (d.ty env (b.ty env)).enc) := by
  rw [List.cons_append, declaration, parseBase_text]
  exact declare_ok env b d rest s k (D.strict_ok env d hok.1) (strict_lawful _ hok.2) hf henv htop hk

/-- **C45, soundness.** Whatever is accepted is a declarator, followed by a token that may follow one, and its name and type are
what the symbol table gets.  Partial: the declarator need not satisfy all constraints of C, `ok env true b d`; missing
are that the elements of arrays have known sizes (`c45_open_defect`) and that lists of parameters do not
end with a comma (`c45_comma_defect`). -/
theorem c45_sound_partial (env : Nat → Ty) (ts : List Tok) (s : List Ent) (k : Nat) (ts' : List Tok) (s' : List Ent)
    (h : declaration k ts s = .ok (ts', s')) (henv : Env env s ts) :
    ∃ (b : Sp) (d : D), ts = b.text :: d.text ++ ts' ∧ follow ts' = true ∧ ok env false b d ∧
      s' = s ++ .ident d.nm :: (d.ty env (b.ty env)).enc := by
  obtain ⟨⟨b0, r⟩, h1, h2⟩ := R.bind_ok h
  obtain ⟨b, rfl, rfl⟩ := parseBase_inv _ _ _ h1
  obtain ⟨d, e1, e2, e3, e4, e5⟩ := declare_inv env b r s k ts' s' h2 henv
  exact ⟨b, d, by rw [e1]; rfl, e2, ⟨e3, e4⟩, e5⟩

/-- The model always answers, with a declaration or with an error. -/
theorem c45_total (env : Nat → Ty) (ts : List Tok) (s : List Ent) (k : Nat) (henv : Env env s ts) (hk : ts.length ≤ k) :
    declaration k ts s ≠ .fuel := by
  intro h
  rcases R.bind_fuel h with h1 | ⟨⟨b0, r⟩, h1, h2⟩
  · unfold parseBase at h1
    split at h1 <;> cases h1
  · obtain ⟨b, rfl, rfl⟩ := parseBase_inv _ _ _ h1
    exact declare_fuel env b r s k henv (by simp only [List.length_cons] at hk; omega) h2

/-- A declared type can be the type of a typedef in what follows, as `Env` demands: it is proper and stands in the symbol table
after its name, and the typedefs from before are still there. -/
theorem c45_typedef (env : Nat → Ty) (b : Sp) (d : D) (s : List Ent) (hok : ok env false b d)
    (henv : Env env s (b.text :: d.text)) :
    let s' := s ++ .ident d.nm :: (d.ty env (b.ty env)).enc
    ((d.ty env (b.ty env)).deep ∧ s'.drop (s.length + 1) = (d.ty env (b.ty env)).enc) ∧
    ∀ ts, Env env s ts → Env env s' ts := by
  intro s'
  refine ⟨⟨D.ty_deep env d _ hok.1 (henv.toD.mono (by intro t h; exact List.mem_cons_of_mem _ h)) (sp_deep env b d.text henv.toD) hok.2, ?_⟩,
    fun ts h => h.grow _⟩
  show (s ++ Ent.ident d.nm :: (d.ty env (b.ty env)).enc).drop (s.length + 1) = _
  rw [show s ++ Ent.ident d.nm :: (d.ty env (b.ty env)).enc = (s ++ [.ident d.nm]) ++ (d.ty env (b.ty env)).enc by simp,
    List.drop_left' (by simp)]

/-- The type that a declaration means does not depend on how it is read: two declarators with the same text have the
same name and the same type. -/
theorem c45_unambiguous (env : Nat → Ty) (b : Sp) (d d' : D) (s : List Ent) (hok : ok env false b d) (hok' : ok env false b d')
    (henv : Env env s (b.text :: d.text)) (ht : d.text = d'.text) :
    d.nm = d'.nm ∧ d.ty env (b.ty env) = d'.ty env (b.ty env) := by
  have henv1 : Env env (s ++ [.star]) (b.text :: d.text ++ [.semi]) := by
    refine Env.grow (fun x p hm => henv x p ?_) _
    simpa using hm
  have h1 := declare_ok env b d [.semi] (s ++ [.star]) ((d.text ++ [Tok.semi]).length + 1) hok.1 hok.2 rfl henv1 (by simp [topOk]) (by omega)
  have h2 := declare_ok env b d' [.semi] (s ++ [.star]) ((d.text ++ [Tok.semi]).length + 1) hok'.1 hok'.2 rfl (by rw [← ht]; exact henv1)
    (by simp [topOk]) (by rw [ht]; omega)
  rw [← ht, h1] at h2
  simp only [R.ok.injEq, Prod.mk.injEq, true_and, List.append_cancel_left_eq, List.cons.injEq, Ent.ident.injEq] at h2
  refine ⟨h2.1, ?_⟩
  have hb := sp_deep env b d.text henv.toD
  have he : EnvD env d.text := henv.toD.mono (by intro t h; exact List.mem_cons_of_mem _ h)
  have := enc_inj _ _ [] [] (D.ty_deep env d _ hok.1 he hb hok.2) (D.ty_deep env d' _ hok'.1 (by rw [← ht]; exact he) hb hok'.2)
    (by rw [h2.2])
  exact this.1

/-! ### defects -/

/-- no typedefs -/
def noEnv : Nat → Ty := fun _ => .base (.plain 0)

/-- `int (a[3])[];` declares an array of arrays of unknown size: C does not allow that, the compiler does. -/
theorem c45_open_defect :
    let d : D := .arr (.paren (.arr (.name 7 none) (some 3))) none
    (∀ s k, (d.text ++ [Tok.semi]).length < k → s.getLast? = none →
      declaration k (.kw (.plain 0) :: d.text ++ [.semi]) s =
        .ok ([.semi], s ++ [.ident (some 7), .lbrk, .num 3, .rbrk, .lbrk, .num 0, .rbrk, .base (.plain 0)])) ∧
    ¬ ∃ d' : D, d'.text = d.text ∧ ok noEnv true (.kw (.plain 0)) d' := by
  intro d
  have hd : ok noEnv false (.kw (.plain 0)) d := by
    refine ⟨⟨⟨⟨trivial, rfl, by simp [dimOk]⟩, rfl⟩, rfl, rfl⟩, ?_⟩
    simp [d, D.ty, Ty.lawful, Ty.isFn, Ty.isVoid, Sp.ty]
  have henv : ∀ s, Env noEnv s (Sp.text (.kw (.plain 0)) :: d.text ++ [.semi]) := by
    intro s x p hm
    simp [d, Sp.text, D.text, dimText] at hm
  refine ⟨?_, ?_⟩
  · intro s k hk hs
    exact declare_ok noEnv (.kw (.plain 0)) d [.semi] s k hd.1 hd.2 rfl (henv s) (by simp [topOk, hs]) hk
  · rintro ⟨d', h1, h2⟩
    have henv' : Env noEnv [] (Sp.text (.kw (.plain 0)) :: d.text) := by
      intro x p hm
      simp [d, Sp.text, D.text, dimText] at hm
    have := c45_unambiguous noEnv (.kw (.plain 0)) d d' [] hd ⟨D.strict_ok _ d' h2.1, strict_lawful _ h2.2⟩ henv' h1.symm
    have h3 := h2.2
    rw [← this.2] at h3
    have h4 := h3.2.2.2 rfl
    simp [Ty.open] at h4

/-- `int f(int,);` is accepted, too. -/
theorem c45_comma_defect :
    let q : Q := .one (.kw (.plain 0)) .none true
    (∀ s k, ((D.fn (.name 7 none) q).text ++ [Tok.semi]).length < k → s.getLast? = none →
      declaration k (.kw (.plain 0) :: (D.fn (.name 7 none) q).text ++ [.semi]) s =
        .ok ([.semi], s ++ [.ident (some 7), .lpar, .ident none, .base (.plain 0), .rpar, .base (.plain 0)])) ∧
    (D.fn (.name 7 none) q).text = [.ident 7 none, .lpar, .kw (.plain 0), .comma, .rpar] ∧
    ¬ q.ok noEnv true := by
  intro q
  refine ⟨?_, rfl, fun h => by simpa using h.2.2.2 rfl⟩
  intro s k hk hs
  refine declare_ok noEnv (.kw (.plain 0)) (.fn (.name 7 none) q) [.semi] s k ⟨trivial, rfl, ?_⟩ ?_ rfl ?_ (by simp [topOk, hs]) hk
  · simp [q, Q.ok, D.ok, D.ty, Sp.ty, Ty.lawful, Ty.isVoid]
  · simp [D.ty, Ty.lawful, Ty.isFn, Ty.isArr, Sp.ty]
  · intro x p hm
    simp [q, Sp.text, D.text, Q.text, trail] at hm

/-- `int (T);` where `T` is also a typedef, as in an inner block: C declares a variable `T`; the compiler
reads a function without a name with a parameter of type `T`. -/
theorem c45_paren_defect (env : Nat → Ty) (p : Nat) (s : List Ent) (hT : (env p).deep ∧ (env p).isVoid = false)
    (hs : ∃ rest, s.drop (p + 1) = (env p).enc ++ rest) (htop : s.getLast? ≠ some .rpar ∧ s.getLast? ≠ some .rbrk) (k : Nat) (hk : 4 < k) :
    declaration k [.kw (.plain 0), .lpar, .ident 7 (some p), .rpar, .semi] s =
      .ok ([.semi], s ++ .ident none :: .lpar :: .ident none :: (adjust (env p)).enc ++ [.rpar, .base (.plain 0)]) ∧
    (D.paren (.name 7 (some p))).text = [.lpar, .ident 7 (some p), .rpar] ∧ (D.paren (.name 7 (some p))).nm = some 7 := by
  refine ⟨?_, rfl, rfl⟩
  have := declare_ok env (.kw (.plain 0)) (.fn .none (.one (.td 7 p) .none false)) [.semi] s k ⟨trivial, rfl, ?_⟩ ?_ rfl ?_ htop
    (by simpa [D.text, Q.text, trail] using hk)
  · simp only [D.ty, D.nm, Q.ps_one, Sp.ty, hT.2] at this
    simpa [declaration, parseBase, R.bind, Sp.base, D.text, Q.text, Sp.text, trail, Ty.enc, Ps.enc, Ps.enc'] using this
  · exact ⟨trivial, deep_lawful (env p) hT.1, fun _ => ⟨rfl, rfl⟩, by simp⟩
  · simp [D.ty, Ty.lawful, Ty.isFn, Ty.isArr, Sp.ty]
  · intro x p' hm
    simp [Sp.text, D.text, Q.text, trail] at hm
    rw [hm.2]; exact ⟨hT.1, hs⟩

/-! ### examples -/

/-- `char *(*f[3])(int a[], ...)`: an array of 3 pointers to functions that take an `int *` and more and return `char *` -/
def exD : D := .ptr (.fn (.paren (.ptr (.arr (.name 5 none) (some 3)))) (.dots (.kw (.plain 0)) (.arr (.name 6 none) none) false))

example : exD.text = [.star, .lpar, .star, .ident 5 none, .lbrk, .num 3, .rbrk, .rpar, .lpar, .kw (.plain 0), .ident 6 none, .lbrk, .rbrk,
    .comma, .ellipsis, .rpar] := rfl

example : exD.ty noEnv (.base (.plain 1)) =
    .arr 3 (.ptr (.fn (.cons (some 6) (.ptr (.base (.plain 0))) .dots) (.ptr (.base (.plain 1))))) := rfl

theorem exD_ok : ok noEnv true (.kw (.plain 1)) exD := by
  refine ⟨?_, ?_⟩
  · simp [exD, D.ok, Q.ok, D.text, closed, D.direct, dimOk, D.ty, Sp.ty, Ty.lawful, Ty.isFn, Ty.isVoid, Ty.open, D.isArr]
  · simp [exD, D.ty, Sp.ty, Ty.lawful, Ty.isFn, Ty.isVoid, Ty.isArr, Ty.open]

example : declaration 20 (.kw (.plain 1) :: exD.text ++ [.assign]) [] =
    .ok ([.assign], [.ident (some 5), .lbrk, .num 3, .rbrk, .star, .lpar, .ident (some 6), .star, .base (.plain 0), .ident none, .ellipsis, .rpar,
      .star, .base (.plain 1)]) := by decide +kernel

example := c45_declare noEnv (.kw (.plain 1)) exD [.assign] [] 20 exD_ok rfl (by
  intro x p hm; simp [exD, Sp.text, D.text, Q.text, dimText, trail] at hm) (by simp) (by decide)

/-- the symbol table after `typedef int T[2];` -/
def exS : List Ent := [.other 0, .lbrk, .num 2, .rbrk, .base (.plain 0)]

/-- `T *g(T x, void)` is an error, `T *g(T x)` is a function with an `int *` that returns a pointer to an array -/
example : declaration 20 [.ident 3 (some 0), .star, .ident 4 none, .lpar, .ident 3 (some 0), .ident 5 none, .rpar, .semi] exS =
    .ok ([.semi], exS ++ [.ident (some 4), .lpar, .ident (some 5), .star, .base (.plain 0), .rpar, .star, .lbrk, .num 2, .rbrk,
      .base (.plain 0)]) := by decide +kernel
example : declaration 20 [.ident 3 (some 0), .star, .ident 4 none, .lpar, .ident 3 (some 0), .ident 5 none, .comma, .kw .void, .rpar, .semi] exS =
    .error := by decide +kernel
/-- functions do not return arrays -/
example : declaration 20 [.ident 3 (some 0), .ident 4 none, .lpar, .rpar, .semi] exS = .error := by decide +kernel

theorem exS_env (ts : List Tok) (h : ∀ x p, Tok.ident x (some p) ∈ ts → p = 0) :
    Env (fun _ => .arr 2 (.base (.plain 0))) exS ts := by
  intro x p hm
  have := h x p hm
  subst this
  exact ⟨by simp [Ty.deep, Ty.isFn, Ty.isVoid], [], rfl⟩

example := c45_sound_partial (fun _ => .arr 2 (.base (.plain 0))) [.ident 3 (some 0), .star, .ident 4 none, .semi] exS 20
  [.semi] (exS ++ [.ident (some 4), .star, .lbrk, .num 2, .rbrk, .base (.plain 0)]) (by decide +kernel) (exS_env _ (by simp))

/-- the hypotheses can be met with a typedef -/
example := c45_unambiguous (fun _ => .arr 2 (.base (.plain 0))) (.td 3 0) (.name 4 none) (.name 4 none) exS
  ⟨trivial, deep_lawful _ (by simp [Sp.ty, D.ty, Ty.deep, Ty.isFn, Ty.isVoid])⟩
  ⟨trivial, deep_lawful _ (by simp [Sp.ty, D.ty, Ty.deep, Ty.isFn, Ty.isVoid])⟩ (exS_env _ (by simp [Sp.text, D.text])) rfl

end Smlr.Declr
