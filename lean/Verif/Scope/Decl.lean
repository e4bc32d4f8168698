import Verif.Scope.Lemmas
/-!
# Scopes: expressions, types and declarators
-/
set_option autoImplicit false

namespace Smlr.Scope

/-! ### editing the stack -/

theorem get_mid (st : List Tk) (a : Tk) (l : List Tk) : (st ++ a :: l)[st.length]? = some a := by simp
theorem get_mid1 (st : List Tk) (a b : Tk) (l : List Tk) : (st ++ a :: b :: l)[st.length + 1]? = some b := by
  rw [List.getElem?_append_right (by omega)]; simp
theorem set_mid (st : List Tk) (a b : Tk) (l : List Tk) : (st ++ a :: l).set st.length b = st ++ b :: l := by simp
theorem set_mid1 (st : List Tk) (a b c : Tk) (l : List Tk) : (st ++ a :: b :: l).set (st.length + 1) c = st ++ a :: c :: l := by
  induction st with
  | nil => rfl
  | cons t st ih => simp only [List.cons_append, List.length_cons, List.set_cons_succ, ih]
theorem insert_mid (st : List Tk) (a b : Tk) (l : List Tk) : (st ++ a :: l).insertIdx (st.length + 1) b = st ++ a :: b :: l := by
  induction st with
  | nil => rfl
  | cons t st ih =>
    simp only [List.cons_append, List.length_cons, List.insertIdx_succ_cons, ih]
theorem erase_mid (st : List Tk) (a b : Tk) (l : List Tk) : (st ++ a :: b :: l).eraseIdx (st.length + 1) = st ++ a :: l := by
  induction st with
  | nil => rfl
  | cons t st ih => simp only [List.cons_append, List.length_cons, List.eraseIdx_cons_succ, ih]
theorem erase_mid0 (st : List Tk) (a : Tk) (l : List Tk) : (st ++ a :: l).eraseIdx st.length = st ++ l := by
  induction st with
  | nil => rfl
  | cons t st ih => simp only [List.cons_append, List.length_cons, List.eraseIdx_cons_succ, ih]
theorem take_mid (st l : List Tk) : (st ++ l).take st.length = st := by simp

/-! ### copying types -/

theorem copyTy_bal {m : List Tk} (h : Bal m) : ∀ (c : Nat) (r : List Tk),
    copyTy (c + 1) (m ++ r) = (copyTy (c + 1) r).bind fun l => some (m ++ l) := by
  induction h with
  | nil => intro c r; rw [List.nil_append]; cases copyTy (c + 1) r <;> rfl
  | @one t ht =>
    intro c r
    have h1 : ¬ (t = .lpar ∨ t = .lbrk) := by rintro (rfl | rfl) <;> cases ht
    have h2 : ¬ (t = .rpar ∨ t = .rbrk) := by rintro (rfl | rfl) <;> cases ht
    show copyTy (c + 1) (t :: r) = _
    rw [copyTy]
    simp only [h1, h2, if_false, Nat.add_eq_zero_iff, Nat.one_ne_zero, and_false, false_and]
    rfl
  | @par m _ ih =>
    intro c r
    rw [show Tk.lpar :: m ++ [Tk.rpar] ++ r = Tk.lpar :: (m ++ (Tk.rpar :: r)) by simp, copyTy]
    simp only [true_or, if_true, Nat.add_eq_zero_iff, Nat.one_ne_zero, and_false, false_and, if_false]
    rw [ih, copyTy]
    simp only [reduceCtorEq, true_or, or_false, if_true, if_false, Nat.add_sub_cancel, Nat.add_eq_zero_iff, Nat.one_ne_zero, and_false]
    cases copyTy (c + 1) r <;> simp
  | @brk m _ ih =>
    intro c r
    rw [show Tk.lbrk :: m ++ [Tk.rbrk] ++ r = Tk.lbrk :: (m ++ (Tk.rbrk :: r)) by simp, copyTy]
    simp only [or_true, if_true, Nat.add_eq_zero_iff, Nat.one_ne_zero, and_false, false_and, if_false]
    rw [ih, copyTy]
    simp only [reduceCtorEq, or_true, or_false, if_true, if_false, Nat.add_sub_cancel, Nat.add_eq_zero_iff, Nat.one_ne_zero, and_false]
    cases copyTy (c + 1) r <;> simp
  | app _ _ ih1 ih2 =>
    intro c r
    rw [List.append_assoc, ih1, ih2]
    cases copyTy (c + 1) r <;> simp

theorem copyTy_ty {ty : List Tk} (h : TyOk ty) (r : List Tk) : copyTy 0 (ty ++ r) = some ty := by
  induction h with
  | void => rfl
  | base => rfl
  | sptr => rfl
  | @star q _ ih =>
    rw [List.cons_append, copyTy]
    simp only [reduceCtorEq, or_self, if_false, and_false]
    rw [ih]; rfl
  | @arr q _ ih =>
    rw [show Tk.lbrk :: Tk.num :: Tk.rbrk :: q ++ r = Tk.lbrk :: ([Tk.num] ++ (Tk.rbrk :: (q ++ r))) by simp, copyTy]
    simp only [reduceCtorEq, false_or, or_self, if_false, if_true, and_false, or_false, false_and]
    rw [copyTy_bal (.one (t := .num) rfl) 0, copyTy]
    simp only [reduceCtorEq, or_self, false_or, if_true, if_false, and_false]
    rw [ih]; rfl
  | @fn m q hm _ ih =>
    rw [show Tk.lpar :: m ++ Tk.rpar :: q ++ r = Tk.lpar :: (m ++ (Tk.rpar :: (q ++ r))) by simp, copyTy]
    simp only [reduceCtorEq, true_or, or_self, if_false, if_true, and_false, or_false, false_and]
    rw [copyTy_bal hm 0, copyTy]
    simp only [reduceCtorEq, or_self, or_false, if_true, if_false, and_false]
    rw [ih]; simp

def BOk (st : List Tk) (b : B) (h : Hd) : Prop :=
  match b with
  | .one t => (t = .void ∧ h = .void) ∨ ((t = .base ∨ t = .sptr ∨ t = .eptr) ∧ h = .other)
  | .copy p => ∃ n id ty r, st.drop p = .tdef n id :: ty ++ r ∧ TyOk ty ∧ hdOf ty = h

theorem BOk.ext {st : List Tk} {b : B} {h : Hd} (hb : BOk st b h) (l : List Tk) : BOk (st ++ l) b h := by
  match b with
  | .one t => exact hb
  | .copy p =>
    obtain ⟨n, id, ty, r, hd, ht, hh⟩ := hb
    refine ⟨n, id, ty, r ++ l, ?_, ht, hh⟩
    have := drop_ext (r := ty ++ r) hd l
    rw [this, List.append_assoc]; rfl

theorem pushBase_ok {st : List Tk} {b : B} {h : Hd} (hb : BOk st b h) (tr : List Ev) :
    ∃ ty, pushBase b ⟨st, tr⟩ = some ⟨st ++ ty, tr⟩ ∧ TyOk ty ∧ hdOf ty = h := by
  match b with
  | .one t =>
    rcases hb with ⟨rfl, rfl⟩ | ⟨rfl | rfl | rfl, rfl⟩
    · exact ⟨[.void], rfl, .void, rfl⟩
    · exact ⟨[.base], rfl, .base, rfl⟩
    · exact ⟨[.sptr], rfl, .sptr, rfl⟩
    · exact ⟨[.base], rfl, .base, rfl⟩
  | .copy p =>
    obtain ⟨n, id, ty, r, hd, ht, hh⟩ := hb
    refine ⟨ty, ?_, ht, hh⟩
    have : st.drop (p + 1) = ty ++ r := by
      rw [← List.drop_drop (i := 1), hd]; rfl
    show (copyTy 0 (st.drop (p + 1))).bind _ = _
    rw [this, copyTy_ty ht]; rfl

/-! ### the decay of parameters -/

def decayTy : List Tk → List Tk
  | .lbrk :: .num :: .rbrk :: q => .star :: q
  | .lpar :: q => .star :: .lpar :: q
  | q => q

theorem decay_eq (st : List Tk) (i : Tk) {ty : List Tk} (h : TyOk ty) :
    decay st.length (st ++ i :: ty) = st ++ i :: decayTy ty := by
  cases h with
  | void => unfold decay; rw [get_mid1]; simp [decayTy]
  | base => unfold decay; rw [get_mid1]; simp [decayTy]
  | sptr => unfold decay; rw [get_mid1]; simp [decayTy]
  | star _ => unfold decay; rw [get_mid1]; simp [decayTy]
  | arr _ =>
    unfold decay
    rw [get_mid1]
    simp only [if_true]
    rw [erase_mid, get_mid1]
    simp only [if_true]
    rw [erase_mid, set_mid1]; rfl
  | fn _ _ =>
    unfold decay
    rw [List.cons_append, get_mid1]
    simp only [Option.some.injEq, reduceCtorEq, if_false, if_true]
    rw [insert_mid]; rfl

theorem decay_ty {ty : List Tk} (h : TyOk ty) : TyOk (decayTy ty) ∧ (hdOf (decayTy ty) = .void ↔ hdOf ty = .void) := by
  cases h with
  | void => exact ⟨.void, Iff.rfl⟩
  | base => exact ⟨.base, Iff.rfl⟩
  | sptr => exact ⟨.sptr, Iff.rfl⟩
  | star h => exact ⟨.star h, Iff.rfl⟩
  | arr h => exact ⟨.star h, by simp [decayTy, hdOf]⟩
  | fn hm h => exact ⟨.star (.fn hm h), by simp [decayTy, hdOf]⟩

/-- the last two entries of a type -/
theorem TyOk.last {ty : List Tk} (h : TyOk ty) : hdOf ty = .void ∨
    (∃ v, ty = [v] ∧ v ≠ .void) ∨ (∃ l u v, ty = l ++ [u, v] ∧ ∀ n i, u ≠ .ident n i) := by
  have key : ∀ {q : List Tk}, TyOk q → ∀ l (u : Tk), (∀ n i, u ≠ .ident n i) → ∃ l' u' v', l ++ u :: q = l' ++ [u', v'] ∧ ∀ n i, u' ≠ .ident n i := by
    intro q hq
    induction hq with
    | void => intro l u hu; exact ⟨l, u, _, rfl, hu⟩
    | base => intro l u hu; exact ⟨l, u, _, rfl, hu⟩
    | sptr => intro l u hu; exact ⟨l, u, _, rfl, hu⟩
    | @star q _ ih =>
      intro l u hu
      have := ih (l ++ [u]) .star (by simp)
      simpa using this
    | @arr q _ ih =>
      intro l u hu
      have := ih (l ++ [u, .lbrk, .num]) .rbrk (by simp)
      simpa using this
    | @fn m q _ _ ih =>
      intro l u hu
      have := ih (l ++ u :: .lpar :: m) .rpar (by simp)
      simpa using this
  cases h with
  | void => exact .inl rfl
  | base => exact .inr (.inl ⟨_, rfl, by simp⟩)
  | sptr => exact .inr (.inl ⟨_, rfl, by simp⟩)
  | star h => exact .inr (.inr (by simpa using key h [] .star (by simp)))
  | arr h => exact .inr (.inr (by simpa using key h [.lbrk, .num] .rbrk (by simp)))
  | @fn m q _ h => exact .inr (.inr (by simpa using key h (.lpar :: m) .rpar (by simp)))

/-! ### parameter lists -/

def nmOf (o : Option (Nat × Nat)) : Tk :=
  match o with
  | some (x, id) => .ident (.id x) id
  | none => .ident .something 0

inductive ParsEnc : List Tk → List (Option (Nat × Nat)) → Prop
  | nil : ParsEnc [] []
  | ell : ParsEnc [.ident .something 0, .ell] []
  | void : ParsEnc [.ident .something 0, .void] []
  | cons {o : Option (Nat × Nat)} {ty m : List Tk} {l : List (Option (Nat × Nat))} : TyOk ty → hdOf ty ≠ .void → ParsEnc m l →
      ParsEnc (nmOf o :: ty ++ m) (o :: l)

theorem bal_nmOf (o : Option (Nat × Nat)) : Bal [nmOf o] := by
  cases o <;> exact .one rfl

theorem ParsEnc.bal {m : List Tk} {l : List (Option (Nat × Nat))} (h : ParsEnc m l) : Bal m := by
  induction h with
  | nil => exact .nil
  | ell => exact .app (.one (t := .ident .something 0) rfl) (.one rfl)
  | void => exact .app (.one (t := .ident .something 0) rfl) (.one rfl)
  | @cons o ty m l ht _ _ ih => exact .app (.app (bal_nmOf o) ht.bal) ih

theorem copyPar_bal {m : List Tk} (h : Bal m) : ∀ (c : Nat) (r : List Tk),
    copyPar (c + 1) (m ++ r) = (copyPar (c + 1) r).bind fun a => some (m ++ a.1, a.2) := by
  induction h with
  | nil => intro c r; rw [List.nil_append]; cases copyPar (c + 1) r <;> rfl
  | @one t ht =>
    intro c r
    have h1 : t ≠ .lpar := by rintro rfl; cases ht
    have h2 : t ≠ .rpar := by rintro rfl; cases ht
    show copyPar (c + 1) (t :: r) = _
    rw [copyPar]
    simp only [h1, h2, if_false]
    rfl
  | @par m _ ih =>
    intro c r
    rw [show Tk.lpar :: m ++ [Tk.rpar] ++ r = Tk.lpar :: (m ++ (Tk.rpar :: r)) by simp, copyPar]
    simp only [if_true]
    rw [show c + 2 = (c + 1) + 1 from rfl, ih, copyPar]
    simp only [reduceCtorEq, if_true, if_false]
    cases copyPar (c + 1) r <;> simp
  | @brk m _ ih =>
    intro c r
    rw [show Tk.lbrk :: m ++ [Tk.rbrk] ++ r = Tk.lbrk :: (m ++ (Tk.rbrk :: r)) by simp, copyPar]
    simp only [reduceCtorEq, if_false]
    rw [ih, copyPar]
    simp only [reduceCtorEq, if_false]
    cases copyPar (c + 1) r <;> simp
  | app _ _ ih1 ih2 =>
    intro c r
    rw [List.append_assoc, ih1, ih2]
    cases copyPar (c + 1) r <;> simp

/-- a parameter ends at the next name or at `)` -/
def Stop (r : List Tk) : Prop := copyPar 0 r = some ([], r)

theorem copyPar_ty {ty r : List Tk} (h : TyOk ty) (hr : Stop r) : copyPar 0 (ty ++ r) = some (ty, r) := by
  unfold Stop at hr
  induction h with
  | void => show copyPar 0 (.void :: r) = _; simp [copyPar, hr]
  | base => show copyPar 0 (.base :: r) = _; simp [copyPar, hr]
  | sptr => show copyPar 0 (.sptr :: r) = _; simp [copyPar, hr]
  | @star q _ ih => show copyPar 0 (.star :: (q ++ r)) = _; simp [copyPar, ih]
  | @arr q _ ih => show copyPar 0 (.lbrk :: .num :: .rbrk :: (q ++ r)) = _; simp [copyPar, ih]
  | @fn m q hm _ ih =>
    rw [show Tk.lpar :: m ++ Tk.rpar :: q ++ r = Tk.lpar :: (m ++ (Tk.rpar :: (q ++ r))) by simp, copyPar]
    show (copyPar 1 _).bind _ = _
    rw [copyPar_bal hm 0, copyPar]
    simp [ih]

theorem ParsEnc.stop {m : List Tk} {l : List (Option (Nat × Nat))} (h : ParsEnc m l) (r : List Tk) : Stop (m ++ .rpar :: r) := by
  cases h with
  | nil => rfl
  | ell => rfl
  | void => rfl
  | @cons o _ _ _ _ _ _ => cases o <;> rfl

theorem addParams_ok {m : List Tk} {l : List (Option (Nat × Nat))} (h : ParsEnc m l) (r : List Tk) :
    ∀ (n : Nat) (st : List Tk) (e eb : Env) (P : List Nat), m.length < n → Inv P st e → withParams l e = some eb →
      ∃ l', addParams n (m ++ .rpar :: r) st = some (st ++ l') ∧ Inv P (st ++ l') eb := by
  induction h with
  | nil =>
    intro n st e eb P hn hI hw
    obtain ⟨k, rfl⟩ : ∃ k, n = k + 1 := ⟨n - 1, by simp at hn; omega⟩
    simp only [withParams, Option.some.injEq] at hw
    subst hw
    exact ⟨[], by simp [addParams], by simpa using hI⟩
  | ell =>
    intro n st e eb P hn hI hw
    obtain ⟨k, rfl⟩ : ∃ k, n = k + 1 := ⟨n - 1, by simp at hn; omega⟩
    simp only [withParams, Option.some.injEq] at hw
    subst hw
    exact ⟨[], by simp [addParams], by simpa using hI⟩
  | void =>
    intro n st e eb P hn hI hw
    obtain ⟨k, rfl⟩ : ∃ k, n = k + 1 := ⟨n - 1, by simp at hn; omega⟩
    simp only [withParams, Option.some.injEq] at hw
    subst hw
    exact ⟨[], by simp [addParams], by simpa using hI⟩
  | @cons o ty m l ht hv hm ih =>
    intro n st e eb P hn hI hw
    obtain ⟨k, rfl⟩ : ∃ k, n = k + 1 := ⟨n - 1, by simp at hn; omega⟩
    match o with
    | none => simp [withParams] at hw
    | some (x, id) =>
      simp only [withParams] at hw
      have hI' := hI.add (t := .lofs) (l := ty) (.cons rfl ht.closed) x id (c := .auto) rfl
      obtain ⟨l', h1, h2⟩ := ih k _ _ _ _ (by simp at hn; omega) hI' hw
      refine ⟨.ident (.id x) id :: .lofs :: ty ++ l', ?_, by simpa using h2⟩
      have hc := copyPar_ty ht (hm.stop r)
      have : addParams (k + 1) (.ident (.id x) id :: (ty ++ (m ++ .rpar :: r))) st =
          (copyPar 0 (ty ++ (m ++ .rpar :: r))).bind fun a => addParams k a.2 (st ++ .ident (.id x) id :: .lofs :: a.1) := by
        obtain ⟨t, q, rfl, hh⟩ := ht.head
        cases t <;> first | (cases hh; done) | (exact absurd rfl hv) | rfl
      rw [show nmOf (some (x, id)) :: ty ++ m ++ Tk.rpar :: r = .ident (.id x) id :: (ty ++ (m ++ .rpar :: r)) by simp [nmOf], this, hc]
      show addParams k (m ++ .rpar :: r) _ = _
      rw [h1]; simp

/-! ### names -/

def evs (a : List SEv) : List Ev := a.map (·.ev)
@[simp] theorem evs_nil : evs [] = [] := rfl
@[simp] theorem evs_append (a b : List SEv) : evs (a ++ b) = evs a ++ evs b := by simp [evs]
@[simp] theorem evs_cons (a : SEv) (b : List SEv) : evs (a :: b) = a.ev :: evs b := rfl

def Free (a : List SEv) : Prop := ∀ v ∈ a, v.own = false
theorem Free.left {a b : List SEv} (h : Free (a ++ b)) : Free a := fun v hv => h v (List.mem_append.mpr (.inl hv))
theorem Free.right {a b : List SEv} (h : Free (a ++ b)) : Free b := fun v hv => h v (List.mem_append.mpr (.inr hv))
theorem Free.tail {v : SEv} {b : List SEv} (h : Free (v :: b)) : Free b := fun w hw => h w (List.mem_cons_of_mem _ hw)

theorem clsAt_of {st : List Tk} {p : Nat} {t : Tk} {c : Cls} (h : st[p + 1]? = some t) (hc : HasCls c t) : clsAt st p = c := by
  unfold clsAt
  rw [h]
  cases c with
  | static => have : t = .ident .num 0 := hc; subst this; rfl
  | enum => have : t = .num := hc; subst this; rfl
  | auto => have : t = .lofs := hc; subst this; rfl
  | plain => cases t <;> first | (cases hc; done) | rfl

theorem name_ok {P : List Nat} {u : Use} {e e' : Env} {a : List SEv} {st : List Tk} (tr : List Ev)
    (h : sName P u e = some (e', a)) (hf : Free a) (hI : Inv P st e) :
    ∃ l, name u ⟨st, tr⟩ = some ⟨st ++ l, tr ++ evs a⟩ ∧ Inv P (st ++ l) e' := by
  unfold sName at h
  split at h
  · rename_i id c hl
    simp only [Option.some.injEq, Prod.mk.injEq] at h
    obtain ⟨rfl, rfl⟩ := h
    have hx : u.x ∉ P := by simpa using hf _ (List.mem_singleton.mpr rfl)
    have hn := hI.nm u.x hx
    rw [hl] at hn
    obtain ⟨p, cur, t, r, h1, _, h3, h4⟩ := hn
    refine ⟨[], ?_, by simpa using hI⟩
    unfold name findSymbol
    rw [h1]
    dsimp only
    rw [get_of_drop h3]
    dsimp only
    rw [clsAt_of (get_of_drop2 h3) h4]
    simp [S.ev]
  · cases h
  · rename_i hl
    split at h
    · rename_i hc
      simp only [Option.some.injEq, Prod.mk.injEq] at h
      obtain ⟨rfl, rfl⟩ := h
      have hx : u.x ∉ P := by simpa using hf _ (List.mem_singleton.mpr rfl)
      have hn := hI.nm u.x hx
      rw [hl] at hn
      refine ⟨[.ident (.id u.x) u.id, .lpar, .rpar, .base], ?_, ?_⟩
      · unfold name findSymbol
        rw [hn.1]
        dsimp only
        rw [if_pos hc]
        simp [S.ev, S.push]
      · exact hI.add (t := .lpar) (l := [.rpar, .base]) (.app (.par .nil) (.one rfl)) u.x u.id (c := .plain) rfl
    · cases h

theorem names_ok {P : List Nat} : ∀ (us : List Use) {e e' : Env} {a : List SEv} {st : List Tk} (tr : List Ev),
    sNames P us e = some (e', a) → Free a → Inv P st e →
    ∃ l, names us ⟨st, tr⟩ = some ⟨st ++ l, tr ++ evs a⟩ ∧ Inv P (st ++ l) e'
  | [], e, e', a, st, tr, h, hf, hI => by
    simp only [sNames, Option.some.injEq, Prod.mk.injEq] at h
    obtain ⟨rfl, rfl⟩ := h
    exact ⟨[], by simp [names], by simpa using hI⟩
  | u :: us, e, e', a, st, tr, h, hf, hI => by
    rw [sNames] at h
    obtain ⟨⟨e1, a1⟩, h1, h⟩ := Option.bind_eq_some_iff.mp h
    obtain ⟨⟨e2, a2⟩, h2, h⟩ := Option.bind_eq_some_iff.mp h
    simp only [Option.some.injEq, Prod.mk.injEq] at h
    obtain ⟨rfl, rfl⟩ := h
    obtain ⟨l1, m1, i1⟩ := name_ok tr h1 hf.left hI
    obtain ⟨l2, m2, i2⟩ := names_ok us (tr ++ evs a1) h2 hf.right i1
    refine ⟨l1 ++ l2, ?_, by simpa using i2⟩
    rw [names, m1]
    show names us _ = _
    rw [m2]; simp

/-! ### tags -/

theorem tag_found {st : List Tk} {x : Nat} {t : TEnt} {cur : Bool} (h : TgOk st x (some (t, cur))) :
    ∃ p, findTagged (.id x) st = .found p cur ∧ tagAt st p = some (t.id, t.k) ∧ ((st[p + 1]? == some .size) = true ↔ t.complete = true) := by
  obtain ⟨p, r, h1, h2, h3⟩ := h
  refine ⟨p + 1, h1, ?_, ?_⟩
  · unfold tagAt
    rw [get_of_drop2 h2, Nat.add_sub_cancel, get_of_drop h2]
  · have : st[p + 1 + 1]? = r.head? := by
      have := congrArg (fun l => l[2]?) h2
      simp only [List.getElem?_drop, List.getElem?_cons_succ] at this
      rw [show p + 1 + 1 = p + 2 from rfl, this, List.head?_eq_getElem?]
    rw [this, beq_iff_eq]; exact h3

theorem header_ok {P : List Nat} {k : Kind} {x : Option Nat} {e : Env} {a : List SEv} {st : List Tk} (tr : List Ev)
    (h : sHeader k x e = some a) (hI : Inv P st e) : header k x ⟨st, tr⟩ = some ⟨st, tr ++ evs a⟩ := by
  cases x with
  | none =>
    simp only [sHeader, Option.some.injEq] at h
    subst h
    simp [header]
  | some x =>
    simp only [sHeader] at h
    have ht := hI.tg x
    split at h
    · rename_i t cur hl
      split at h
      · cases h
      · rename_i hc
        simp only [Option.some.injEq] at h
        subst h
        rw [hl] at ht
        obtain ⟨p, h1, h2, h3⟩ := tag_found ht
        simp only [header, h1, h2]
        rw [if_neg]
        · simp [S.ev]
        · intro hh
          apply hc
          simp only [Bool.and_eq_true, Bool.or_eq_true, bne_iff_ne, ne_eq] at hh
          refine ⟨hh.1, ?_⟩
          rcases hh.2 with (hh | hh) | hh
          · exact .inl hh
          · exact .inr (.inl (by simpa using hh))
          · exact .inr (.inr (h3.mp hh))
    · rename_i hl
      simp only [Option.some.injEq] at h
      subst h
      rw [hl] at ht
      have ha : findTagged (.id x) st = .absent := ht
      simp [header, ha, S.ev]

end Smlr.Scope
