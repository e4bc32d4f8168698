import Verif.Declr.Complete

set_option autoImplicit false
/-
Whatever is parsed is a declarator.
-/
namespace Smlr.Declr
open Spec

theorem R.bind_ok {α β : Type} {x : R α} {f : α → R β} {b : β} (h : x.bind f = .ok b) : ∃ a, x = .ok a ∧ f a = .ok b := by
  cases x with
  | ok a => exact ⟨a, rfl, h⟩
  | error => cases h
  | fuel => cases h

theorem R.bind_fuel {α β : Type} {x : R α} {f : α → R β} (h : x.bind f = .fuel) : x = .fuel ∨ ∃ a, x = .ok a ∧ f a = .fuel := by
  cases x with
  | ok a => exact Or.inr ⟨a, rfl, h⟩
  | error => cases h
  | fuel => exact Or.inl rfl

def SD (env : Nat → Ty) (k : Nat) : Prop :=
  ∀ (ts : List Tok) (s : List Ent) (ts' : List Tok) (s' : List Ent), derived k ts s = .ok (ts', s') → Env env s ts →
    ∃ d : D, ts = d.text ++ ts' ∧ follow ts' = true ∧ d.ok env false ∧ chain d ∧ s' = s ++ .ident d.nm :: pre env d

def SQ (env : Nat → Ty) (k : Nat) : Prop :=
  ∀ (ts : List Tok) (s : List Ent) (ts' : List Tok) (s' : List Ent), fxnParams k ts s 0 false = .ok (ts', s') →
    Env env s ts → ∃ (q : Q) (r : List Tok), ts = q.text ++ .rpar :: r ∧ ts' = .rpar :: r ∧ q.ok env false ∧
      s' = s ++ (q.ps env).enc

def SQ' (env : Nat → Ty) (k : Nat) : Prop :=
  ∀ (ts : List Tok) (s : List Ent) (cnt : Nat) (ts' : List Tok) (s' : List Ent), 1 ≤ cnt →
    fxnParams k ts s cnt false = .ok (ts', s') → Env env s ts →
    ∃ r : List Tok, ts' = .rpar :: r ∧
      ((ts = .rpar :: r ∧ s' = s) ∨
       (∃ c, ts = .ellipsis :: (trail c ++ .rpar :: r) ∧ s' = s ++ [.ident none, .ellipsis]) ∨
       (∃ q : Q, ts = q.text ++ .rpar :: r ∧ q.ok' env false ∧ s' = s ++ (q.ps' env).enc'))

theorem params_dots_inv (k : Nat) (ts : List Tok) (s : List Ent) (cnt : Nat) (ts' : List Tok) (s' : List Ent)
    (h : fxnParams k ts s cnt true = .ok (ts', s')) : ∃ r, ts = .rpar :: r ∧ ts' = .rpar :: r ∧ s' = s := by
  cases k with
  | zero => simp [fxnParams] at h
  | succ k =>
    unfold fxnParams at h
    dsimp only at h
    split at h
    · cases h
    · cases h; exact ⟨_, rfl, rfl, rfl⟩
    · split at h
      · rw [if_pos (by simp)] at h; cases h
      · rw [if_pos rfl] at h; cases h

theorem head_inv (env : Nat → Ty) (k : Nat) (hD : SD env k) (ts : List Tok) (s : List Ent) (p : Bool) (ts' : List Tok)
    (s' : List Ent) (h : headOf k ts s = .ok (p, ts', s')) (henv : Env env s ts) :
    (p = false ∧ ∃ c : D, isCore c = true ∧ ts = c.text ++ ts' ∧ c.ok env false ∧ chain c ∧
      s' = s ++ .ident c.nm :: pre env c) ∨ (p = true ∧ ts = .lpar :: ts' ∧ s' = s) := by
  unfold headOf at h
  split at h
  · rename_i r
    split at h
    · cases h
    · rename_i t l
      split at h
      · rename_i hc
        obtain ⟨⟨r1, s1⟩, h1, h2⟩ := R.bind_ok h
        dsimp only at h2
        split at h2
        · rename_i r2
          cases h2
          obtain ⟨d, e1, _, e3, e4, e5⟩ := hD _ _ _ _ h1 (henv.mono (by intro t h; exact List.mem_cons_of_mem _ h))
          refine Or.inl ⟨rfl, .paren d, rfl, by rw [e1]; simp [D.text], ?_, e4, by rw [e5, pre, D.nm]⟩
          refine ⟨e3, ?_⟩
          cases htx : d.text with
          | nil =>
            rw [htx] at e1
            simp only [List.nil_append, List.cons.injEq] at e1
            exact absurd e1.1 hc.1
          | cons t' l' =>
            rw [htx] at e1
            simp only [List.cons_append, List.cons.injEq] at e1
            rw [← e1.1]
            obtain ⟨c1, c2⟩ := hc
            match t with
            | .rpar => exact absurd rfl c1
            | .kw _ => cases c2
            | .ident _ (some _) => cases c2
            | .ident _ none => rfl
            | .star => rfl
            | .lpar => rfl
            | .lbrk => rfl
            | .rbrk => rfl
            | .comma => rfl
            | .semi => rfl
            | .lbrace => rfl
            | .assign => rfl
            | .ellipsis => rfl
            | .other => rfl
            | .num _ => rfl
        · cases h2
      · cases h
        exact Or.inr ⟨rfl, rfl, rfl⟩
  · cases h
    exact Or.inl ⟨rfl, .name _ _, rfl, rfl, trivial, trivial, rfl⟩
  · cases h
    exact Or.inl ⟨rfl, .none, rfl, rfl, trivial, trivial, rfl⟩

theorem badFn_inv (s : List Ent) (h : badFn s = false) : topOk s := by
  simp [badFn] at h
  exact h

theorem derived_inv (env : Nat → Ty) (k : Nat) (hD : SD env k) (hQ : SQ env k) : SD env (k + 1) := by
  intro ts s ts' s' h henv
  rw [derived_succ] at h
  obtain ⟨⟨p, ts1, s1⟩, h1, h2⟩ := R.bind_ok h
  obtain ⟨⟨ts2, s2⟩, h3, h4⟩ := R.bind_ok h2
  dsimp only at h3 h4
  obtain ⟨hst, hns⟩ := stars_inv ts
  generalize (stars ts).1 = n at hst h4
  generalize (stars ts).2 = ts0 at hst h1 hns
  have henv0 : Env env s ts0 := henv.mono (by intro t h; rw [hst]; exact List.mem_append_right _ h)
  -- it suffices to have a declarator without the stars
  suffices hd : ∃ d : D, ts0 = d.text ++ ts2 ∧ d.ok env false ∧ chain d ∧ s2 = s ++ .ident d.nm :: pre env d by
    obtain ⟨d, e1, e2, e3, e4⟩ := hd
    unfold lastOf at h4
    split at h4
    · rename_i hf
      cases h4
      refine ⟨ptrs n d, ?_, hf, (ptrs_ok env false n d).2 e2, (ptrs_chain n d).2 e3, ?_⟩
      · rw [ptrs_text, hst, e1, List.append_assoc]
      · rw [ptrs_nm, ptrs_pre, e4]; simp
    · cases h4
  rcases head_inv env k hD _ _ _ _ _ h1 henv0 with ⟨rfl, c, hc, e1, e2, e3, e4⟩ | ⟨rfl, e1, e2⟩
  · unfold tailOf at h3
    rw [if_neg (by simp)] at h3
    split at h3
    · -- a function
      rename_i r
      split at h3
      · cases h3
      · rename_i hb
        obtain ⟨⟨ts3, s3⟩, h5, h6⟩ := R.bind_ok h3
        dsimp only at h6
        cases h6
        have henv1 : Env env (s1 ++ [.lpar]) r := by
          rw [e4, List.append_assoc]
          exact (henv0.mono (by intro t h; rw [e1]; exact List.mem_append_right _ (List.mem_cons_of_mem _ h))).grow _
        obtain ⟨q, r', g1, g2, g3, g4⟩ := hQ _ _ _ _ h5 henv1
        have hb' := badFn_inv _ (by simpa using hb)
        rw [e4] at hb'
        unfold topOk at hb'
        rw [last_pre] at hb'
        refine ⟨.fn c q, ?_, ⟨e2, core_direct c hc, g3⟩, ⟨e3, by simpa using hb'⟩, ?_⟩
        · rw [e1, g1, g2]; simp [D.text]
        · rw [g4, e4]; simp [D.nm, pre]
    · -- an array
      rename_i r
      split at h3
      · cases h3
      · rename_i hb
        obtain ⟨l, g1, g2, g3, g4⟩ := dims_inv _ false _ _ _ _ h3
        have hl : l ≠ [] := by
          rintro rfl
          rw [rowText, List.nil_append] at g2
          rw [← g2] at g4
          simp at g4
        have harr : c.isArr = false := by cases c <;> first | rfl | simp [isCore] at hc
        refine ⟨rows c l, ?_, ?_, ?_, ?_⟩
        · rw [rows_text, e1, g2, List.append_assoc]
        · rw [rows_ok env false l c (core_direct c hc), harr]; exact ⟨e2, g1⟩
        · rw [rows_chain c l hl]
          refine ⟨e3, ?_⟩
          rw [badArr, e4, last_pre] at hb
          simpa using hb
        · rw [rows_nm, rows_pre, g3, e4]; simp
    · cases h3
      exact ⟨c, e1, e2, e3, e4⟩
  · -- an abstract function
    unfold tailOf at h3
    rw [if_pos rfl] at h3
    split at h3
    · cases h3
    · obtain ⟨⟨ts3, s3⟩, h5, h6⟩ := R.bind_ok h3
      dsimp only at h6
      cases h6
      have henv1 : Env env (s1 ++ [.ident none] ++ [.lpar]) ts1 := by
        rw [e2, List.append_assoc]
        exact (henv0.mono (by intro t h; rw [e1]; exact List.mem_cons_of_mem _ h)).grow _
      obtain ⟨q, r', g1, g2, g3, g4⟩ := hQ _ _ _ _ h5 henv1
      refine ⟨.fn .none q, ?_, ⟨trivial, rfl, g3⟩, ⟨trivial, by simp [lst], by simp [lst]⟩, ?_⟩
      · rw [e1, g1, g2]; simp [D.text]
      · rw [g4, e2]; simp [D.nm, pre]

theorem param_inv (env : Nat → Ty) (k : Nat) (hD : SD env k) (t : Tok) (l : List Tok) (s : List Ent)
    (hst : starts t = true) (henv : Env env s (t :: l)) (cnt : Nat)
    (more : List Tok → List Ent → R (List Tok × List Ent)) (res : List Tok × List Ent)
    (h : ((parseBase (t :: l)).bind fun (b, r) =>
      (derived k r s).bind fun (r, s') =>
      (pushBase b s').bind fun s' => afterParam more cnt r (decay (enumToInt s') s.length)) = .ok res) :
    ∃ (b : Sp) (d : D) (rest : List Tok), t :: l = b.text :: d.text ++ rest ∧ d.ok env false ∧
      (d.ty env (b.ty env)).lawful false ∧
      afterParam more cnt rest (s ++ .ident d.nm :: (adjust (d.ty env (b.ty env))).enc) = .ok res := by
  obtain ⟨b, rfl⟩ := starts_inv t hst
  rw [parseBase_text] at h
  simp only [R.bind] at h
  obtain ⟨⟨r1, s1⟩, h1, h2⟩ := R.bind_ok h
  obtain ⟨s2, h3, h4⟩ := R.bind_ok h2
  dsimp only at h3 h4
  obtain ⟨d, e1, e2, e3, e4, e5⟩ := hD _ _ _ _ h1 (henv.mono (by intro t h; exact List.mem_cons_of_mem _ h))
  subst e5
  obtain ⟨hj, hs⟩ := push_inv env b _ (lst d) l (henv.grow _) (last_pre env d s) _ h3
  rw [hs, List.append_assoc, List.cons_append, pre_enc, decay_eq] at h4
  exact ⟨b, d, r1, by rw [e1]; rfl, e3,
    (lawful_iff env d _).2 ⟨e4, hj, deep_lawful _ (sp_deep env b l henv.toD)⟩, h4⟩

theorem after_inv (more : List Tok → List Ent → R (List Tok × List Ent)) (cnt : Nat) (ts : List Tok) (s : List Ent)
    (res : List Tok × List Ent) (h : afterParam more cnt ts s = .ok res) :
    (∃ r, ts = .rpar :: r ∧ voidParam s cnt true = false ∧ res = (.rpar :: r, s)) ∨
    (∃ r, ts = .comma :: r ∧ voidParam s cnt false = false ∧ more r s = .ok res) := by
  unfold afterParam at h
  split at h
  · split at h
    · cases h
    · rename_i hv; cases h; exact Or.inl ⟨_, rfl, by simpa using hv, rfl⟩
  · split at h
    · cases h
    · rename_i hv; exact Or.inr ⟨_, rfl, by simpa using hv, h⟩
  · cases h

theorem params'_inv (env : Nat → Ty) (k : Nat) (hD : SD env k) (hQ : SQ' env k) : SQ' env (k + 1) := by
  intro ts s cnt ts' s' hcnt h henv
  match ts with
  | [] => unfold fxnParams at h; cases h
  | t :: l =>
    by_cases hr : t = .rpar
    · subst hr
      rw [params_end] at h
      cases h
      exact ⟨l, rfl, Or.inl ⟨rfl, rfl⟩⟩
    by_cases he : t = .ellipsis
    · subst he
      rw [params_dots _ _ _ _ hcnt] at h
      rcases after_inv _ _ _ _ _ h with ⟨r, e1, _, e3⟩ | ⟨r, e1, _, e3⟩
      · cases e3
        exact ⟨r, rfl, Or.inr (Or.inl ⟨false, by rw [e1]; rfl, by simp⟩)⟩
      · obtain ⟨r', g1, g2, g3⟩ := params_dots_inv _ _ _ _ _ _ e3
        exact ⟨r', g2, Or.inr (Or.inl ⟨true, by rw [e1, g1]; rfl, by rw [g3]; simp⟩)⟩
    cases hst : starts t with
    | false =>
      unfold fxnParams at h
      dsimp only at h
      split at h
      · cases h
      · rename_i hx; cases hx; exact absurd rfl hr
      · rename_i hx
        cases hx
        rw [if_pos hst, if_pos (Or.inl he)] at h
        cases h
    | true =>
      obtain ⟨b0, hb0⟩ := starts_inv t hst
      rw [hb0, params_start] at h
      rw [hb0] at henv hst
      obtain ⟨b, d, rest, e1, e2, e3, e4⟩ := param_inv env k hD _ l s hst henv _ _ _ h
      rw [hb0, e1]
      rw [e1] at henv
      have hdeep := D.ty_deep env d (b.ty env) e2 (henv.toD.mono (by intro t h; simp [h]))
        (sp_deep env b d.text (henv.toD.mono (by intro t h; exact List.mem_append_left _ h))) e3
      have hvoid : ∀ last, voidParam (s ++ .ident d.nm :: (adjust (d.ty env (b.ty env))).enc) (cnt + 1) last = false →
          (d.ty env (b.ty env)).isVoid = false := by
        intro last hv
        rw [voidParam_eq _ _ _ _ _ (adjust_deep _ hdeep), adjust_void] at hv
        have : ¬ (cnt + 1 = 1) := by omega
        rw [decide_eq_false this, Bool.and_false, Bool.false_and, Bool.not_false, Bool.and_true] at hv
        exact hv
      rcases after_inv _ _ _ _ _ e4 with ⟨r, g1, g2, g3⟩ | ⟨r, g1, g2, g3⟩
      · cases g3
        refine ⟨r, rfl, Or.inr (Or.inr ⟨.one b d false, ?_, ⟨e2, e3, hvoid _ g2, by simp⟩, ?_⟩)⟩
        · rw [g1]; simp [Q.text, trail]
        · simp [Q.ps', Ps.enc']
      · obtain ⟨r', f1, f2⟩ := hQ _ _ _ _ _ (by omega) g3 ((henv.mono (by
          intro t h; rw [g1]; exact List.mem_append_right _ (List.mem_cons_of_mem _ h))).grow _)
        refine ⟨r', f1, Or.inr (Or.inr ?_)⟩
        rcases f2 with ⟨f2, f3⟩ | ⟨c, f2, f3⟩ | ⟨q, f2, f3, f4⟩
        · refine ⟨.one b d true, ?_, ⟨e2, e3, hvoid _ g2, by simp⟩, ?_⟩
          · rw [g1, f2]; simp [Q.text, trail]
          · rw [f3]; simp [Q.ps', Ps.enc']
        · refine ⟨.dots b d c, ?_, ⟨e2, e3, hvoid _ g2, by simp⟩, ?_⟩
          · rw [g1, f2]; simp [Q.text]
          · rw [f3]; simp [Q.ps', Ps.enc']
        · refine ⟨.more b d q, ?_, ⟨e2, e3, hvoid _ g2, f3⟩, ?_⟩
          · rw [g1, f2]; simp [Q.text]
          · rw [f4]; simp [Q.ps', Ps.enc']

theorem params_inv (env : Nat → Ty) (k : Nat) (hD : SD env k) (hQ : SQ' env k) : SQ env (k + 1) := by
  intro ts s ts' s' h henv
  match ts with
  | [] => unfold fxnParams at h; cases h
  | t :: l =>
    by_cases hr : t = .rpar
    · subst hr
      rw [params_end] at h
      cases h
      exact ⟨.empty, l, rfl, rfl, trivial, by simp [Q.ps, Ps.enc]⟩
    cases hst : starts t with
    | false =>
      unfold fxnParams at h
      dsimp only at h
      split at h
      · cases h
      · rename_i hx; cases hx; exact absurd rfl hr
      · rename_i hx
        cases hx
        rw [if_pos hst, if_pos (by simp)] at h
        cases h
    | true =>
      obtain ⟨b0, hb0⟩ := starts_inv t hst
      rw [hb0, params_start] at h
      rw [hb0] at henv hst
      obtain ⟨b, d, rest, e1, e2, e3, e4⟩ := param_inv env k hD _ l s hst henv _ _ _ h
      rw [hb0, e1]
      rw [e1] at henv
      have hdeep := D.ty_deep env d (b.ty env) e2 (henv.toD.mono (by intro t h; simp [h]))
        (sp_deep env b d.text (henv.toD.mono (by intro t h; exact List.mem_append_left _ h))) e3
      rcases after_inv _ _ _ _ _ e4 with ⟨r, g1, g2, g3⟩ | ⟨r, g1, g2, g3⟩
      · cases g3
        rw [voidParam_eq _ _ _ _ _ (adjust_deep _ hdeep), adjust_void] at g2
        refine ⟨.one b d false, r, ?_, rfl, ⟨e2, e3, ?_, by simp⟩, ?_⟩
        · rw [g1]; simp [Q.text, trail]
        · intro hv
          rw [hv] at g2
          exact ⟨by simpa using g2, rfl⟩
        · rw [Q.ps_one]
          split
          · rename_i h
            rw [void_enc _ h.2, h.1]
            simp [adjust, Ty.enc, Ps.enc]
          · simp [Ps.enc, Ps.enc']
      · have hvoid : (d.ty env (b.ty env)).isVoid = false := by
          rw [voidParam_eq _ _ _ _ _ (adjust_deep _ hdeep), adjust_void] at g2
          simpa using g2
        obtain ⟨r', f1, f2⟩ := hQ _ _ _ _ _ (by omega) g3 ((henv.mono (by
          intro t h; rw [g1]; exact List.mem_append_right _ (List.mem_cons_of_mem _ h))).grow _)
        rcases f2 with ⟨f2, f3⟩ | ⟨c, f2, f3⟩ | ⟨q, f2, f3, f4⟩
        · refine ⟨.one b d true, r', ?_, f1, ⟨e2, e3, ?_, by simp⟩, ?_⟩
          · rw [g1, f2]; simp [Q.text, trail]
          · intro hv; rw [hv] at hvoid; cases hvoid
          · rw [Q.ps_one, if_neg (by rw [hvoid]; simp), f3]; simp [Ps.enc, Ps.enc']
        · refine ⟨.dots b d c, r', ?_, f1, ⟨e2, e3, hvoid, by simp⟩, ?_⟩
          · rw [g1, f2]; simp [Q.text]
          · rw [f3]; simp [Q.ps, Ps.enc, Ps.enc']
        · refine ⟨.more b d q, r', ?_, f1, ⟨e2, e3, hvoid, f3⟩, ?_⟩
          · rw [g1, f2]; simp [Q.text]
          · rw [f4]; simp [Q.ps, Ps.enc]

theorem all_inv (env : Nat → Ty) : ∀ k, SD env k ∧ SQ env k ∧ SQ' env k
  | 0 => ⟨fun _ _ _ _ h => by simp [derived] at h, fun _ _ _ _ h => by simp [fxnParams] at h,
      fun _ _ _ _ _ _ h => by simp [fxnParams] at h⟩
  | k + 1 => by
    obtain ⟨h1, h2, h3⟩ := all_inv env k
    exact ⟨derived_inv env k h1 h2, params_inv env k h1 h3, params'_inv env k h1 h3⟩

theorem declare_inv (env : Nat → Ty) (b : Sp) (ts : List Tok) (s : List Ent) (k : Nat) (ts' : List Tok) (s' : List Ent)
    (h : declare k (Sp.base b) ts s = .ok (ts', s')) (henv : Env env s (b.text :: ts)) :
    ∃ d : D, ts = d.text ++ ts' ∧ follow ts' = true ∧ d.ok env false ∧ (d.ty env (b.ty env)).lawful false ∧
      s' = s ++ .ident d.nm :: (d.ty env (b.ty env)).enc := by
  obtain ⟨⟨r1, s1⟩, h1, h2⟩ := R.bind_ok h
  obtain ⟨s2, h3, h4⟩ := R.bind_ok h2
  obtain ⟨d, e1, e2, e3, e4, e5⟩ := (all_inv env k).1 _ _ _ _ h1 (henv.mono (by intro t h; exact List.mem_cons_of_mem _ h))
  subst e5
  obtain ⟨hj, hs⟩ := push_inv env b _ (lst d) ts (henv.grow _) (last_pre env d s) _ h3
  rw [hs, List.append_assoc, List.cons_append, pre_enc] at h4
  cases h4
  exact ⟨d, e1, e2, e3, (lawful_iff env d _).2 ⟨e4, hj, deep_lawful _ (sp_deep env b ts henv.toD)⟩, rfl⟩

/-! ### the fuel is enough -/

theorem stars_len (ts : List Tok) : (stars ts).2.length ≤ ts.length := by
  have := congrArg List.length (stars_inv ts).1
  simp at this; omega

theorem no_fuel (env : Nat → Ty) : ∀ (k : Nat),
    (∀ ts s, Env env s ts → ts.length < k → derived k ts s ≠ .fuel) ∧
    (∀ ts s cnt ell, Env env s ts → ts.length < k → fxnParams k ts s cnt ell ≠ .fuel)
  | 0 => ⟨fun _ _ _ h => absurd h (by omega), fun _ _ _ _ _ h => absurd h (by omega)⟩
  | k + 1 => by
    obtain ⟨hD, hQ⟩ := no_fuel env k
    refine ⟨?_, ?_⟩
    · intro ts s henv hl h
      rw [derived_succ] at h
      have hl0 := stars_len ts
      have hst := (stars_inv ts).1
      generalize (stars ts).1 = n at hst h
      generalize (stars ts).2 = ts0 at hst h hl0
      have henv0 : Env env s ts0 := henv.mono (by intro t h; rw [hst]; exact List.mem_append_right _ h)
      rcases R.bind_fuel h with h1 | ⟨⟨p, ts1, s1⟩, h1, h2⟩
      · unfold headOf at h1
        split at h1
        · rename_i r
          split at h1
          · cases h1
          · split at h1
            · rcases R.bind_fuel h1 with h1 | ⟨a, _, h2⟩
              · exact hD _ _ (henv0.mono (by intro t h; exact List.mem_cons_of_mem _ h)) (by simp only [List.length_cons] at hl0 ⊢; omega) h1
              · dsimp only at h2
                split at h2 <;> cases h2
            · cases h1
        · cases h1
        · cases h1
      · dsimp only at h2
        have hin := head_inv env k (all_inv env k).1 _ _ _ _ _ h1 henv0
        have hl1 : ts1.length ≤ ts0.length ∧ (p = true → ts1.length + 1 = ts0.length) := by
          rcases hin with ⟨rfl, c, _, e, _⟩ | ⟨rfl, e, _⟩
          · have := congrArg List.length e
            rw [List.length_append] at this
            exact ⟨by omega, by simp⟩
          · rw [e]; simp
        have henv1 : Env env s1 ts1 := by
          rcases hin with ⟨rfl, c, _, e, _, _, e'⟩ | ⟨rfl, e, e'⟩
          · rw [e']; exact (henv0.mono (by intro t h; rw [e]; exact List.mem_append_right _ h)).grow _
          · rw [e']; exact henv0.mono (by intro t h; rw [e]; exact List.mem_cons_of_mem _ h)
        rcases R.bind_fuel h2 with h3 | ⟨⟨ts2, s2⟩, _, h4⟩
        · unfold tailOf at h3
          cases p with
          | true =>
            rw [if_pos rfl] at h3
            split at h3
            · cases h3
            · rcases R.bind_fuel h3 with h5 | ⟨a, _, h6⟩
              · exact hQ _ _ _ _ (by rw [List.append_assoc]; exact henv1.grow _) (by have := hl1.2 rfl; omega) h5
              · cases h6
          | false =>
            rw [if_neg (by simp)] at h3
            split at h3
            · rename_i r
              split at h3
              · cases h3
              · rcases R.bind_fuel h3 with h5 | ⟨a, _, h6⟩
                · exact hQ _ _ _ _ ((henv1.mono (by intro t h; exact List.mem_cons_of_mem _ h)).grow _)
                    (by have := hl1.1; simp only [List.length_cons] at this; omega) h5
                · cases h6
            · split at h3
              · cases h3
              · exact dims_fuel _ _ _ _ (by omega) h3
            · cases h3
        · unfold lastOf at h4
          dsimp only at h4
          split at h4 <;> cases h4
    · intro ts s cnt ell henv hl h
      have after : ∀ (cnt' : Nat) (ell' : Bool) (r : List Tok) (s1 : List Ent), Env env s1 r → r.length < ts.length →
          afterParam (fun ts s => fxnParams k ts s cnt' ell') cnt' r s1 ≠ .fuel := by
        intro cnt' ell' r s1 henv' hlr hx
        unfold afterParam at hx
        split at hx
        · split at hx <;> cases hx
        · rename_i r'
          split at hx
          · cases hx
          · exact hQ _ _ _ _ (henv'.mono (by intro t h; exact List.mem_cons_of_mem _ h)) (by simp only [List.length_cons] at hlr; omega) hx
        · cases hx
      unfold fxnParams at h
      dsimp only at h
      split at h
      · cases h
      · cases h
      · rename_i t r _
        split at h
        · split at h
          · cases h
          · exact after _ _ _ _ ((by rw [List.append_assoc]; exact (henv.mono (by intro t h; exact List.mem_cons_of_mem _ h)).grow _)) (by simp) h
        · rename_i hst
          split at h
          · cases h
          · obtain ⟨b, rfl⟩ := starts_inv t (by simpa using hst)
            rw [parseBase_text] at h
            simp only [R.bind] at h
            have henvr : Env env s r := henv.mono (by intro t h; exact List.mem_cons_of_mem _ h)
            rcases R.bind_fuel h with h1 | ⟨⟨r1, s1⟩, h1, h2⟩
            · exact hD _ _ henvr (by simp only [List.length_cons] at hl; omega) h1
            · dsimp only at h2
              obtain ⟨d, e1, _, _, _, e5⟩ := (all_inv env k).1 _ _ _ _ h1 henvr
              subst e5
              rcases R.bind_fuel h2 with h3 | ⟨s2, h3, h4⟩
              · exact push_fuel _ _ h3
              · obtain ⟨_, hs⟩ := push_inv env b _ (lst d) r (henv.grow _) (last_pre env d s) _ h3
                rw [hs, List.append_assoc, List.cons_append, pre_enc, decay_eq] at h4
                exact after _ _ _ _ ((henvr.mono (by intro t h; rw [e1]; exact List.mem_append_right _ h)).grow _) (by
                  have := congrArg List.length e1
                  simp only [List.length_append, List.length_cons] at this ⊢; omega) h4

theorem declare_fuel (env : Nat → Ty) (b : Sp) (ts : List Tok) (s : List Ent) (k : Nat)
    (henv : Env env s (b.text :: ts)) (hl : ts.length < k) : declare k (Sp.base b) ts s ≠ .fuel := by
  intro h
  rcases R.bind_fuel h with h1 | ⟨⟨r1, s1⟩, _, h2⟩
  · exact (no_fuel env k).1 _ _ (henv.mono (by intro t h; exact List.mem_cons_of_mem _ h)) hl h1
  · rcases R.bind_fuel h2 with h3 | ⟨a, _, h4⟩
    · exact push_fuel _ _ h3
    · cases h4

end Smlr.Declr
