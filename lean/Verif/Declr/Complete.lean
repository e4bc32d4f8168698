import Verif.Declr.Push

set_option autoImplicit false
/-
Every declarator is parsed.
-/
namespace Smlr.Declr
open Spec

/-- the inner part of a declarator -/
def isCore : D → Bool
  | .none => true
  | .name _ _ => true
  | .paren _ => true
  | _ => false

def ptrs : Nat → D → D
  | 0, d => d
  | n + 1, d => .ptr (ptrs n d)

/-- the outer stars of a declarator -/
theorem split_ptrs : ∀ (d : D), ∃ n d', d = ptrs n d' ∧ d'.direct = true
  | .none => ⟨0, _, rfl, rfl⟩
  | .name _ _ => ⟨0, _, rfl, rfl⟩
  | .paren _ => ⟨0, _, rfl, rfl⟩
  | .arr _ _ => ⟨0, _, rfl, rfl⟩
  | .fn _ _ => ⟨0, _, rfl, rfl⟩
  | .ptr d => by
    obtain ⟨n, d', h, h'⟩ := split_ptrs d
    exact ⟨n + 1, d', by rw [ptrs, h], h'⟩

theorem ptrs_text (n : Nat) (d : D) : (ptrs n d).text = List.replicate n .star ++ d.text := by
  induction n with
  | zero => rfl
  | succ n ih => rw [ptrs, D.text, ih]; rfl

theorem ptrs_nm (n : Nat) (d : D) : (ptrs n d).nm = d.nm := by
  induction n with
  | zero => rfl
  | succ n ih => rw [ptrs, D.nm, ih]

theorem ptrs_pre (env : Nat → Ty) (n : Nat) (d : D) : pre env (ptrs n d) = pre env d ++ List.replicate n .star := by
  induction n with
  | zero => simp [ptrs]
  | succ n ih => rw [ptrs, pre, ih, List.append_assoc, ← List.replicate_succ']

theorem ptrs_ok (env : Nat → Ty) (st : Bool) (n : Nat) (d : D) : (ptrs n d).ok env st ↔ d.ok env st := by
  induction n with
  | zero => rfl
  | succ n ih => rw [ptrs, D.ok, ih]

theorem ptrs_chain (n : Nat) (d : D) : chain (ptrs n d) ↔ chain d := by
  induction n with
  | zero => rfl
  | succ n ih => rw [ptrs, chain, ih]

/-- a declarator without outer stars is a row of dimensions after an inner part, or a function -/
theorem split_direct (env : Nat → Ty) : ∀ (d : D), d.direct = true → d.ok env false → chain d →
    (∃ c l, isCore c = true ∧ d = rows c l) ∨ (∃ c q, isCore c = true ∧ d = .fn c q)
  | .none, _, _, _ => Or.inl ⟨.none, [], rfl, rfl⟩
  | .name x t, _, _, _ => Or.inl ⟨.name x t, [], rfl, rfl⟩
  | .paren d, _, _, _ => Or.inl ⟨.paren d, [], rfl, rfl⟩
  | .ptr d, h, _, _ => by simp [D.direct] at h
  | .arr d n, _, h2, h3 => by
    rw [D.ok] at h2; rw [chain] at h3
    rcases split_direct env d h2.2.1 h2.1 h3.1 with ⟨c, l, hc, rfl⟩ | ⟨c, q, hc, rfl⟩
    · exact Or.inl ⟨c, l ++ [n], hc, (rows_concat c l n).symm⟩
    · exact absurd rfl h3.2
  | .fn d q, _, h2, h3 => by
    rw [D.ok] at h2; rw [chain] at h3
    rcases split_direct env d h2.2.1 h2.1 h3.1 with ⟨c, l, hc, rfl⟩ | ⟨c, q', hc, rfl⟩
    · cases l with
      | nil => exact Or.inr ⟨c, q, hc, rfl⟩
      | cons n l =>
        have : lst (rows c (n :: l)) = .rbrk := by
          rcases List.eq_nil_or_concat (n :: l) with h | ⟨l', b, h⟩
          · cases h
          · rw [h, List.concat_eq_append, rows_concat]; rfl
        exact absurd this h3.2.2
    · exact absurd rfl h3.2.1

theorem core_direct (c : D) (h : isCore c = true) : c.direct = true := by
  cases c <;> first | rfl | simp [isCore] at h

/-- the first step of `ParseDerived` after the stars -/
def headOf (k : Nat) (ts : List Tok) (s : List Ent) : R (Bool × List Tok × List Ent) :=
  match ts with
  | .lpar :: r =>
    match r with
    | [] => .error
    | t :: _ =>
      if t ≠ .rpar ∧ starts t = false then
        (derived k r s).bind fun (r, s) =>
        match r with
        | .rpar :: r => .ok (false, r, s)
        | _ => .error
      else .ok (true, r, s)
  | .ident x _ :: r => .ok (false, r, s ++ [.ident (some x)])
  | _ => .ok (false, ts, s ++ [.ident none])

/-- the second step -/
def tailOf (k : Nat) (params : Bool) (ts : List Tok) (s : List Ent) : R (List Tok × List Ent) :=
  if params then
    if badFn s then .error else
    (fxnParams k ts (s ++ [.ident none] ++ [.lpar]) 0 false).bind fun (ts, s) =>
    .ok (ts.tail, s ++ [.rpar])
  else match ts with
  | .lpar :: r =>
    if badFn s then .error else
    (fxnParams k r (s ++ [.lpar]) 0 false).bind fun (ts, s) =>
    .ok (ts.tail, s ++ [.rpar])
  | .lbrk :: _ => if badArr s then .error else dims (ts.length + 1) true ts s
  | _ => .ok (ts, s)

/-- the last step -/
def lastOf (n : Nat) (ts : List Tok) (s : List Ent) : R (List Tok × List Ent) :=
  if follow ts then .ok (ts, s ++ List.replicate n .star) else .error

theorem derived_succ (k : Nat) (ts : List Tok) (s : List Ent) :
    derived (k + 1) ts s = (headOf k (stars ts).2 s).bind fun (p, ts', s) =>
      (tailOf k p ts' s).bind fun (ts', s) => lastOf (stars ts).1 ts' s := by
  conv => lhs; unfold derived
  rfl

/-- the top of the symbol table is not the end of an array or function -/
def topOk (s : List Ent) : Prop := s.getLast? ≠ some .rpar ∧ s.getLast? ≠ some .rbrk

theorem badFn_false (s : List Ent) (h : topOk s) : badFn s = false := by
  simp [badFn, h.1, h.2]

theorem follow_head (rest : List Tok) (h : follow rest = true) :
    rest.head? ≠ some .lbrk ∧ rest.head? ≠ some .star ∧ rest.head? ≠ some .lpar ∧ (∀ x t, rest.head? ≠ some (.ident x t)) := by
  match rest with
  | [] => simp [follow] at h
  | t :: r => cases t <;> first | (simp [follow] at h; done) | simp

theorem tail_none (k : Nat) (rest : List Tok) (s : List Ent) (h : follow rest = true) :
    tailOf k false rest s = .ok (rest, s) := by
  match rest with
  | [] => simp [follow] at h
  | t :: r => cases t <;> first | (simp [follow] at h; done) | rfl

theorem head_none (k : Nat) (rest : List Tok) (s : List Ent) (h1 : rest.head? ≠ some .lpar)
    (h2 : ∀ x t, rest.head? ≠ some (.ident x t)) : headOf k rest s = .ok (false, rest, s ++ [.ident none]) := by
  match rest with
  | [] => rfl
  | t :: r =>
    cases t with
    | lpar => simp at h1
    | ident x t => exact absurd rfl (h2 x t)
    | _ => rfl

theorem rowText_len (l : List (Option Nat)) : l.length ≤ (rowText l).length := by
  induction l with
  | nil => simp
  | cons n l ih => rw [rowText]; simp; omega

/-- what is to be shown of `ParseDerived` -/
def PD (env : Nat → Ty) (k : Nat) : Prop :=
  ∀ (d : D) (rest : List Tok) (s : List Ent), d.ok env false → chain d → follow rest = true →
    Env env s (d.text ++ rest) → topOk s → (d.text ++ rest).length < k →
    derived k (d.text ++ rest) s = .ok (rest, s ++ .ident d.nm :: pre env d)

def PQ (env : Nat → Ty) (k : Nat) : Prop :=
  ∀ (q : Q) (r : List Tok) (s : List Ent), q.ok env false → Env env s (q.text ++ .rpar :: r) → topOk s →
    (q.text ++ .rpar :: r).length < k →
    fxnParams k (q.text ++ .rpar :: r) s 0 false = .ok (.rpar :: r, s ++ (q.ps env).enc)

def PQ' (env : Nat → Ty) (k : Nat) : Prop :=
  ∀ (q : Q) (r : List Tok) (s : List Ent) (cnt : Nat), 1 ≤ cnt → q.ok' env false → Env env s (q.text ++ .rpar :: r) →
    topOk s → (q.text ++ .rpar :: r).length < k →
    fxnParams k (q.text ++ .rpar :: r) s cnt false = .ok (.rpar :: r, s ++ (q.ps' env).enc')

/-- the inner part of a declarator that is not an abstract function -/
theorem head_core (env : Nat → Ty) (k : Nat) (hk : PD env k) (c : D) (hc : isCore c = true) (rest : List Tok) (s : List Ent)
    (hok : c.ok env false) (hch : chain c) (henv : Env env s (c.text ++ rest)) (htop : topOk s)
    (hl : (c.text ++ rest).length ≤ k) (hn : c = .none → rest.head? ≠ some .lpar ∧ ∀ x t, rest.head? ≠ some (.ident x t)) :
    headOf k (c.text ++ rest) s = .ok (false, rest, s ++ .ident c.nm :: pre env c) := by
  match c with
  | .none => exact head_none k rest s (hn rfl).1 (hn rfl).2
  | .name x t => rfl
  | .paren d =>
    rw [D.ok] at hok
    rw [chain] at hch
    have ht : (D.paren d).text ++ rest = .lpar :: (d.text ++ .rpar :: rest) := by simp [D.text]
    rw [ht] at henv hl ⊢
    have ih := hk d (.rpar :: rest) s hok.1 hch rfl (henv.mono (by intro t h; exact List.mem_cons_of_mem _ h)) htop (by
      rw [List.length_cons] at hl; omega)
    have hcl := hok.2
    unfold headOf
    cases htx : d.text with
    | nil => rw [htx] at hcl; simp [closed] at hcl
    | cons t l =>
      rw [htx] at hcl ih
      dsimp only [List.cons_append] at ih ⊢
      have h1 : t ≠ .rpar ∧ starts t = false := by
        match t with
        | .rpar => simp [closed] at hcl
        | .kw _ => simp [closed] at hcl
        | .ident _ (some _) => simp [closed] at hcl
        | .ident _ none => simp [starts]
        | .star => simp [starts]
        | .lpar => simp [starts]
        | .lbrk => simp [starts]
        | .rbrk => simp [starts]
        | .comma => simp [starts]
        | .semi => simp [starts]
        | .lbrace => simp [starts]
        | .assign => simp [starts]
        | .ellipsis => simp [starts]
        | .other => simp [starts]
        | .num _ => simp [starts]
      rw [if_pos h1, ih]
      rfl
  | .ptr _ => simp [isCore] at hc
  | .arr _ _ => simp [isCore] at hc
  | .fn _ _ => simp [isCore] at hc

theorem q_head (q : Q) (r : List Tok) : ∃ t l, q.text ++ Tok.rpar :: r = t :: l ∧ (t = .rpar ∨ starts t = true) := by
  cases q with
  | empty => exact ⟨_, _, rfl, Or.inl rfl⟩
  | one b d c => exact ⟨_, _, rfl, Or.inr (starts_text b)⟩
  | dots b d c => exact ⟨_, _, rfl, Or.inr (starts_text b)⟩
  | more b d q => exact ⟨_, _, rfl, Or.inr (starts_text b)⟩

theorem derived_step (env : Nat → Ty) (k : Nat) (hD : PD env k) (hQ : PQ env k) : PD env (k + 1) := by
  intro d rest s hok hch hf henv htop hl
  obtain ⟨n, d', rfl, hd'⟩ := split_ptrs d
  rw [ptrs_ok] at hok
  rw [ptrs_chain] at hch
  rw [ptrs_text, List.append_assoc] at henv hl ⊢
  rw [ptrs_nm, ptrs_pre]
  have henv' : Env env s (d'.text ++ rest) := henv.mono (by intro t h; exact List.mem_append_right _ h)
  have hl' : (d'.text ++ rest).length ≤ k := by
    rw [List.length_append] at hl; omega
  obtain ⟨f1, f2, f3, f4⟩ := follow_head rest hf
  rcases split_direct env d' hd' hok hch with ⟨c, l, hc, rfl⟩ | ⟨c, q, hc, rfl⟩
  · -- a row of dimensions
    have hcd := core_direct c hc
    rw [rows_ok env false l c hcd] at hok
    have harr : c.isArr = false := by cases c <;> first | rfl | simp [isCore] at hc
    rw [harr] at hok
    rw [rows_text, List.append_assoc] at henv' hl' ⊢
    have hchc : chain c ∧ (l ≠ [] → lst c ≠ .rpar) := by
      by_cases hn : l = []
      · subst hn; exact ⟨hch, fun h => absurd rfl h⟩
      · have := (rows_chain c l hn).1 hch
        exact ⟨this.1, fun _ => this.2⟩
    have hhd : c = .none → (rowText l ++ rest).head? ≠ some .lpar ∧ ∀ x t, (rowText l ++ rest).head? ≠ some (.ident x t) := by
      intro _
      cases l with
      | nil => exact ⟨f3, f4⟩
      | cons m l => simp [rowText]
    have hst : (c.text ++ (rowText l ++ rest)).head? ≠ some .star := by
      match c with
      | .none =>
        cases l with
        | nil => exact f2
        | cons m l => simp [D.text, rowText]
      | .name _ _ => simp [D.text]
      | .paren _ => simp [D.text]
      | .ptr _ => simp [isCore] at hc
      | .arr _ _ => simp [isCore] at hc
      | .fn _ _ => simp [isCore] at hc
    rw [derived_succ, stars_rep n _ hst, head_core env k hD c hc _ s hok.1 hchc.1 henv' htop hl' hhd]
    simp only [R.bind]
    have htail : tailOf k false (rowText l ++ rest) (s ++ .ident c.nm :: pre env c) =
        .ok (rest, s ++ .ident c.nm :: pre env c ++ rowEnt l) := by
      cases l with
      | nil => rw [rowText, List.nil_append, tail_none _ _ _ hf, rowEnt, List.append_nil]
      | cons m l =>
        have hb : badArr (s ++ .ident c.nm :: pre env c) = false := by
          rw [badArr, last_pre]
          simpa using hchc.2 (by simp)
        have := dims_ok (m :: l) ((rowText (m :: l) ++ rest).length + 1) false rest (s ++ .ident c.nm :: pre env c) hok.2 f1 (by
          have := rowText_len (m :: l)
          rw [List.length_append]; omega)
        unfold tailOf
        rw [if_neg (by simp)]
        simp only [rowText, List.cons_append] at this ⊢
        rw [hb, if_neg (by simp)]
        exact this
    rw [htail]
    simp only [R.bind, lastOf]
    rw [if_pos hf, rows_nm, rows_pre]
    simp
  · -- a function
    rw [D.ok] at hok
    rw [chain] at hch
    have ht : (D.fn c q).text ++ rest = c.text ++ (.lpar :: (q.text ++ .rpar :: rest)) := by simp [D.text]
    rw [ht] at henv' hl' ⊢
    have henvq : Env env s (q.text ++ .rpar :: rest) := henv'.mono (by
      intro t h; exact List.mem_append_right _ (List.mem_cons_of_mem _ h))
    have hlq : (q.text ++ .rpar :: rest).length < k := by
      rw [List.length_append, List.length_cons] at hl'; omega
    have hst : (c.text ++ (.lpar :: (q.text ++ .rpar :: rest))).head? ≠ some .star := by
      match c with
      | .none => simp [D.text]
      | .name _ _ => simp [D.text]
      | .paren _ => simp [D.text]
      | .ptr _ => simp [isCore] at hc
      | .arr _ _ => simp [isCore] at hc
      | .fn _ _ => simp [isCore] at hc
    rw [derived_succ, stars_rep n _ hst]
    by_cases hn : c = .none
    · subst hn
      have hh : headOf k (D.none.text ++ (.lpar :: (q.text ++ .rpar :: rest))) s =
          .ok (true, q.text ++ .rpar :: rest, s) := by
        obtain ⟨t, l, h1, h2⟩ := q_head q rest
        rw [h1]
        simp only [D.text, List.nil_append, headOf]
        rw [if_neg]
        rintro ⟨h3, h4⟩
        rcases h2 with h2 | h2
        · exact h3 h2
        · rw [h2] at h4; cases h4
      rw [hh]
      simp only [R.bind]
      have := hQ q rest (s ++ [.ident none] ++ [.lpar]) hok.2.2 (by rw [List.append_assoc]; exact henvq.grow _)
        (by simp [topOk]) hlq
      unfold tailOf
      rw [if_pos rfl, badFn_false s htop, if_neg (by simp), this]
      simp only [R.bind, lastOf, List.tail_cons]
      rw [if_pos hf]
      simp [D.nm, pre]
    · rw [head_core env k hD c hc _ s hok.1 hch.1 henv' htop hl' (fun h => absurd h hn)]
      simp only [R.bind]
      have := hQ q rest (s ++ .ident c.nm :: pre env c ++ [.lpar]) hok.2.2
        (by rw [List.append_assoc]; exact henvq.grow _) (by unfold topOk; rw [List.getLast?_append]; simp) hlq
      unfold tailOf
      rw [if_neg (by simp)]
      dsimp only
      rw [badFn_false _ (by unfold topOk; rw [last_pre]; simpa using hch.2), if_neg (by simp), this]
      simp only [R.bind, lastOf, List.tail_cons]
      rw [if_pos hf]
      simp [D.nm, pre]

/-- one parameter -/
theorem param_ok (env : Nat → Ty) (k : Nat) (hD : PD env k) (b : Sp) (d : D) (rest : List Tok) (s : List Ent)
    (hok : d.ok env false) (hlaw : (d.ty env (b.ty env)).lawful false) (hf : follow rest = true)
    (henv : Env env s (b.text :: d.text ++ rest)) (htop : topOk s) (hl : (d.text ++ rest).length < k) (cnt : Nat)
    (more : List Tok → List Ent → R (List Tok × List Ent)) :
    ((parseBase (b.text :: d.text ++ rest)).bind fun (b, r) =>
      (derived k r s).bind fun (r, s') =>
      (pushBase b s').bind fun s' => afterParam more cnt r (decay (enumToInt s') s.length)) =
    afterParam more cnt rest (s ++ .ident d.nm :: (adjust (d.ty env (b.ty env))).enc) := by
  obtain ⟨hch, hj, _⟩ := (lawful_iff env d _).1 hlaw
  have henvd : Env env s (d.text ++ rest) := henv.mono (by intro t h; exact List.mem_cons_of_mem _ h)
  rw [List.cons_append, parseBase_text]
  simp only [R.bind]
  rw [hD d rest s hok hch hf henvd htop hl]
  simp only
  obtain ⟨s1, h1, h2⟩ := push_ok env b (s ++ .ident d.nm :: pre env d) (lst d) (d.text ++ rest) (henv.grow _) (last_pre env d s) hj
  rw [h1]
  simp only
  rw [h2, List.append_assoc, List.cons_append, pre_enc, decay_eq]

theorem void_false (env : Nat → Ty) (b : Sp) (d : D) (s : List Ent) (cnt : Nat) (last : Bool)
    (hok : d.ok env false) (hlaw : (d.ty env (b.ty env)).lawful false) (rest : List Tok) (henv : EnvD env (b.text :: d.text ++ rest))
    (hv : (d.ty env (b.ty env)).isVoid = false) :
    voidParam (s ++ .ident d.nm :: (adjust (d.ty env (b.ty env))).enc) cnt last = false := by
  have hd := D.ty_deep env d (b.ty env) hok (henv.mono (by intro t h; simp [h]))
    (sp_deep env b d.text (henv.mono (by intro t h; exact List.mem_append_left _ h))) hlaw
  rw [voidParam_eq _ _ _ _ _ (adjust_deep _ hd), adjust_void, hv]; rfl

theorem params_start (k : Nat) (b : Sp) (l : List Tok) (s : List Ent) (cnt : Nat) :
    fxnParams (k + 1) (b.text :: l) s cnt false =
    ((parseBase (b.text :: l)).bind fun (b, r) =>
      (derived k r s).bind fun (r, s') =>
      (pushBase b s').bind fun s' =>
      afterParam (fun ts s => fxnParams k ts s (cnt + 1) false) (cnt + 1) r (decay (enumToInt s') s.length)) := by
  conv => lhs; unfold fxnParams
  cases b <;> rfl

theorem params_end (k : Nat) (r : List Tok) (s : List Ent) (cnt : Nat) (ell : Bool) :
    fxnParams (k + 1) (.rpar :: r) s cnt ell = .ok (.rpar :: r, s) := by
  unfold fxnParams; rfl

theorem params_dots (k : Nat) (r : List Tok) (s : List Ent) (cnt : Nat) (hc : 1 ≤ cnt) :
    fxnParams (k + 1) (.ellipsis :: r) s cnt false =
    afterParam (fun ts s => fxnParams k ts s (cnt + 1) true) (cnt + 1) r (s ++ [.ident none] ++ [.ellipsis]) := by
  conv => lhs; unfold fxnParams
  dsimp only
  rw [if_pos (show starts .ellipsis = false from rfl), if_neg]
  simp; omega

theorem voidParam_dots (s : List Ent) (cnt : Nat) (last : Bool) : voidParam (s ++ [.ident none] ++ [.ellipsis]) cnt last = false := by
  simp [voidParam]

theorem top_enc (s : List Ent) (x : Option Nat) (t : Ty) : topOk (s ++ .ident x :: t.enc) := by
  obtain ⟨b, hb⟩ := last_enc t (s ++ [.ident x])
  rw [List.append_assoc, List.singleton_append] at hb
  simp [topOk, hb]

/-- after the last parameter -/
theorem one_end (k : Nat) (c : Bool) (cnt : Nat) (ell : Bool) (r : List Tok) (s : List Ent) (hv : voidParam s cnt (!c) = false)
    (hk : 1 ≤ k) :
    afterParam (fun ts s => fxnParams k ts s cnt ell) cnt (trail c ++ .rpar :: r) s = .ok (.rpar :: r, s) := by
  obtain ⟨k, rfl⟩ : ∃ j, k = j + 1 := ⟨k - 1, by omega⟩
  cases c with
  | false => rw [trail, if_neg (by simp), List.nil_append, afterParam]; rw [Bool.not_false] at hv; rw [hv]; rfl
  | true =>
    rw [Bool.not_true] at hv
    simp only [trail, if_true, List.singleton_append, afterParam]
    rw [hv]
    exact params_end k r s cnt ell

theorem follow_trail (c : Bool) (r : List Tok) : follow (trail c ++ .rpar :: r) = true := by
  cases c <;> rfl

theorem dots_end (k : Nat) (c : Bool) (cnt : Nat) (r : List Tok) (s : List Ent) (hc : 1 ≤ cnt) (hk : 2 ≤ k)
    (hv : voidParam s cnt false = false) :
    afterParam (fun ts s => fxnParams k ts s cnt false) cnt (.comma :: .ellipsis :: (trail c ++ .rpar :: r)) s =
    .ok (.rpar :: r, s ++ [.ident none, .ellipsis]) := by
  obtain ⟨k, rfl⟩ : ∃ j, k = j + 1 := ⟨k - 1, by omega⟩
  simp only [afterParam, hv, Bool.false_eq_true, if_false]
  rw [params_dots k _ _ _ hc, one_end k c (cnt + 1) true r _ (voidParam_dots _ _ _) (by omega)]
  simp

theorem params'_step (env : Nat → Ty) (k : Nat) (hD : PD env k) (hQ : PQ' env k) : PQ' env (k + 1) := by
  intro q r s cnt hcnt hok henv htop hl
  match q with
  | .empty => rw [Q.ok'] at hok; exact hok.elim
  | .one b d c =>
    rw [Q.ok'] at hok
    rw [Q.text, List.append_assoc] at henv hl ⊢
    have hl' : (d.text ++ (trail c ++ .rpar :: r)).length < k := by
      simp only [List.length_append, List.length_cons] at hl ⊢; omega
    rw [List.cons_append, params_start, ← List.cons_append, param_ok env k hD b d _ s hok.1 hok.2.1 (follow_trail c r) henv htop hl',
      one_end k c _ false r _ (void_false env b d s _ _ hok.1 hok.2.1 _ henv.toD hok.2.2.1) (by omega)]
    simp [Q.ps', Ps.enc']
  | .dots b d c =>
    rw [Q.ok'] at hok
    rw [Q.text, List.append_assoc, List.append_assoc] at henv hl ⊢
    have hl' : (d.text ++ ([Tok.comma, .ellipsis] ++ (trail c ++ .rpar :: r))).length < k := by
      simp only [List.length_append, List.length_cons] at hl ⊢; omega
    rw [List.cons_append, params_start, ← List.cons_append, param_ok env k hD b d _ s hok.1 hok.2.1 rfl henv htop hl']
    rw [List.cons_append, List.cons_append, List.nil_append,
      dots_end k c _ r _ (by omega) (by simp only [List.length_append, List.length_cons] at hl'; omega) (void_false env b d s _ _ hok.1 hok.2.1 _ henv.toD hok.2.2.1)]
    simp [Q.ps', Ps.enc']
  | .more b d q =>
    rw [Q.ok'] at hok
    rw [Q.text, List.append_assoc, List.append_assoc] at henv hl ⊢
    have hl' : (d.text ++ ([Tok.comma] ++ (q.text ++ .rpar :: r))).length < k := by
      simp only [List.length_append, List.length_cons] at hl ⊢; omega
    rw [List.cons_append, params_start, ← List.cons_append, param_ok env k hD b d _ s hok.1 hok.2.1 rfl henv htop hl',
      List.singleton_append]
    simp only [afterParam]
    rw [void_false env b d s _ _ hok.1 hok.2.1 _ henv.toD hok.2.2.1, if_neg (by simp),
      hQ q r _ (cnt + 1) (by omega) hok.2.2.2 ((henv.mono (by intro t h; simp at h ⊢; right; right; right; exact h)).grow _) (top_enc _ _ _) (by
        simp only [List.length_append, List.length_cons] at hl' ⊢; omega)]
    simp [Q.ps', Ps.enc']

theorem params_step (env : Nat → Ty) (k : Nat) (hD : PD env k) (hQ : PQ' env k) : PQ env (k + 1) := by
  intro q r s hok henv htop hl
  match q with
  | .empty =>
    rw [Q.text, List.nil_append, params_end, Q.ps, Ps.enc, List.append_nil]
  | .one b d c =>
    rw [Q.ok] at hok
    rw [Q.text, List.append_assoc] at henv hl ⊢
    have hl' : (d.text ++ (trail c ++ .rpar :: r)).length < k := by
      simp only [List.length_append, List.length_cons] at hl ⊢; omega
    rw [List.cons_append, params_start, ← List.cons_append, param_ok env k hD b d _ s hok.1 hok.2.1 (follow_trail c r) henv htop hl']
    have hdeep := D.ty_deep env d (b.ty env) hok.1 (henv.toD.mono (by intro t h; simp [h]))
      (sp_deep env b d.text (henv.toD.mono (by intro t h; exact List.mem_append_left _ h))) hok.2.1
    rw [one_end k c _ false r _ ?_ (by omega)]
    · rw [Q.ps_one]
      split
      · rename_i h
        rw [void_enc _ h.2, h.1]
        simp [adjust, Ty.enc, Ps.enc]
      · simp [Ps.enc, Ps.enc']
    · rw [voidParam_eq _ _ _ _ _ (adjust_deep _ hdeep), adjust_void]
      cases hv : (d.ty env (b.ty env)).isVoid with
      | false => rfl
      | true =>
        obtain ⟨h1, h2⟩ := hok.2.2.1 hv
        rw [h1, h2]; rfl
  | .dots b d c =>
    rw [Q.ok] at hok
    rw [Q.text, List.append_assoc, List.append_assoc] at henv hl ⊢
    have hl' : (d.text ++ ([Tok.comma, .ellipsis] ++ (trail c ++ .rpar :: r))).length < k := by
      simp only [List.length_append, List.length_cons] at hl ⊢; omega
    rw [List.cons_append, params_start, ← List.cons_append, param_ok env k hD b d _ s hok.1 hok.2.1 rfl henv htop hl']
    rw [List.cons_append, List.cons_append, List.nil_append,
      dots_end k c _ r _ (by omega) (by simp only [List.length_append, List.length_cons] at hl'; omega) (void_false env b d s _ _ hok.1 hok.2.1 _ henv.toD hok.2.2.1)]
    simp [Q.ps, Ps.enc, Ps.enc']
  | .more b d q =>
    rw [Q.ok] at hok
    rw [Q.text, List.append_assoc, List.append_assoc] at henv hl ⊢
    have hl' : (d.text ++ ([Tok.comma] ++ (q.text ++ .rpar :: r))).length < k := by
      simp only [List.length_append, List.length_cons] at hl ⊢; omega
    rw [List.cons_append, params_start, ← List.cons_append, param_ok env k hD b d _ s hok.1 hok.2.1 rfl henv htop hl',
      List.singleton_append]
    simp only [afterParam]
    rw [void_false env b d s _ _ hok.1 hok.2.1 _ henv.toD hok.2.2.1, if_neg (by simp),
      hQ q r _ 1 (by omega) hok.2.2.2 ((henv.mono (by intro t h; simp at h ⊢; right; right; right; exact h)).grow _) (top_enc _ _ _) (by
        simp only [List.length_append, List.length_cons] at hl' ⊢; omega)]
    simp [Q.ps, Ps.enc]

theorem all_ok (env : Nat → Ty) : ∀ k, PD env k ∧ PQ env k ∧ PQ' env k
  | 0 => ⟨fun _ _ _ _ _ _ _ _ h => absurd h (by omega), fun _ _ _ _ _ _ h => absurd h (by omega),
      fun _ _ _ _ _ _ _ _ h => absurd h (by omega)⟩
  | k + 1 => by
    obtain ⟨h1, h2, h3⟩ := all_ok env k
    exact ⟨derived_step env k h1 h2, params_step env k h1 h3, params'_step env k h1 h3⟩

theorem declare_ok (env : Nat → Ty) (b : Sp) (d : D) (rest : List Tok) (s : List Ent) (k : Nat)
    (hok : d.ok env false) (hlaw : (d.ty env (b.ty env)).lawful false) (hf : follow rest = true)
    (henv : Env env s (b.text :: d.text ++ rest)) (htop : topOk s) (hl : (d.text ++ rest).length < k) :
    declare k (Sp.base b) (d.text ++ rest) s = .ok (rest, s ++ .ident d.nm :: (d.ty env (b.ty env)).enc) := by
  obtain ⟨hch, hj, _⟩ := (lawful_iff env d _).1 hlaw
  have henvd : Env env s (d.text ++ rest) := henv.mono (by intro t h; exact List.mem_cons_of_mem _ h)
  rw [declare, (all_ok env k).1 d rest s hok hch hf henvd htop hl]
  simp only [R.bind]
  obtain ⟨s1, h1, h2⟩ := push_ok env b (s ++ .ident d.nm :: pre env d) (lst d) (d.text ++ rest) (henv.grow _) (last_pre env d s) hj
  rw [h1]
  simp only
  rw [h2, List.append_assoc, List.cons_append, pre_enc]

end Smlr.Declr
