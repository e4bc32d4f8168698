import Verif.Declr.Spec

set_option autoImplicit false
/-
Facts about types and their entries.
-/
namespace Smlr.Declr
open Spec

/-- the entries of a declarator after the name -/
def pre (env : Nat → Ty) : D → List Ent
  | .none => []
  | .name _ _ => []
  | .paren d => pre env d
  | .ptr d => pre env d ++ [.star]
  | .arr d n => pre env d ++ [.lbrk, .num (n.getD 0), .rbrk]
  | .fn d q => pre env d ++ (.lpar :: (q.ps env).enc ++ [.rpar])

theorem pre_enc (env : Nat → Ty) : ∀ (d : D) (t : Ty), pre env d ++ t.enc = (d.ty env t).enc
  | .none, t => by simp [pre, D.ty]
  | .name _ _, t => by simp [pre, D.ty]
  | .paren d, t => by rw [pre, D.ty, pre_enc env d t]
  | .ptr d, t => by rw [pre, D.ty, ← pre_enc env d (.ptr t), Ty.enc]; simp
  | .arr d n, t => by rw [pre, D.ty, ← pre_enc env d (.arr (n.getD 0) t), Ty.enc]; simp
  | .fn d q, t => by rw [pre, D.ty, ← pre_enc env d (.fn (q.ps env) t), Ty.enc]; simp

/-- the last entry of a declarator -/
def lst : D → Ent
  | .none => .ident none
  | .name x _ => .ident (some x)
  | .paren d => lst d
  | .ptr _ => .star
  | .arr _ _ => .rbrk
  | .fn _ _ => .rpar

theorem last_pre (env : Nat → Ty) : ∀ (d : D) (s : List Ent), (s ++ .ident d.nm :: pre env d).getLast? = some (lst d)
  | .none, s => by simp [pre, lst, D.nm]
  | .name _ _, s => by simp [pre, lst, D.nm]
  | .paren d, s => by rw [pre, lst, D.nm]; exact last_pre env d s
  | .ptr d, s => by
    show (s ++ Ent.ident d.nm :: (pre env d ++ [.star])).getLast? = _
    rw [← List.cons_append, ← List.append_assoc, List.getLast?_append]; rfl
  | .arr d n, s => by
    show (s ++ Ent.ident d.nm :: (pre env d ++ [.lbrk, .num (n.getD 0), .rbrk])).getLast? = _
    rw [← List.cons_append, ← List.append_assoc, List.getLast?_append]; rfl
  | .fn d q, s => by
    show (s ++ Ent.ident d.nm :: (pre env d ++ (.lpar :: (q.ps env).enc ++ [.rpar]))).getLast? = _
    rw [← List.cons_append, ← List.append_assoc, ← List.append_assoc, List.getLast?_append]; rfl

/-- no functions returning functions or arrays and no arrays of functions inside of a declarator -/
def chain : D → Prop
  | .none => True
  | .name _ _ => True
  | .paren d => chain d
  | .ptr d => chain d
  | .arr d _ => chain d ∧ lst d ≠ .rpar
  | .fn d _ => chain d ∧ lst d ≠ .rpar ∧ lst d ≠ .rbrk

/-- what a type can follow -/
def junc (e : Ent) (t : Ty) : Prop :=
  (e = .rpar → t.isFn = false ∧ t.isArr = false) ∧ (e = .rbrk → t.isFn = false ∧ t.isVoid = false)

theorem lawful_iff (env : Nat → Ty) : ∀ (d : D) (t : Ty),
    (d.ty env t).lawful false ↔ chain d ∧ junc (lst d) t ∧ t.lawful false
  | .none, t => by simp [D.ty, chain, junc, lst]
  | .name _ _, t => by simp [D.ty, chain, junc, lst]
  | .paren d, t => by rw [D.ty, chain, lst]; exact lawful_iff env d t
  | .ptr d, t => by
    rw [D.ty, lawful_iff env d (.ptr t), chain, lst]
    simp [junc, Ty.lawful, Ty.isFn, Ty.isArr, Ty.isVoid]
  | .arr d n, t => by
    rw [D.ty, lawful_iff env d (.arr (n.getD 0) t), chain, lst]
    unfold junc
    rw [Ty.lawful]
    constructor
    · rintro ⟨h1, h2, h3, h4, h5, _⟩
      exact ⟨⟨h1, fun e => by simpa [Ty.isArr] using (h2.1 e).2⟩, ⟨by simp, fun _ => ⟨h4, h5⟩⟩, h3⟩
    · rintro ⟨⟨h1, h2⟩, h3, h4⟩
      exact ⟨h1, ⟨fun e => absurd e h2, by simp [Ty.isFn, Ty.isVoid]⟩, h4, (h3.2 rfl).1, (h3.2 rfl).2, by simp⟩
  | .fn d q, t => by
    rw [D.ty, lawful_iff env d (.fn (q.ps env) t), chain, lst]
    unfold junc
    rw [Ty.lawful]
    constructor
    · rintro ⟨h1, h2, h3, h4, h5⟩
      exact ⟨⟨h1, fun e => by simpa [Ty.isFn] using (h2.1 e).1, fun e => by simpa [Ty.isFn] using (h2.2 e).1⟩, ⟨fun _ => ⟨h4, h5⟩, by simp⟩, h3⟩
    · rintro ⟨⟨h1, h2, h2'⟩, h3, h4⟩
      exact ⟨h1, ⟨fun e => absurd e h2, fun e => absurd e h2'⟩, h4, (h3.1 rfl).1, (h3.1 rfl).2⟩

theorem deep_lawful : ∀ (t : Ty), t.deep → t.lawful false
  | .base _, _ => trivial
  | .ptr t, h => by rw [Ty.lawful]; rw [Ty.deep] at h; exact deep_lawful t h
  | .arr n t, h => by
    rw [Ty.lawful]; rw [Ty.deep] at h
    exact ⟨deep_lawful t h.1, h.2.1, h.2.2, by simp⟩
  | .fn ps t, h => by
    rw [Ty.lawful]; rw [Ty.deep] at h
    exact ⟨deep_lawful t h.1, h.2.1, h.2.2.1⟩

theorem strict_lawful : ∀ (t : Ty), t.lawful true → t.lawful false
  | .base _, _ => trivial
  | .ptr t, h => by rw [Ty.lawful] at h ⊢; exact strict_lawful t h
  | .arr n t, h => by
    rw [Ty.lawful] at h ⊢
    exact ⟨strict_lawful t h.1, h.2.1, h.2.2.1, by simp⟩
  | .fn ps t, h => by
    rw [Ty.lawful] at h ⊢
    exact ⟨strict_lawful t h.1, h.2⟩

mutual
theorem D.strict_ok (env : Nat → Ty) : ∀ (d : D), d.ok env true → d.ok env false
  | .none, _ => trivial
  | .name _ _, _ => trivial
  | .paren d, h => by rw [D.ok] at h ⊢; exact ⟨D.strict_ok env d h.1, h.2⟩
  | .ptr d, h => by rw [D.ok] at h ⊢; exact D.strict_ok env d h
  | .arr d _, h => by rw [D.ok] at h ⊢; exact ⟨D.strict_ok env d h.1, h.2⟩
  | .fn d q, h => by rw [D.ok] at h ⊢; exact ⟨D.strict_ok env d h.1, h.2.1, Q.strict_ok env q h.2.2⟩
theorem Q.strict_ok (env : Nat → Ty) : ∀ (q : Q), q.ok env true → q.ok env false
  | .empty, _ => trivial
  | .one b d c, h => by
    rw [Q.ok] at h ⊢
    exact ⟨D.strict_ok env d h.1, strict_lawful _ h.2.1, h.2.2.1, by simp⟩
  | .dots b d c, h => by
    rw [Q.ok] at h ⊢
    exact ⟨D.strict_ok env d h.1, strict_lawful _ h.2.1, h.2.2.1, by simp⟩
  | .more b d q, h => by
    rw [Q.ok] at h ⊢
    exact ⟨D.strict_ok env d h.1, strict_lawful _ h.2.1, h.2.2.1, Q.strict_ok' env q h.2.2.2⟩
theorem Q.strict_ok' (env : Nat → Ty) : ∀ (q : Q), q.ok' env true → q.ok' env false
  | .empty, h => by rw [Q.ok'] at h; exact h.elim
  | .one b d c, h => by
    rw [Q.ok'] at h ⊢
    exact ⟨D.strict_ok env d h.1, strict_lawful _ h.2.1, h.2.2.1, by simp⟩
  | .dots b d c, h => by
    rw [Q.ok'] at h ⊢
    exact ⟨D.strict_ok env d h.1, strict_lawful _ h.2.1, h.2.2.1, by simp⟩
  | .more b d q, h => by
    rw [Q.ok'] at h ⊢
    exact ⟨D.strict_ok env d h.1, strict_lawful _ h.2.1, h.2.2.1, Q.strict_ok' env q h.2.2.2⟩
end

theorem adjust_void (t : Ty) : (adjust t).isVoid = t.isVoid := by
  cases t <;> rfl

theorem adjust_deep (t : Ty) (h : t.deep) : (adjust t).deep := by
  cases t with
  | base b => exact h
  | ptr t => exact h
  | arr n t => rw [Ty.deep] at h; rw [adjust, Ty.deep]; exact h.1
  | fn ps t => rw [adjust, Ty.deep]; exact h

/-- the typedefs in a list of tokens have proper types -/
def EnvD (env : Nat → Ty) (ts : List Tok) : Prop := ∀ x p, Tok.ident x (some p) ∈ ts → (env p).deep

theorem EnvD.mono {env : Nat → Ty} {ts ts' : List Tok} (h : EnvD env ts) (hs : ∀ t, t ∈ ts' → t ∈ ts) : EnvD env ts' :=
  fun x p hm => h x p (hs _ hm)

theorem sp_deep (env : Nat → Ty) (b : Sp) (ts : List Tok) (h : EnvD env (b.text :: ts)) : (b.ty env).deep := by
  match b with
  | .kw .enum => show B.plain 0 ≠ B.enum; simp
  | .kw .void => show B.void ≠ B.enum; simp
  | .kw (.plain n) => show B.plain n ≠ B.enum; simp
  | .td x p => exact h x p (by simp [Sp.text])

theorem Q.ps_one (env : Nat → Ty) (b : Sp) (d : D) (c : Bool) :
    (Q.one b d c).ps env = if d.nm = none ∧ (d.ty env (b.ty env)).isVoid = true then .nil
      else .cons d.nm (adjust (d.ty env (b.ty env))) .nil := by
  rw [Q.ps]
  generalize d.nm = x
  generalize d.ty env (b.ty env) = t
  cases x with
  | none =>
    match t with
    | .base .void => rfl
    | .base .enum => rfl
    | .base (.plain _) => rfl
    | .ptr _ => rfl
    | .arr _ _ => rfl
    | .fn _ _ => rfl
  | some x => simp

mutual
theorem D.ty_deep (env : Nat → Ty) : ∀ (d : D) (t : Ty), d.ok env false → EnvD env d.text → t.deep →
    (d.ty env t).lawful false → (d.ty env t).deep
  | .none, t, _, _, h, _ => h
  | .name _ _, t, _, _, h, _ => h
  | .paren d, t, h1, h2, h3, h4 => by
    rw [D.ok] at h1; rw [D.ty] at h4 ⊢
    exact D.ty_deep env d t h1.1 (h2.mono (by intro t h; simp [D.text, h])) h3 h4
  | .ptr d, t, h1, h2, h3, h4 => by
    rw [D.ok] at h1; rw [D.ty] at h4 ⊢
    exact D.ty_deep env d _ h1 (h2.mono (by intro t h; simp [D.text, h])) (by rw [Ty.deep]; exact h3) h4
  | .arr d n, t, h1, h2, h3, h4 => by
    rw [D.ok] at h1; rw [D.ty] at h4 ⊢
    have h5 := ((lawful_iff env d _).1 h4).2.2
    rw [Ty.lawful] at h5
    exact D.ty_deep env d _ h1.1 (h2.mono (by intro t h; simp [D.text, h]))
      (by rw [Ty.deep]; exact ⟨h3, h5.2.1, h5.2.2.1⟩) h4
  | .fn d q, t, h1, h2, h3, h4 => by
    rw [D.ok] at h1; rw [D.ty] at h4 ⊢
    have h5 := ((lawful_iff env d _).1 h4).2.2
    rw [Ty.lawful] at h5
    exact D.ty_deep env d _ h1.1 (h2.mono (by intro t h; simp [D.text, h]))
      (by rw [Ty.deep]; exact ⟨h3, h5.2.1, h5.2.2, Q.ps_deep env q h1.2.2 (h2.mono (by intro t h; simp [D.text, h]))⟩) h4
theorem Q.ps_deep (env : Nat → Ty) : ∀ (q : Q), q.ok env false → EnvD env q.text → (q.ps env).deep
  | .empty, _, _ => trivial
  | .one b d c, h1, h2 => by
    rw [Q.ok] at h1
    have hd := D.ty_deep env d (b.ty env) h1.1 (h2.mono (by intro t h; simp [Q.text, h]))
      (sp_deep env b d.text (h2.mono (by intro t h; simp only [Q.text]; simp only [List.mem_cons, List.mem_append, List.cons_append] at h ⊢; rcases h with h | h <;> simp [h]))) h1.2.1
    rw [Q.ps_one]
    split
    · trivial
    · rename_i hn
      refine ⟨adjust_deep _ hd, ?_, trivial⟩
      rw [adjust_void]
      cases hv : (d.ty env (b.ty env)).isVoid with
      | false => rfl
      | true => exact absurd ⟨(h1.2.2.1 hv).1, hv⟩ hn
  | .dots b d c, h1, h2 => by
    rw [Q.ok] at h1
    have hd := D.ty_deep env d (b.ty env) h1.1 (h2.mono (by intro t h; simp [Q.text, h]))
      (sp_deep env b d.text (h2.mono (by intro t h; simp only [Q.text]; simp only [List.mem_cons, List.mem_append, List.cons_append] at h ⊢; rcases h with h | h <;> simp [h]))) h1.2.1
    exact ⟨adjust_deep _ hd, (adjust_void _).trans h1.2.2.1, trivial⟩
  | .more b d q, h1, h2 => by
    rw [Q.ok] at h1
    have hd := D.ty_deep env d (b.ty env) h1.1 (h2.mono (by intro t h; simp [Q.text, h]))
      (sp_deep env b d.text (h2.mono (by intro t h; simp only [Q.text]; simp only [List.mem_cons, List.mem_append, List.cons_append] at h ⊢; rcases h with h | h <;> simp [h]))) h1.2.1
    exact ⟨adjust_deep _ hd, (adjust_void _).trans h1.2.2.1,
      Q.ps_deep' env q h1.2.2.2 (h2.mono (by intro t h; simp [Q.text, h]))⟩
theorem Q.ps_deep' (env : Nat → Ty) : ∀ (q : Q), q.ok' env false → EnvD env q.text → (q.ps' env).deep'
  | .empty, h, _ => by rw [Q.ok'] at h; exact h.elim
  | .one b d c, h1, h2 => by
    rw [Q.ok'] at h1
    have hd := D.ty_deep env d (b.ty env) h1.1 (h2.mono (by intro t h; simp [Q.text, h]))
      (sp_deep env b d.text (h2.mono (by intro t h; simp only [Q.text]; simp only [List.mem_cons, List.mem_append, List.cons_append] at h ⊢; rcases h with h | h <;> simp [h]))) h1.2.1
    exact ⟨adjust_deep _ hd, (adjust_void _).trans h1.2.2.1, trivial⟩
  | .dots b d c, h1, h2 => by
    rw [Q.ok'] at h1
    have hd := D.ty_deep env d (b.ty env) h1.1 (h2.mono (by intro t h; simp [Q.text, h]))
      (sp_deep env b d.text (h2.mono (by intro t h; simp only [Q.text]; simp only [List.mem_cons, List.mem_append, List.cons_append] at h ⊢; rcases h with h | h <;> simp [h]))) h1.2.1
    exact ⟨adjust_deep _ hd, (adjust_void _).trans h1.2.2.1, trivial⟩
  | .more b d q, h1, h2 => by
    rw [Q.ok'] at h1
    have hd := D.ty_deep env d (b.ty env) h1.1 (h2.mono (by intro t h; simp [Q.text, h]))
      (sp_deep env b d.text (h2.mono (by intro t h; simp only [Q.text]; simp only [List.mem_cons, List.mem_append, List.cons_append] at h ⊢; rcases h with h | h <;> simp [h]))) h1.2.1
    exact ⟨adjust_deep _ hd, (adjust_void _).trans h1.2.2.1,
      Q.ps_deep' env q h1.2.2.2 (h2.mono (by intro t h; simp [Q.text, h]))⟩
end

/-! ### the end of the entries of a type -/

theorem void_enc (t : Ty) (h : t.isVoid = true) : t = .base .void := by
  match t with
  | .base .void => rfl
  | .base .enum => simp [Ty.isVoid] at h
  | .base (.plain _) => simp [Ty.isVoid] at h
  | .ptr _ => simp [Ty.isVoid] at h
  | .arr _ _ => simp [Ty.isVoid] at h
  | .fn _ _ => simp [Ty.isVoid] at h

theorem tail2 : ∀ (t : Ty) (s : List Ent), t.deep → t.isVoid = false →
    (s ++ t.enc).getLast? ≠ some (.base .void) ∨
    (s ++ t.enc).dropLast.getLast? = some .star ∨ (s ++ t.enc).dropLast.getLast? = some .rpar
  | .base b, s, _, hv => by
    left
    rw [Ty.enc, List.getLast?_append]
    simp only [List.getLast?_singleton, Option.some_or, ne_eq, Option.some.injEq, Ent.base.injEq]
    intro h; subst h; simp [Ty.isVoid] at hv
  | .ptr t, s, hd, _ => by
    rw [Ty.deep] at hd
    rw [Ty.enc, show s ++ Ent.star :: t.enc = (s ++ [.star]) ++ t.enc by simp]
    cases hv : t.isVoid with
    | true =>
      rw [void_enc t hv, Ty.enc, List.dropLast_concat]
      right; left; simp
    | false => exact tail2 t _ hd hv
  | .arr n t, s, hd, _ => by
    rw [Ty.deep] at hd
    rw [Ty.enc, show s ++ Ent.lbrk :: Ent.num n :: Ent.rbrk :: t.enc = (s ++ [.lbrk, .num n, .rbrk]) ++ t.enc by simp]
    exact tail2 t _ hd.1 hd.2.2
  | .fn ps t, s, hd, _ => by
    rw [Ty.deep] at hd
    rw [Ty.enc, show s ++ (Ent.lpar :: ps.enc ++ Ent.rpar :: t.enc) = (s ++ (.lpar :: ps.enc ++ [.rpar])) ++ t.enc by simp]
    cases hv : t.isVoid with
    | true =>
      rw [void_enc t hv, Ty.enc, List.dropLast_concat]
      right; right
      rw [← List.append_assoc, List.getLast?_append]; rfl
    | false => exact tail2 t _ hd.1 hv

theorem voidElems_eq (t : Ty) (s : List Ent) (h : t.deep) :
    voidElems (s ++ t.enc) = (t.isVoid && s.getLast? = some .rbrk) := by
  cases hv : t.isVoid with
  | true =>
    rw [void_enc t hv, Ty.enc, voidElems, List.dropLast_concat]
    simp
  | false =>
    rw [voidElems, Bool.false_and]
    rcases tail2 t s h hv with h | h | h
    · rw [decide_eq_false h, Bool.false_and]
    · rw [h]; simp
    · rw [h]; simp

theorem voidParam_eq (t : Ty) (s : List Ent) (x : Option Nat) (cnt : Nat) (last : Bool) (h : t.deep) :
    voidParam (s ++ .ident x :: t.enc) cnt last = (t.isVoid && !(decide (x = none) && decide (cnt = 1) && last)) := by
  rw [show s ++ Ent.ident x :: t.enc = (s ++ [.ident x]) ++ t.enc by simp]
  cases hv : t.isVoid with
  | true =>
    rw [void_enc t hv, Ty.enc, voidParam, List.dropLast_concat]
    simp
  | false =>
    rw [voidParam, Bool.false_and]
    rcases tail2 t (s ++ [.ident x]) h hv with h | h | h
    · rw [decide_eq_false h, Bool.false_and]
    · rw [h, Bool.and_false]
    · rw [h, Bool.and_false]

/-- the entries of a type end with a base type -/
theorem last_enc : ∀ (t : Ty) (s : List Ent), ∃ b, (s ++ t.enc).getLast? = some (.base b)
  | .base b, s => ⟨b, by simp [Ty.enc]⟩
  | .ptr t, s => by
    rw [Ty.enc, show s ++ Ent.star :: t.enc = (s ++ [.star]) ++ t.enc by simp]; exact last_enc t _
  | .arr n t, s => by
    rw [Ty.enc, show s ++ Ent.lbrk :: Ent.num n :: Ent.rbrk :: t.enc = (s ++ [.lbrk, .num n, .rbrk]) ++ t.enc by simp]
    exact last_enc t _
  | .fn ps t, s => by
    rw [Ty.enc, show s ++ (Ent.lpar :: ps.enc ++ Ent.rpar :: t.enc) = (s ++ (.lpar :: ps.enc ++ [.rpar])) ++ t.enc by simp]
    exact last_enc t _

theorem last_deep : ∀ (t : Ty) (s : List Ent), t.deep → (s ++ t.enc).getLast? ≠ some (.base .enum)
  | .base b, s, h => by
    rw [Ty.deep] at h
    simp [Ty.enc, h]
  | .ptr t, s, h => by
    rw [Ty.deep] at h
    rw [Ty.enc, show s ++ Ent.star :: t.enc = (s ++ [.star]) ++ t.enc by simp]; exact last_deep t _ h
  | .arr n t, s, h => by
    rw [Ty.deep] at h
    rw [Ty.enc, show s ++ Ent.lbrk :: Ent.num n :: Ent.rbrk :: t.enc = (s ++ [.lbrk, .num n, .rbrk]) ++ t.enc by simp]
    exact last_deep t _ h.1
  | .fn ps t, s, h => by
    rw [Ty.deep] at h
    rw [Ty.enc, show s ++ (Ent.lpar :: ps.enc ++ Ent.rpar :: t.enc) = (s ++ (.lpar :: ps.enc ++ [.rpar])) ++ t.enc by simp]
    exact last_deep t _ h.1

/-! ### the adjustment of parameters -/

theorem decay_eq (s : List Ent) (x : Option Nat) (t : Ty) :
    decay (s ++ .ident x :: t.enc) s.length = s ++ .ident x :: (adjust t).enc := by
  have key : ∀ (l : List Ent), (s ++ Ent.ident x :: l)[s.length + 1]? = l[0]? := by
    intro l
    rw [List.getElem?_append_right (by omega)]
    simp
  have tk : ∀ (l : List Ent), (s ++ Ent.ident x :: l).take (s.length + 1) = s ++ [.ident x] := by
    intro l
    rw [show s ++ Ent.ident x :: l = (s ++ [.ident x]) ++ l by simp, List.take_left' (by simp)]
  have dr : ∀ (l : List Ent) (n : Nat), (s ++ Ent.ident x :: l).drop (s.length + 1 + n) = l.drop n := by
    intro l n
    rw [show s ++ Ent.ident x :: l = (s ++ [.ident x]) ++ l by simp, ← List.drop_drop, List.drop_left' (by simp)]
  have del : ∀ (e : Ent) (l : List Ent), deleteAt (s ++ Ent.ident x :: e :: l) (s.length + 1) = s ++ .ident x :: l := by
    intro e l
    rw [deleteAt, tk, dr]; simp
  unfold decay
  rw [key]
  cases t with
  | base b => simp [Ty.enc, adjust]
  | ptr t => simp [Ty.enc, adjust]
  | arr n t =>
    simp only [Ty.enc, adjust, List.getElem?_cons_zero]
    rw [del, key]
    simp only [List.getElem?_cons_zero]
    rw [del]
    rw [List.set_append_right _ _ (by omega)]
    simp
  | fn ps t =>
    simp only [Ty.enc, adjust, List.getElem?_cons_zero, List.cons_append]
    rw [insertAt, tk, show s.length + 1 = s.length + 1 + 0 by omega, dr]; simp

end Smlr.Declr
