import Verif.Declr.Types

set_option autoImplicit false
/-
`PushBase` and the rows of dimensions.
-/
namespace Smlr.Declr
open Spec

def badPair (s : List Ent) (e : Ent) : Prop :=
  ((s.getLast? = some .rpar ∨ s.getLast? = some .rbrk) ∧ e = .lpar) ∨ (s.getLast? = some .rpar ∧ e = .lbrk)

theorem copy_step (e : Ent) (l : List Ent) (c : Int) (s : List Ent) (h : ¬ badPair s e) (hb : ∀ b, e ≠ .base b) :
    copy (e :: l) c s = copy l (c + delta e) (s ++ [e]) := by
  rw [copy]
  dsimp only
  unfold badPair at h
  rw [if_neg h]
  cases e with
  | base b => exact absurd rfl (hb b)
  | _ => rfl

theorem copy_base (b : B) (l : List Ent) (c : Int) (s : List Ent) (hb : b ≠ .enum) :
    copy (.base b :: l) c s = if c = 0 then .ok (s ++ [.base b]) else copy l c (s ++ [.base b]) := by
  rw [copy]
  dsimp only
  rw [if_neg (by simp)]
  have hc : c + delta (.base b) = c := by simp [delta]
  rw [hc]
  cases b with
  | enum => exact absurd rfl hb
  | _ => rfl

def Jn (o : Option Ent) (t : Ty) : Prop :=
  (o = some .rpar → t.isFn = false ∧ t.isArr = false) ∧ (o = some .rbrk → t.isFn = false)

theorem Jn.of (o : Option Ent) (t : Ty) (h1 : o ≠ some .rpar) (h2 : o ≠ some .rbrk) : Jn o t :=
  ⟨fun h => absurd h h1, fun h => absurd h h2⟩

mutual
theorem copy_ty : ∀ (t : Ty) (rest : List Ent) (c : Int) (s : List Ent), t.deep → 0 ≤ c → Jn s.getLast? t →
    copy (t.enc ++ rest) c s = if c = 0 then .ok (s ++ t.enc) else copy rest c (s ++ t.enc)
  | .base b, rest, c, s, hd, _, _ => by
    rw [Ty.deep] at hd
    rw [Ty.enc, List.singleton_append, copy_base b _ _ _ hd]
  | .ptr t, rest, c, s, hd, hc, _ => by
    rw [Ty.deep] at hd
    rw [Ty.enc, List.cons_append, copy_step _ _ _ _ (by simp [badPair]) (by simp),
      copy_ty t rest _ _ hd (by simpa [delta] using hc) (Jn.of _ _ (by simp) (by simp))]
    simp [delta]
  | .arr n t, rest, c, s, hd, hc, hj => by
    rw [Ty.deep] at hd
    have hr : s.getLast? ≠ some .rpar := fun h => by have := (hj.1 h).2; simp [Ty.isArr] at this
    rw [Ty.enc, List.cons_append, List.cons_append, List.cons_append,
      copy_step _ _ _ _ (by simp [badPair, hr]) (by simp),
      copy_step _ _ _ _ (by simp [badPair]) (by simp),
      copy_step _ _ _ _ (by simp [badPair]) (by simp),
      copy_ty t rest _ _ hd.1 (by simp [delta]; omega) (by simp [Jn, hd.2.1])]
    have : c + delta .lbrk + delta (.num n) + delta .rbrk = c := by simp only [delta]; omega
    rw [this]
    simp
  | .fn ps t, rest, c, s, hd, hc, hj => by
    rw [Ty.deep] at hd
    have hr : s.getLast? ≠ some .rpar := fun h => by have := (hj.1 h).1; simp [Ty.isFn] at this
    have hr' : s.getLast? ≠ some .rbrk := fun h => by have := hj.2 h; simp [Ty.isFn] at this
    rw [Ty.enc, List.append_assoc, List.cons_append,
      copy_step _ _ _ _ (by simp [badPair, hr, hr']) (by simp),
      copy_ps ps _ _ _ hd.2.2.2 (by simp [delta]; omega), List.cons_append,
      copy_step _ _ _ _ (by simp [badPair]) (by simp),
      copy_ty t rest _ _ hd.1 (by simp [delta]; omega) (by simp [Jn, hd.2.1, hd.2.2.1])]
    have : c + delta .lpar + delta .rpar = c := by simp only [delta]; omega
    rw [this]
    simp
theorem copy_ps : ∀ (ps : Ps) (rest : List Ent) (c : Int) (s : List Ent), ps.deep → 1 ≤ c →
    copy (ps.enc ++ rest) c s = copy rest c (s ++ ps.enc)
  | .unknown, rest, c, s, _, _ => by simp [Ps.enc]
  | .nil, rest, c, s, _, hc => by
    rw [Ps.enc, List.cons_append, copy_step _ _ _ _ (by simp [badPair]) (by simp), List.cons_append,
      copy_base _ _ _ _ (by simp), if_neg (by simp [delta]; omega)]
    simp [delta]
  | .dots, _, _, _, h, _ => by rw [Ps.deep] at h; exact h.elim
  | .cons x t ps, rest, c, s, h, hc => by
    rw [Ps.deep] at h
    rw [Ps.enc, List.cons_append, List.cons_append, copy_step _ _ _ _ (by simp [badPair]) (by simp),
      List.append_assoc, copy_ty t _ _ _ h.1 (by simp [delta]; omega) (Jn.of _ _ (by simp) (by simp)),
      if_neg (by simp [delta]; omega), copy_ps' ps _ _ _ h.2.2 (by simp [delta]; omega)]
    simp [delta]
theorem copy_ps' : ∀ (ps : Ps) (rest : List Ent) (c : Int) (s : List Ent), ps.deep' → 1 ≤ c →
    copy (ps.enc' ++ rest) c s = copy rest c (s ++ ps.enc')
  | .unknown, _, _, _, h, _ => by rw [Ps.deep'] at h; exact h.elim
  | .nil, rest, c, s, _, _ => by simp [Ps.enc']
  | .dots, rest, c, s, _, _ => by
    rw [Ps.enc', List.cons_append, copy_step _ _ _ _ (by simp [badPair]) (by simp), List.cons_append,
      copy_step _ _ _ _ (by simp [badPair]) (by simp)]
    simp [delta]
  | .cons x t ps, rest, c, s, h, hc => by
    rw [Ps.deep'] at h
    rw [Ps.enc', List.cons_append, List.cons_append, copy_step _ _ _ _ (by simp [badPair]) (by simp),
      List.append_assoc, copy_ty t _ _ _ h.1 (by simp [delta]; omega) (Jn.of _ _ (by simp) (by simp)),
      if_neg (by simp [delta]; omega), copy_ps' ps _ _ _ h.2.2 (by simp [delta]; omega)]
    simp [delta]
end

theorem copy_bad (t : Ty) (rest : List Ent) (c : Int) (s : List Ent) (h : ¬ Jn s.getLast? t) :
    copy (t.enc ++ rest) c s = .error := by
  match t with
  | .base _ => exact absurd (by simp [Jn, Ty.isFn, Ty.isArr]) h
  | .ptr _ => exact absurd (by simp [Jn, Ty.isFn, Ty.isArr]) h
  | .arr n t =>
    rw [Ty.enc, List.cons_append, copy]
    dsimp only
    rw [if_pos]
    right
    refine ⟨?_, rfl⟩
    apply Classical.byContradiction
    intro hn
    exact h ⟨fun e => absurd e hn, fun _ => rfl⟩
  | .fn ps t =>
    rw [Ty.enc, List.append_assoc, List.cons_append, copy]
    dsimp only
    rw [if_pos]
    left
    refine ⟨?_, rfl⟩
    apply Classical.byContradiction
    intro hn
    exact h ⟨fun e => absurd (Or.inl e) hn, fun e => absurd (Or.inr e) hn⟩

theorem Spec.Env.mono {env : Nat → Ty} {s : List Ent} {ts ts' : List Tok} (h : Env env s ts) (hs : ∀ t, t ∈ ts' → t ∈ ts) :
    Env env s ts' := fun x p hm => h x p (hs _ hm)

theorem Spec.Env.toD {env : Nat → Ty} {s : List Ent} {ts : List Tok} (h : Env env s ts) : EnvD env ts :=
  fun x p hm => (h x p hm).1

theorem enc_ne (t : Ty) : t.enc ≠ [] := by
  cases t <;> simp [Ty.enc]

theorem Spec.Env.grow {env : Nat → Ty} {s : List Ent} {ts : List Tok} (h : Env env s ts) (l : List Ent) : Env env (s ++ l) ts := by
  intro x p hm
  obtain ⟨h1, rest, h2⟩ := h x p hm
  refine ⟨h1, rest ++ l, ?_⟩
  have hl : p + 1 ≤ s.length := by
    apply Classical.byContradiction
    intro hn
    rw [List.drop_of_length_le (by omega)] at h2
    have := enc_ne (env p)
    simp at h2
    exact this h2.1
  rw [List.drop_append_of_le_length hl, h2, List.append_assoc]

/-- what `ParseBase` gives for specifiers -/
def Sp.base : Sp → Base
  | .kw b => .kw b
  | .td _ p => .td p

theorem parseBase_text (b : Sp) (r : List Tok) : parseBase (b.text :: r) = .ok (Sp.base b, r) := by
  cases b <;> rfl

theorem parseBase_inv (ts r : List Tok) (b : Base) (h : parseBase ts = .ok (b, r)) :
    ∃ b' : Sp, Sp.base b' = b ∧ ts = b'.text :: r := by
  unfold parseBase at h
  split at h
  · cases h; exact ⟨.kw _, rfl, rfl⟩
  · cases h; exact ⟨.td _ _, rfl, rfl⟩
  · cases h

theorem starts_text (b : Sp) : starts b.text = true := by cases b <;> rfl

theorem starts_inv (t : Tok) (h : starts t = true) : ∃ b : Sp, t = b.text := by
  unfold starts at h
  split at h
  · exact ⟨.kw _, rfl⟩
  · exact ⟨.td _ _, rfl⟩
  · cases h

theorem push_ok (env : Nat → Ty) (b : Sp) (s : List Ent) (e : Ent) (ts : List Tok) (henv : Env env s (b.text :: ts))
    (hl : s.getLast? = some e) (hj : junc e (b.ty env)) :
    ∃ s1, pushBase (Sp.base b) s = .ok s1 ∧ enumToInt s1 = s ++ (b.ty env).enc := by
  have hdeep := sp_deep env b ts henv.toD
  have hv : voidElems (s ++ (b.ty env).enc) = false := by
    rw [voidElems_eq _ _ hdeep, hl]
    cases h : (b.ty env).isVoid with
    | false => rfl
    | true =>
      have : e ≠ .rbrk := fun h' => by have := (hj.2 h').2; rw [h] at this; cases this
      simp [this]
  have hfin : enumToInt (s ++ (b.ty env).enc) = s ++ (b.ty env).enc := by
    rw [enumToInt, if_neg (last_deep _ _ hdeep)]
  match b with
  | .kw .enum =>
    refine ⟨s ++ [.base .enum], ?_, ?_⟩
    · simp [pushBase, Sp.base, R.bind, voidElems]
    · simp [enumToInt, Sp.ty, Ty.enc]
  | .kw .void =>
    refine ⟨_, ?_, hfin⟩
    simp only [pushBase, Sp.base, R.bind]
    rw [show [Ent.base B.void] = (Sp.ty env (.kw .void)).enc from rfl, hv]
    rfl
  | .kw (.plain n) =>
    refine ⟨_, ?_, hfin⟩
    simp only [pushBase, Sp.base, R.bind]
    rw [show [Ent.base (B.plain n)] = (Sp.ty env (.kw (.plain n))).enc from rfl, hv]
    rfl
  | .td x p =>
    obtain ⟨_, rest, h2⟩ := henv x p (by simp [Sp.text])
    refine ⟨_, ?_, hfin⟩
    simp only [pushBase, Sp.base]
    rw [h2, copy_ty (env p) _ 0 _ hdeep (by omega) (by
      rw [hl]
      exact ⟨fun h => hj.1 (by simpa using h), fun h => (hj.2 (by simpa using h)).1⟩), if_pos rfl, R.bind]
    rw [show env p = Sp.ty env (.td x p) from rfl, hv]
    rfl

theorem push_inv (env : Nat → Ty) (b : Sp) (s : List Ent) (e : Ent) (ts : List Tok) (henv : Env env s (b.text :: ts))
    (hl : s.getLast? = some e) (s1 : List Ent) (h : pushBase (Sp.base b) s = .ok s1) :
    junc e (b.ty env) ∧ enumToInt s1 = s ++ (b.ty env).enc := by
  have hdeep := sp_deep env b ts henv.toD
  have key : junc e (b.ty env) := by
    match b with
    | .kw .enum => exact ⟨fun _ => ⟨rfl, rfl⟩, fun _ => ⟨rfl, rfl⟩⟩
    | .kw (.plain n) => exact ⟨fun _ => ⟨rfl, rfl⟩, fun _ => ⟨rfl, rfl⟩⟩
    | .kw .void =>
      refine ⟨fun _ => ⟨rfl, rfl⟩, fun he => ?_⟩
      subst he
      simp [pushBase, Sp.base, R.bind, voidElems, hl] at h
    | .td x p =>
      obtain ⟨_, rest, h2⟩ := henv x p (by simp [Sp.text])
      simp only [pushBase, Sp.base] at h
      rw [h2] at h
      by_cases hj : Jn s.getLast? (env p)
      · rw [copy_ty (env p) _ 0 _ hdeep (by omega) hj, if_pos rfl, R.bind, show env p = Sp.ty env (.td x p) from rfl,
          voidElems_eq _ _ hdeep, hl] at h
        rw [hl] at hj
        refine ⟨fun he => hj.1 (by rw [he]), fun he => ⟨hj.2 (by rw [he]), ?_⟩⟩
        subst he
        cases hv : (Sp.ty env (.td x p)).isVoid with
        | false => rfl
        | true => rw [hv] at h; simp at h
      · rw [copy_bad _ _ _ _ hj] at h; cases h
  obtain ⟨s2, h2, h3⟩ := push_ok env b s e ts henv hl key
  rw [h] at h2
  cases h2
  exact ⟨key, h3⟩

theorem copy_fuel : ∀ (l : List Ent) (c : Int) (s : List Ent), copy l c s ≠ .fuel
  | [], _, _ => by simp [copy]
  | e :: l, c, s => by
    rw [copy]
    dsimp only
    split
    · simp
    · split
      · split
        · simp
        · exact copy_fuel l _ _
      · split
        · simp
        · exact copy_fuel l _ _
      · exact copy_fuel l _ _

theorem push_fuel (b : Base) (s : List Ent) : pushBase b s ≠ .fuel := by
  have tail : ∀ s : List Ent, (if voidElems s then (.error : R (List Ent)) else .ok s) ≠ .fuel := by
    intro s; split <;> simp
  unfold pushBase
  cases b with
  | kw b => exact tail _
  | td p =>
    dsimp only
    cases h : copy (s.drop (p + 1)) 0 s with
    | ok a => exact tail _
    | error => simp [R.bind]
    | fuel => exact absurd h (copy_fuel _ _ _)

/-! ### stars -/

theorem stars_rep (n : Nat) (ts : List Tok) (h : ts.head? ≠ some .star) :
    stars (List.replicate n .star ++ ts) = (n, ts) := by
  induction n with
  | zero =>
    match ts with
    | [] => rfl
    | t :: r =>
      simp only [List.replicate_zero, List.nil_append]
      cases t <;> first | rfl | simp at h
  | succ n ih =>
    rw [List.replicate_succ, List.cons_append, stars, ih]

theorem stars_inv : ∀ (ts : List Tok), ts = List.replicate (stars ts).1 .star ++ (stars ts).2 ∧ (stars ts).2.head? ≠ some .star
  | [] => by simp [stars]
  | t :: r => by
    cases t with
    | star =>
      obtain ⟨h1, h2⟩ := stars_inv r
      rw [stars]
      exact ⟨by rw [List.replicate_succ, List.cons_append, ← h1], h2⟩
    | _ => simp [stars]

/-! ### dimensions -/

/-- a row of dimensions -/
def rows (d : D) : List (Option Nat) → D
  | [] => d
  | n :: l => rows (.arr d n) l

theorem rows_concat (d : D) (l : List (Option Nat)) (n : Option Nat) : rows d (l ++ [n]) = .arr (rows d l) n := by
  induction l generalizing d with
  | nil => rfl
  | cons m l ih => exact ih _

def rowText : List (Option Nat) → List Tok
  | [] => []
  | n :: l => .lbrk :: dimText n ++ [.rbrk] ++ rowText l

def rowEnt : List (Option Nat) → List Ent
  | [] => []
  | n :: l => .lbrk :: .num (n.getD 0) :: .rbrk :: rowEnt l

theorem rows_text (d : D) (l : List (Option Nat)) : (rows d l).text = d.text ++ rowText l := by
  induction l generalizing d with
  | nil => simp [rows, rowText]
  | cons m l ih => rw [rows, ih, D.text, rowText]; simp

theorem rows_pre (env : Nat → Ty) (d : D) (l : List (Option Nat)) : pre env (rows d l) = pre env d ++ rowEnt l := by
  induction l generalizing d with
  | nil => simp [rows, rowEnt]
  | cons m l ih => rw [rows, ih, pre, rowEnt]; simp

theorem rows_nm (d : D) (l : List (Option Nat)) : (rows d l).nm = d.nm := by
  induction l generalizing d with
  | nil => rfl
  | cons m l ih => rw [rows, ih, D.nm]

/-- the dimensions of a row are proper; `later` says that the first is not the first of all -/
def rowOk : Bool → List (Option Nat) → Prop
  | _, [] => True
  | later, n :: l => dimOk later n ∧ rowOk true l

theorem rows_ok (env : Nat → Ty) (st : Bool) : ∀ (l : List (Option Nat)) (d : D), d.direct = true →
    ((rows d l).ok env st ↔ d.ok env st ∧ rowOk d.isArr l)
  | [], d, _ => by simp [rows, rowOk]
  | n :: l, d, h => by
    rw [rows, rows_ok env st l (.arr d n) rfl, D.ok, rowOk]
    simp only [D.isArr, h, true_and]
    constructor
    · rintro ⟨⟨h1, h2⟩, h3⟩; exact ⟨h1, h2, h3⟩
    · rintro ⟨h1, h2, h3⟩; exact ⟨⟨h1, h2⟩, h3⟩

theorem rows_direct (d : D) (l : List (Option Nat)) (h : d.direct = true) : (rows d l).direct = true := by
  induction l generalizing d with
  | nil => exact h
  | cons m l ih => exact ih _ rfl

theorem rows_chain (d : D) (l : List (Option Nat)) (h : l ≠ []) : chain (rows d l) ↔ chain d ∧ lst d ≠ .rpar := by
  induction l generalizing d with
  | nil => exact absurd rfl h
  | cons m l ih =>
    rw [rows]
    by_cases hl : l = []
    · subst hl; rw [rows, chain]
    · rw [ih _ hl, chain, lst]; simp

theorem delete_mid (s : List Ent) (e : Ent) (l : List Ent) : deleteAt (s ++ e :: l) s.length = s ++ l := by
  rw [deleteAt, List.take_left' rfl]
  rw [show s ++ e :: l = (s ++ [e]) ++ l by simp, List.drop_left' (by simp)]

theorem dims_ok : ∀ (l : List (Option Nat)) (k : Nat) (later : Bool) (rest : List Tok) (s : List Ent), rowOk later l →
    rest.head? ≠ some .lbrk → l.length < k →
    dims k (!later) (rowText l ++ rest) s = .ok (rest, s ++ rowEnt l)
  | [], k + 1, later, rest, s, _, h, _ => by
    rw [rowText, rowEnt, List.nil_append, List.append_nil]
    unfold dims
    match rest with
    | [] => rfl
    | t :: r => cases t <;> first | rfl | simp at h
  | n :: l, k + 1, later, rest, s, h1, h2, h3 => by
    rw [rowOk] at h1
    have hd : dimension (!later) (dimText n ++ ([.rbrk] ++ (rowText l ++ rest))) (s ++ [.base .void] ++ [.lbrk]) =
        .ok (.rbrk :: (rowText l ++ rest), s ++ [.base .void] ++ [.lbrk] ++ [.num (n.getD 0)]) := by
      cases n with
      | some n =>
        have : 1 ≤ n := h1.1
        simp only [dimText, List.cons_append, List.nil_append, dimension]
        rw [if_neg (by omega)]
        rfl
      | none =>
        have hl : later = false := h1.1
        subst hl
        simp only [dimText, List.cons_append, List.nil_append, dimension]
        simp
    rw [rowText]
    unfold dims
    simp only [List.cons_append, List.append_assoc]
    rw [show dimText n ++ Tok.rbrk :: ([] ++ (rowText l ++ rest)) = dimText n ++ ([.rbrk] ++ (rowText l ++ rest)) by simp]
    simp only [List.append_assoc, List.cons_append, List.nil_append] at hd ⊢
    rw [hd]
    simp only [R.bind]
    rw [show (s ++ Ent.base B.void :: Ent.lbrk :: [Ent.num (n.getD 0)]) ++ [Ent.rbrk] =
      s ++ Ent.base B.void :: [.lbrk, .num (n.getD 0), .rbrk] by simp, delete_mid]
    have := dims_ok l k true rest (s ++ [.lbrk, .num (n.getD 0), .rbrk]) h1.2 h2 (by simp at h3; omega)
    simp only [Bool.not_true] at this
    simp only [List.append_assoc, List.cons_append, List.nil_append] at this
    rw [this, rowEnt]

theorem dims_inv : ∀ (k : Nat) (later : Bool) (ts : List Tok) (s : List Ent) (ts' : List Tok) (s' : List Ent),
    dims k (!later) ts s = .ok (ts', s') →
    ∃ l, rowOk later l ∧ ts = rowText l ++ ts' ∧ s' = s ++ rowEnt l ∧ ts'.head? ≠ some .lbrk
  | 0, _, _, _, _, _, h => by simp [dims] at h
  | k + 1, later, ts, s, ts', s', h => by
    unfold dims at h
    dsimp only at h
    split at h
    · rename_i r
      unfold dimension at h
      split at h
      · rename_i n r
        by_cases hn : n < 1
        · rw [if_pos hn] at h; cases h
        · rw [if_neg hn] at h
          simp only [R.bind] at h
          rw [show (s ++ [Ent.base B.void] ++ [Ent.lbrk] ++ [Ent.num n]) ++ [Ent.rbrk] =
            s ++ Ent.base B.void :: [.lbrk, .num n, .rbrk] by simp, delete_mid] at h
          obtain ⟨l, h1, h2, h3, h4⟩ := dims_inv k true _ _ _ _ h
          exact ⟨some n :: l, ⟨show 1 ≤ n by omega, h1⟩, by simp [rowText, dimText, h2], by simp [rowEnt, h3], h4⟩
      · rename_i r
        cases hl : later with
        | true => rw [hl] at h; simp [R.bind] at h
        | false =>
          rw [hl] at h
          simp only [R.bind, Bool.not_false, if_true] at h
          rw [show (s ++ [Ent.base B.void] ++ [Ent.lbrk] ++ [Ent.num 0]) ++ [Ent.rbrk] =
            s ++ Ent.base B.void :: [.lbrk, .num 0, .rbrk] by simp, delete_mid] at h
          obtain ⟨l, h1, h2, h3, h4⟩ := dims_inv k true _ _ _ _ h
          exact ⟨none :: l, ⟨rfl, h1⟩, by simp [rowText, dimText, h2], by simp [rowEnt, h3], h4⟩
      · cases h
    · rename_i hn
      cases h
      refine ⟨[], trivial, rfl, by simp [rowEnt], ?_⟩
      match ts, hn with
      | [], _ => simp
      | t :: r, hn =>
        intro he
        simp at he
        subst he
        exact hn r rfl

theorem dims_fuel : ∀ (k : Nat) (a : Bool) (ts : List Tok) (s : List Ent), ts.length < k → dims k a ts s ≠ .fuel
  | k + 1, a, ts, s, hk => by
    unfold dims
    dsimp only
    split
    · rename_i r
      unfold dimension
      split
      · rename_i n r
        split
        · simp [R.bind]
        · simp only [R.bind]
          exact dims_fuel k _ _ _ (by simp at hk; omega)
      · split
        · simp only [R.bind]
          exact dims_fuel k _ _ _ (by simp at hk; omega)
        · simp [R.bind]
      · simp [R.bind]
    · simp

end Smlr.Declr
