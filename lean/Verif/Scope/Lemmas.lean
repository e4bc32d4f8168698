import Verif.Scope.Spec
/-!
# Scopes: the table and the environment

`Inv P st e`: the searches in the stack `st` find what the environment `e` says, for names other than those of `P` (the names being declared).
-/
set_option autoImplicit false

namespace Smlr.Scope

/-! ### parts of the stack -/

/-- entries that no search for a name of the program stops at, and that say nothing about what stands before -/
def neutral : Tk → Bool
  | .star | .num | .lofs | .base | .void | .lbrk | .rbrk | .lbrc | .rbrc | .sptr | .eptr | .ell => true
  | .mem _ => true
  | .ident .cast _ | .ident .num _ | .ident .empty _ => true
  | _ => false

def bracket : Tk → Bool
  | .lpar | .rpar | .lbrk | .rbrk | .hash => true
  | _ => false

inductive Bal : List Tk → Prop
  | nil : Bal []
  | one {t : Tk} : bracket t = false → Bal [t]
  | par {m : List Tk} : Bal m → Bal (.lpar :: m ++ [.rpar])
  | brk {m : List Tk} : Bal m → Bal (.lbrk :: m ++ [.rbrk])
  | app {a b : List Tk} : Bal a → Bal b → Bal (a ++ b)

inductive Closed : List Tk → Prop
  | nil : Closed []
  | one {t : Tk} : neutral t = true → Closed [t]
  | par {m : List Tk} : Bal m → Closed (.lpar :: m ++ [.rpar])
  | app {a b : List Tk} : Closed a → Closed b → Closed (a ++ b)

theorem Closed.cons {t : Tk} {l : List Tk} (ht : neutral t = true) (h : Closed l) : Closed (t :: l) := .app (.one ht) h

/-- the derivations of a type -/
inductive Seq : List Tk → Prop
  | nil : Seq []
  | star {q : List Tk} : Seq q → Seq (.star :: q)
  | arr {q : List Tk} : Seq q → Seq (.lbrk :: .num :: .rbrk :: q)
  | fn {m q : List Tk} : Bal m → Seq q → Seq (.lpar :: m ++ .rpar :: q)

inductive TyOk : List Tk → Prop
  | void : TyOk [.void]
  | base : TyOk [.base]
  | sptr : TyOk [.sptr]
  | star {q : List Tk} : TyOk q → TyOk (.star :: q)
  | arr {q : List Tk} : TyOk q → TyOk (.lbrk :: .num :: .rbrk :: q)
  | fn {m q : List Tk} : Bal m → TyOk q → TyOk (.lpar :: m ++ .rpar :: q)

theorem Seq.app {q r : List Tk} (h : Seq q) (hr : Seq r) : Seq (q ++ r) := by
  induction h with
  | nil => exact hr
  | star _ ih => exact .star ih
  | arr _ ih => exact .arr ih
  | @fn m q hm _ ih =>
    have := Seq.fn hm ih
    simpa using this

theorem Seq.ty {q r : List Tk} (h : Seq q) (hr : TyOk r) : TyOk (q ++ r) := by
  induction h with
  | nil => exact hr
  | star _ ih => exact .star ih
  | arr _ ih => exact .arr ih
  | @fn m q hm _ ih =>
    have := TyOk.fn hm ih
    simpa using this

theorem seq_replicate (n : Nat) : Seq (List.replicate n .star) := by
  induction n with
  | zero => exact .nil
  | succ n ih => exact .star ih

theorem TyOk.closed {l : List Tk} (h : TyOk l) : Closed l := by
  induction h with
  | void => exact .one rfl
  | base => exact .one rfl
  | sptr => exact .one rfl
  | star _ ih => exact .cons rfl ih
  | arr _ ih => exact .cons rfl (.cons rfl (.cons rfl ih))
  | @fn m q hm _ ih =>
    have := Closed.app (.par hm) ih
    simpa using this

theorem Seq.closed {l : List Tk} (h : Seq l) : Closed l := by
  induction h with
  | nil => exact .nil
  | star _ ih => exact .cons rfl ih
  | arr _ ih => exact .cons rfl (.cons rfl (.cons rfl ih))
  | @fn m q hm _ ih =>
    have := Closed.app (.par hm) ih
    simpa using this

theorem TyOk.bal {l : List Tk} (h : TyOk l) : Bal l := by
  induction h with
  | void => exact .one rfl
  | base => exact .one rfl
  | sptr => exact .one rfl
  | star _ ih => exact .app (.one (t := .star) rfl) ih
  | arr _ ih => exact .app (.brk (.one (t := .num) rfl)) ih
  | @fn m q hm _ ih =>
    have := Bal.app (.par hm) ih
    simpa using this

/-- what may begin a type -/
def tyHead : Tk → Bool
  | .star | .lbrk | .lpar | .base | .void | .sptr => true
  | _ => false

theorem TyOk.head {l : List Tk} (h : TyOk l) : ∃ t r, l = t :: r ∧ tyHead t = true := by
  cases h with
  | void => exact ⟨_, _, rfl, rfl⟩
  | base => exact ⟨_, _, rfl, rfl⟩
  | sptr => exact ⟨_, _, rfl, rfl⟩
  | star _ => exact ⟨_, _, rfl, rfl⟩
  | arr _ => exact ⟨_, _, rfl, rfl⟩
  | fn _ _ => exact ⟨_, _, rfl, rfl⟩

def hdOf : List Tk → Hd
  | .void :: _ => .void
  | .lpar :: _ => .fn
  | _ => .other

theorem TyOk.void_iff {l : List Tk} (h : TyOk l) : hdOf l = .void ↔ l = [.void] := by
  constructor
  · intro hv
    cases h <;> first | rfl | cases hv
  · intro hv; rw [hv]; rfl

/-! ### searching -/

/-- no search with `hit` stops in `l` -/
def Pass (hit : Tk → Bool) (l : List Tk) : Prop :=
  ∀ cur r, scan hit cur 0 (l.reverse ++ r) = scan hit cur 0 r

theorem Pass.nil (hit : Tk → Bool) : Pass hit [] := fun _ _ => rfl

theorem Pass.app {hit : Tk → Bool} {a b : List Tk} (ha : Pass hit a) (hb : Pass hit b) : Pass hit (a ++ b) := by
  intro cur r
  rw [List.reverse_append, List.append_assoc, hb, ha]

theorem Pass.one {hit : Tk → Bool} {t : Tk} (h : hit t = false) (h1 : t ≠ .rpar) (h2 : t ≠ .hash) : Pass hit [t] := by
  intro cur r
  show scan hit cur 0 (t :: r) = _
  simp [scan, h, h1, h2]

theorem scan_bal {hit : Tk → Bool} {m : List Tk} (h : Bal m) :
    ∀ cur c r, scan hit cur (c + 1) (m.reverse ++ r) = scan hit cur (c + 1) r := by
  induction h with
  | nil => intro cur c r; rfl
  | @one t ht =>
    intro cur c r
    show scan hit cur (c + 1) (t :: r) = _
    have h1 : t ≠ .lpar := by rintro rfl; cases ht
    have h2 : t ≠ .rpar := by rintro rfl; cases ht
    simp [scan, h1, h2]
  | par _ ih =>
    intro cur c r
    simp only [List.reverse_append, List.reverse_cons, List.reverse_nil, List.nil_append, List.append_assoc, List.cons_append, List.singleton_append]
    rw [scan]
    simp only [reduceCtorEq, if_false, if_true]
    rw [show c + 2 = c + 1 + 1 from rfl, ih, scan]
    simp only [if_true]
  | brk _ ih =>
    intro cur c r
    simp only [List.reverse_append, List.reverse_cons, List.reverse_nil, List.nil_append, List.append_assoc, List.cons_append, List.singleton_append]
    rw [scan]
    simp only [reduceCtorEq, if_false]
    rw [ih, scan]
    simp only [reduceCtorEq, if_false]
  | app _ _ ih1 ih2 =>
    intro cur c r
    rw [List.reverse_append, List.append_assoc, ih2, ih1]

/-- searches for a name of the program, or for a tag -/
structure Quiet (hit : Tk → Bool) : Prop where
  ntr : ∀ t, neutral t = true → hit t = false
  rpar : hit .rpar = false
  lpar : hit .lpar = false
  some : ∀ i, hit (.ident .something i) = false
  tsome : ∀ i, hit (.tag .something i) = false
  size : hit .size = false
  kw : ∀ k, hit (.kw k) = false
  hash : hit .hash = false

theorem quiet_sym (x : Nat) : Quiet (isSym (.id x)) := by
  refine ⟨?_, rfl, rfl, fun _ => rfl, fun _ => rfl, rfl, fun _ => rfl, rfl⟩
  intro t ht
  unfold neutral at ht; unfold isSym
  split at ht <;> first | rfl | cases ht

theorem quiet_td (x : Nat) : Quiet (isTd (.id x)) := by
  refine ⟨?_, rfl, rfl, fun _ => rfl, fun _ => rfl, rfl, fun _ => rfl, rfl⟩
  intro t ht
  unfold neutral at ht; unfold isTd
  split at ht <;> first | rfl | cases ht

theorem quiet_tag (x : Nat) : Quiet (isTag (.id x)) := by
  refine ⟨?_, rfl, rfl, fun _ => rfl, fun _ => rfl, rfl, fun _ => rfl, rfl⟩
  intro t ht
  unfold neutral at ht; unfold isTag
  split at ht <;> first | rfl | cases ht

theorem Closed.passOf {hit : Tk → Bool} {l : List Tk} (h : Closed l) (hn : ∀ t, neutral t = true → hit t = false)
    (hr : hit .rpar = false) : Pass hit l := by
  induction h with
  | nil => exact .nil _
  | @one t ht =>
    exact .one (hn t ht) (by rintro rfl; cases ht) (by rintro rfl; cases ht)
  | par hm =>
    intro cur r
    simp only [List.reverse_append, List.reverse_cons, List.reverse_nil, List.nil_append, List.append_assoc, List.cons_append, List.singleton_append]
    rw [scan]
    simp only [hr, Bool.false_eq_true, if_false, if_true]
    rw [scan_bal hm cur 0, scan]
    simp only [if_true]
  | app _ _ ih1 ih2 => exact ih1.app ih2

theorem Closed.pass {hit : Tk → Bool} {l : List Tk} (h : Closed l) (hq : Quiet hit) : Pass hit l := h.passOf hq.ntr hq.rpar

/-- the flag of the current scope does not influence the search -/
theorem scan_false (hit : Tk → Bool) : ∀ (r : List Tk) (cur : Bool) (c : Nat),
    scan hit false c r = match scan hit cur c r with | .found p _ => .found p false | o => o := by
  intro r
  induction r with
  | nil => intro cur c; cases c <;> rfl
  | cons t r ih =>
    intro cur c
    cases c with
    | zero =>
      by_cases h1 : hit t = true
      · simp [scan, h1]
      · by_cases h2 : t = .rpar
        · subst h2; simp only [scan, h1, Bool.false_eq_true, if_false, if_true]; exact ih cur 1
        · by_cases h3 : t = .hash
          · subst h3; simp only [scan, h1, reduceCtorEq, Bool.false_eq_true, if_false, if_true]; exact ih false 0
          · simp only [scan, h1, h2, h3, Bool.false_eq_true, if_false]; exact ih cur 0
    | succ c =>
      by_cases h1 : t = .lpar
      · simp only [scan, h1, if_true]; exact ih cur c
      · by_cases h2 : t = .rpar
        · simp only [scan, h2, reduceCtorEq, if_false, if_true]; exact ih cur (c + 2)
        · simp only [scan, h1, h2, if_false]; exact ih cur (c + 1)

/-! ### environments -/

theorem find_cons_self {α : Type} (x : Nat) (a : α) (r : List (Nat × α)) : find x ((x, a) :: r) = some a := by simp [find]

theorem lookup_add_self (x : Nat) (a : Ent) (n : List (List (Nat × Ent))) : lookup x (addTo x a n) = some a := by
  cases n <;> simp [addTo, lookup, find]

theorem lookup_add_ne {x y : Nat} (h : x ≠ y) (a : Ent) (n : List (List (Nat × Ent))) : lookup y (addTo x a n) = lookup y n := by
  cases n <;> simp [addTo, lookup, find, h]

theorem tlookup_add_self (x : Nat) (a : TEnt) (n : List (List (Nat × TEnt))) (cur : Bool) : tlookup x (addTo x a n) cur = some (a, cur) := by
  cases n <;> simp [addTo, tlookup, find]

theorem tlookup_add_ne {x y : Nat} (h : x ≠ y) (a : TEnt) (n : List (List (Nat × TEnt))) (cur : Bool) :
    tlookup y (addTo x a n) cur = tlookup y n cur := by
  cases n <;> simp [addTo, tlookup, find, h]

theorem tlookup_false (x : Nat) : ∀ n : List (List (Nat × TEnt)),
    tlookup x n false = (tlookup x n true).map fun a => (a.1, false) := by
  intro n
  cases n with
  | nil => rfl
  | cons sc r =>
    simp only [tlookup]
    cases find x sc with
    | some a => rfl
    | none =>
      have : ∀ m : List (List (Nat × TEnt)), tlookup x m false = (tlookup x m false).map fun a => (a.1, false) := by
        intro m
        induction m with
        | nil => rfl
        | cons sc m ih =>
          simp only [tlookup]
          cases find x sc with
          | some a => rfl
          | none => exact ih
      exact this r

/-! ### the invariant -/

def HasCls : Cls → Tk → Prop
  | .static, t => t = .ident .num 0
  | .enum, t => t = .num
  | .auto, t => t = .lofs
  | .plain, t => tyHead t = true

def NmOk (st : List Tk) (x : Nat) : Option Ent → Prop
  | none => scan (isSym (.id x)) true 0 st.reverse = .absent ∧ scan (isTd (.id x)) true 0 st.reverse = .absent
  | some (.obj id c) => ∃ p cur t r, scan (isSym (.id x)) true 0 st.reverse = .found p cur ∧
      scan (isTd (.id x)) true 0 st.reverse = .found p cur ∧ st.drop p = .ident (.id x) id :: t :: r ∧ HasCls c t
  | some (.tdef id h) => ∃ p cur ty r, scan (isTd (.id x)) true 0 st.reverse = .found p cur ∧
      st.drop p = .tdef (.id x) id :: ty ++ r ∧ TyOk ty ∧ hdOf ty = h

def TgOk (st : List Tk) (x : Nat) : Option (TEnt × Bool) → Prop
  | none => scan (isTag (.id x)) true 0 st.reverse = .absent
  | some (t, cur) => ∃ p r, scan (isTag (.id x)) true 0 st.reverse = .found (p + 1) cur ∧
      st.drop p = .kw t.k :: .tag (.id x) t.id :: r ∧ (r.head? = some .size ↔ t.complete = true)

structure Inv (P : List Nat) (st : List Tk) (e : Env) : Prop where
  nm : ∀ x, x ∉ P → NmOk st x (lookup x e.names)
  tg : ∀ x, TgOk st x (tlookup x e.tags true)

theorem drop_ext {st : List Tk} {p : Nat} {t : Tk} {r : List Tk} (h : st.drop p = t :: r) (l : List Tk) :
    (st ++ l).drop p = t :: (r ++ l) := by
  have hp : p ≤ st.length := by
    rcases Nat.lt_or_ge st.length p with hh | hh
    · rw [List.drop_eq_nil_of_le (by omega)] at h; cases h
    · exact hh
  rw [List.drop_append_of_le_length hp, h]
  rfl

theorem get_of_drop {st : List Tk} {p : Nat} {t : Tk} {r : List Tk} (h : st.drop p = t :: r) : st[p]? = some t := by
  have := congrArg (fun l => l[0]?) h
  simpa using this

theorem get_of_drop2 {st : List Tk} {p : Nat} {t u : Tk} {r : List Tk} (h : st.drop p = t :: u :: r) : st[p + 1]? = some u := by
  have := congrArg (fun l => l[1]?) h
  simpa using this

theorem NmOk.ext {st : List Tk} {x : Nat} {o : Option Ent} (h : NmOk st x o) {l : List Tk}
    (h1 : Pass (isSym (.id x)) l) (h2 : Pass (isTd (.id x)) l) : NmOk (st ++ l) x o := by
  match o with
  | none =>
    unfold NmOk at *
    rw [List.reverse_append, h1, h2]; exact h
  | some (.obj id c) =>
    obtain ⟨p, cur, t, r, a, b, d, e⟩ := h
    refine ⟨p, cur, t, r ++ l, ?_, ?_, drop_ext d l, e⟩
    · rw [List.reverse_append, h1]; exact a
    · rw [List.reverse_append, h2]; exact b
  | some (.tdef id hh) =>
    obtain ⟨p, cur, ty, r, a, d, e, f⟩ := h
    refine ⟨p, cur, ty, r ++ l, ?_, ?_, e, f⟩
    · rw [List.reverse_append, h2]; exact a
    · have := drop_ext (r := ty ++ r) d l
      rw [this, List.append_assoc]; rfl

theorem TgOk.ext {st : List Tk} {x : Nat} {o : Option (TEnt × Bool)} (h : TgOk st x o) {l : List Tk}
    (h1 : Pass (isTag (.id x)) l) (hs : l.head? ≠ some .size) : TgOk (st ++ l) x o := by
  match o with
  | none =>
    unfold TgOk at *
    rw [List.reverse_append, h1]; exact h
  | some (t, cur) =>
    obtain ⟨p, r, a, d, e⟩ := h
    refine ⟨p, r ++ l, ?_, drop_ext d l, ?_⟩
    · rw [List.reverse_append, h1]; exact a
    · cases r with
      | cons u r => exact e
      | nil =>
        rw [List.nil_append]
        constructor
        · intro hh; exact absurd hh hs
        · intro hh; cases e.2 hh

theorem Inv.ext {P P' : List Nat} {st : List Tk} {e : Env} (h : Inv P st e) {l : List Tk}
    (h1 : ∀ x, x ∉ P' → x ∉ P ∧ Pass (isSym (.id x)) l ∧ Pass (isTd (.id x)) l)
    (h2 : ∀ x, Pass (isTag (.id x)) l) (hs : l.head? ≠ some .size) : Inv P' (st ++ l) e :=
  ⟨fun x hx => (h.nm x (h1 x hx).1).ext (h1 x hx).2.1 (h1 x hx).2.2, fun x => (h.tg x).ext (h2 x) hs⟩

theorem Inv.weaken {P P' : List Nat} {st : List Tk} {e : Env} (h : Inv P st e) (hp : ∀ x, x ∈ P → x ∈ P') : Inv P' st e :=
  ⟨fun x hx => h.nm x (fun hm => hx (hp x hm)), h.tg⟩

/-- pushing entries that are quiet for all searches -/
theorem Inv.quiet {P : List Nat} {st : List Tk} {e : Env} (h : Inv P st e) {l : List Tk}
    (hp : ∀ hit, Quiet hit → Pass hit l) (hs : l.head? ≠ some .size) : Inv P (st ++ l) e :=
  h.ext (fun x hx => ⟨hx, hp _ (quiet_sym x), hp _ (quiet_td x)⟩) (fun x => hp _ (quiet_tag x)) hs

theorem Closed.head {l : List Tk} (h : Closed l) : l.head? ≠ some .size := by
  induction h with
  | nil => simp
  | one ht => intro hh; simp only [List.head?_cons, Option.some.injEq] at hh; subst hh; cases ht
  | par _ => simp
  | @app a b _ _ iha ihb =>
    cases a with
    | nil => exact ihb
    | cons t a => exact iha

theorem Inv.closed {P : List Nat} {st : List Tk} {e : Env} (h : Inv P st e) {l : List Tk} (hl : Closed l) : Inv P (st ++ l) e :=
  h.quiet (fun _ hq => hl.pass hq) hl.head

/-- a nameless declaration -/
theorem Inv.anon {P : List Nat} {st : List Tk} {e : Env} (h : Inv P st e) {l : List Tk} (hl : Closed l) (i : Nat) :
    Inv P (st ++ .ident .something i :: l) e := by
  refine h.quiet (fun hit hq => ?_) (by simp)
  rw [show (.ident .something i :: l : List Tk) = [.ident .something i] ++ l from rfl]
  exact (Pass.one (hq.some i) (by simp) (by simp)).app (hl.pass hq)

theorem pass_name {x y : Nat} (h : x ≠ y) (i : Nat) :
    Pass (isSym (.id y)) [.ident (.id x) i] ∧ Pass (isTd (.id y)) [.ident (.id x) i] ∧ Pass (isTd (.id y)) [.tdef (.id x) i] := by
  have hb : ((Nm.id x) == (Nm.id y)) = false := by simp [h]
  exact ⟨.one (by simpa [isSym] using h) (by simp) (by simp), .one (by simpa [isTd] using h) (by simp) (by simp),
    .one (by simpa [isTd] using h) (by simp) (by simp)⟩

/-- a name whose declaration is not complete -/
theorem Inv.pending {P : List Nat} {st : List Tk} {e : Env} (h : Inv P st e) {l : List Tk} (hl : Closed l) {x : Nat} (i : Nat) (hx : x ∈ P) :
    Inv P (st ++ .ident (.id x) i :: l) e := by
  refine h.ext (fun y hy => ⟨hy, ?_, ?_⟩) (fun y => ?_) (by simp)
  · have hne : x ≠ y := fun he => hy (he ▸ hx)
    rw [show (.ident (.id x) i :: l : List Tk) = [.ident (.id x) i] ++ l from rfl]
    exact (pass_name hne i).1.app (hl.pass (quiet_sym y))
  · have hne : x ≠ y := fun he => hy (he ▸ hx)
    rw [show (.ident (.id x) i :: l : List Tk) = [.ident (.id x) i] ++ l from rfl]
    exact (pass_name hne i).2.1.app (hl.pass (quiet_td y))
  · rw [show (.ident (.id x) i :: l : List Tk) = [.ident (.id x) i] ++ l from rfl]
    exact (Pass.one rfl (by simp) (by simp)).app (hl.pass (quiet_tag y))

theorem scan_top {hit : Tk → Bool} {l : List Tk} (hl : Pass hit l) {t : Tk} (ht : hit t = true) (st : List Tk) :
    scan hit true 0 (st ++ t :: l).reverse = .found st.length true := by
  rw [List.reverse_append, List.reverse_cons, List.append_assoc, hl]
  show scan hit true 0 (t :: st.reverse) = _
  simp [scan, ht]

/-- a complete declaration -/
theorem Inv.add {P : List Nat} {st : List Tk} {e : Env} (h : Inv P st e) {t : Tk} {l : List Tk} (hl : Closed (t :: l)) (x i : Nat) {c : Cls}
    (hc : HasCls c t) : Inv P (st ++ .ident (.id x) i :: t :: l) (e.add x (.obj i c)) := by
  constructor
  · intro y hy
    by_cases hxy : x = y
    · subst hxy
      show NmOk _ _ (lookup x (addTo x _ e.names))
      rw [lookup_add_self]
      refine ⟨st.length, true, t, l, ?_, ?_, ?_, hc⟩
      · exact scan_top (hl.pass (quiet_sym x)) (by simp [isSym]) st
      · exact scan_top (hl.pass (quiet_td x)) (by simp [isTd]) st
      · simp
    · show NmOk _ _ (lookup y (addTo x _ e.names))
      rw [lookup_add_ne hxy]
      have := (h.nm y hy).ext (l := [.ident (.id x) i] ++ (t :: l))
        ((pass_name hxy i).1.app (hl.pass (quiet_sym y))) ((pass_name hxy i).2.1.app (hl.pass (quiet_td y)))
      exact this
  · intro y
    exact (h.tg y).ext (l := [.ident (.id x) i] ++ (t :: l)) ((Pass.one rfl (by simp) (by simp)).app (hl.pass (quiet_tag y))) (by simp)

theorem Inv.addTd {P : List Nat} {st : List Tk} {e : Env} (h : Inv P st e) {ty : List Tk} (hl : TyOk ty) (x i : Nat) :
    Inv P (st ++ .tdef (.id x) i :: ty) (e.add x (.tdef i (hdOf ty))) := by
  constructor
  · intro y hy
    by_cases hxy : x = y
    · subst hxy
      show NmOk _ _ (lookup x (addTo x _ e.names))
      rw [lookup_add_self]
      refine ⟨st.length, true, ty, [], ?_, ?_, hl, rfl⟩
      · exact scan_top (hl.closed.pass (quiet_td x)) (by simp [isTd]) st
      · simp
    · show NmOk _ _ (lookup y (addTo x _ e.names))
      rw [lookup_add_ne hxy]
      have := (h.nm y hy).ext (l := [.tdef (.id x) i] ++ ty)
        ((Pass.one rfl (by simp) (by simp)).app (hl.closed.pass (quiet_sym y))) ((pass_name hxy i).2.2.app (hl.closed.pass (quiet_td y)))
      exact this
  · intro y
    exact (h.tg y).ext (l := [.tdef (.id x) i] ++ ty) ((Pass.one rfl (by simp) (by simp)).app (hl.closed.pass (quiet_tag y))) (by simp)

theorem Inv.addTag {P : List Nat} {st : List Tk} {e : Env} (h : Inv P st e) {l : List Tk} (hl : ∀ hit, Quiet hit → Pass hit l) (x i : Nat)
    (k : Kind) {b : Bool} (hb : l.head? = some .size ↔ b = true) :
    Inv P (st ++ .kw k :: .tag (.id x) i :: l) (e.addTag x ⟨i, k, b⟩) := by
  have hp : ∀ hit, Quiet hit → hit (.tag (.id x) i) = false → Pass hit ([.kw k] ++ ([.tag (.id x) i] ++ l)) := by
    intro hit hq ht
    exact (Pass.one (hq.kw k) (by simp) (by simp)).app ((Pass.one ht (by simp) (by simp)).app (hl hit hq))
  constructor
  · intro y hy
    exact (h.nm y hy).ext (hp _ (quiet_sym y) rfl) (hp _ (quiet_td y) rfl)
  · intro y
    by_cases hxy : x = y
    · subst hxy
      show TgOk _ _ (tlookup x (addTo x _ e.tags) true)
      rw [tlookup_add_self]
      refine ⟨st.length, l, ?_, by simp, hb⟩
      have := scan_top (hl _ (quiet_tag x)) (t := .tag (.id x) i) (by simp [isTag]) (st ++ [.kw k])
      simpa using this
    · show TgOk _ _ (tlookup y (addTo x _ e.tags) true)
      rw [tlookup_add_ne hxy]
      exact (h.tg y).ext (hp _ (quiet_tag y) (by simpa [isTag] using hxy)) (by simp)

theorem Inv.block {P : List Nat} {st : List Tk} {e : Env} (h : Inv P st e) : Inv P (st ++ [.hash]) e.block := by
  have hh : ∀ hit, Quiet hit → scan hit true 0 (st ++ [Tk.hash]).reverse = scan hit false 0 st.reverse := by
    intro hit hq
    rw [List.reverse_append]
    show scan hit true 0 (.hash :: st.reverse) = _
    simp [scan, hq.hash]
  have hf := fun hit (hq : Quiet hit) => (hh hit hq).trans (scan_false hit st.reverse true 0)
  constructor
  · intro x hx
    have := h.nm x hx
    show NmOk _ _ (lookup x ([] :: e.names))
    rw [show lookup x ([] :: e.names) = lookup x e.names from rfl]
    revert this
    match lookup x e.names with
    | none =>
      rintro ⟨a, b⟩
      refine ⟨?_, ?_⟩
      · rw [hf _ (quiet_sym x), a]
      · rw [hf _ (quiet_td x), b]
    | some (.obj id c) =>
      rintro ⟨p, cur, t, r, a, b, d, f⟩
      refine ⟨p, false, t, r ++ [.hash], ?_, ?_, drop_ext d _, f⟩
      · rw [hf _ (quiet_sym x), a]
      · rw [hf _ (quiet_td x), b]
    | some (.tdef id c) =>
      rintro ⟨p, cur, ty, r, a, d, f, g⟩
      refine ⟨p, false, ty, r ++ [.hash], ?_, ?_, f, g⟩
      · rw [hf _ (quiet_td x), a]
      · rw [drop_ext (r := ty ++ r) d, List.append_assoc]; rfl
  · intro x
    have := h.tg x
    show TgOk _ _ (tlookup x ([] :: e.tags) true)
    rw [show tlookup x ([] :: e.tags) true = tlookup x e.tags false from rfl, tlookup_false]
    revert this
    match tlookup x e.tags true with
    | none =>
      intro a
      show scan _ _ _ _ = _
      rw [hf _ (quiet_tag x), show scan (isTag (.id x)) true 0 st.reverse = .absent from a]
    | some (t, cur) =>
      rintro ⟨p, r, a, d, f⟩
      refine ⟨p, r ++ [.hash], ?_, drop_ext d _, ?_⟩
      · rw [hf _ (quiet_tag x), a]
      · cases r with
        | cons u r => exact f
        | nil =>
          constructor
          · intro hc; simp at hc
          · intro hc; cases f.2 hc

theorem Inv.proto {P : List Nat} {st : List Tk} {e : Env} (h : Inv P st e) : Inv P (st ++ [.lpar]) e.proto := by
  have := h.quiet (l := [.lpar]) (fun hit hq => .one hq.lpar (by simp) (by simp)) (by simp)
  exact ⟨this.nm, this.tg⟩

end Smlr.Scope
