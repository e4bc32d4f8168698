import Verif.Redecl.Whole

set_option autoImplicit false
/-! The search of `CheckRedecl` for earlier declarations. -/
namespace Smlr.Redecl

open Smlr.Declr Smlr.Declr.Spec Smlr.Redecl.Spec

section
variable (s : List E) (l x : Nat) (obj ext file : Bool)

/-- while parameters are skipped the entry above does not matter -/
theorem walk_next (L : List E) (c : Nat) (cur : Bool) (n n' : E) :
    walk s l x obj ext file L (c + 1) cur n = walk s l x obj ext file L (c + 1) cur n' := by
  cases L <;> simp [walk]

theorem walk_plain (e : E) (r : List E) (c : Nat) (cur : Bool) (n : E) (h1 : e ≠ .ty .lpar) (h2 : e ≠ .ty .rpar) :
    walk s l x obj ext file (e :: r) (c + 1) cur n = walk s l x obj ext file r (c + 1) cur n := by
  rw [walk]; simp only [h1, h2, if_false]
  exact walk_next s l x obj ext file r c cur _ _

mutual
theorem skip_back : (t : Ty) → ∀ (r : List E) (c : Nat) (cur : Bool) (n : E),
    walk s l x obj ext file ((tyE t).reverse ++ r) (c + 1) cur n = walk s l x obj ext file r (c + 1) cur n
  | .base b, r, c, cur, n => by
    simp only [tyE_base, List.reverse_singleton, List.singleton_append]
    rw [walk_plain _ _ _ _ _ _ _ _ _ _ _ (by simp) (by simp)]
  | .ptr t, r, c, cur, n => by
    simp only [tyE_ptr, List.reverse_cons, List.append_assoc, List.singleton_append, List.reverse_nil, List.nil_append, List.cons_append]
    rw [skip_back t, walk_plain _ _ _ _ _ _ _ _ _ _ _ (by simp) (by simp)]
  | .arr m t, r, c, cur, n => by
    simp only [tyE_arr, List.reverse_cons, List.append_assoc, List.singleton_append, List.reverse_nil, List.nil_append, List.cons_append]
    rw [skip_back t, walk_plain _ _ _ _ _ _ _ _ _ _ _ (by simp) (by simp), walk_plain _ _ _ _ _ _ _ _ _ _ _ (by simp) (by simp),
      walk_plain _ _ _ _ _ _ _ _ _ _ _ (by simp) (by simp)]
  | .fn ps t, r, c, cur, n => by
    simp only [tyE_fn, List.reverse_append, List.reverse_cons, List.append_assoc, List.singleton_append, List.cons_append, List.reverse_nil, List.nil_append]
    rw [skip_back t, walk]
    simp only [reduceCtorEq, if_false, if_true, E.ty.injEq]
    rw [skip_backp ps r (c + 1) cur]
    exact walk_next s l x obj ext file _ _ _ _ _
theorem skip_backp : (ps : Ps) → ∀ (r : List E) (c : Nat) (cur : Bool) (n : E),
    walk s l x obj ext file ((psE ps).reverse ++ .ty .lpar :: r) (c + 1) cur n = walk s l x obj ext file r c cur (.ty .lpar)
  | .unknown, r, c, cur, n => by
    simp only [psE_unknown, List.reverse_nil, List.nil_append]
    rw [walk]; simp
  | .nil, r, c, cur, n => by
    simp only [psE_nil, List.reverse_cons, List.reverse_nil, List.nil_append, List.append_assoc, List.singleton_append, List.cons_append]
    rw [walk_plain _ _ _ _ _ _ _ _ _ _ _ (by simp) (by simp), walk_plain _ _ _ _ _ _ _ _ _ _ _ (by simp) (by simp), walk]; simp
  | .dots, r, c, cur, n => by
    simp only [psE_dots, List.reverse_cons, List.reverse_nil, List.nil_append, List.append_assoc, List.singleton_append, List.cons_append]
    rw [walk_plain _ _ _ _ _ _ _ _ _ _ _ (by simp) (by simp), walk_plain _ _ _ _ _ _ _ _ _ _ _ (by simp) (by simp), walk]; simp
  | .cons y t ps, r, c, cur, n => by
    simp only [psE_cons, List.reverse_append, List.reverse_cons, List.append_assoc, List.singleton_append, List.cons_append, List.reverse_nil, List.nil_append]
    rw [skip_backp' ps, skip_back t, walk_plain _ _ _ _ _ _ _ _ _ _ _ (by simp) (by simp), walk]; simp
theorem skip_backp' : (ps : Ps) → ∀ (r : List E) (c : Nat) (cur : Bool) (n : E),
    walk s l x obj ext file ((psE' ps).reverse ++ r) (c + 1) cur n = walk s l x obj ext file r (c + 1) cur n
  | .unknown, r, c, cur, n => by simp
  | .nil, r, c, cur, n => by simp
  | .dots, r, c, cur, n => by
    simp only [psE'_dots, List.reverse_cons, List.reverse_nil, List.nil_append, List.append_assoc, List.singleton_append, List.cons_append]
    rw [walk_plain _ _ _ _ _ _ _ _ _ _ _ (by simp) (by simp), walk_plain _ _ _ _ _ _ _ _ _ _ _ (by simp) (by simp)]
  | .cons y t ps, r, c, cur, n => by
    simp only [psE'_cons, List.reverse_append, List.reverse_cons, List.append_assoc, List.singleton_append, List.cons_append, List.reverse_nil, List.nil_append]
    rw [skip_backp' ps, skip_back t, walk_plain _ _ _ _ _ _ _ _ _ _ _ (by simp) (by simp)]
end

/-- over a type -/
theorem walk_ty : (t : Ty) → ∀ (r : List E) (cur : Bool) (n : E),
    walk s l x obj ext file ((tyE t).reverse ++ r) 0 cur n = walk s l x obj ext file r 0 cur (headTy t)
  | .base b, r, cur, n => by simp [walk, headTy]
  | .ptr t, r, cur, n => by
    simp only [tyE_ptr, List.reverse_cons, List.append_assoc, List.singleton_append, List.reverse_nil, List.nil_append, List.cons_append]
    rw [walk_ty t]; simp [walk, headTy]
  | .arr m t, r, cur, n => by
    simp only [tyE_arr, List.reverse_cons, List.append_assoc, List.singleton_append, List.reverse_nil, List.nil_append, List.cons_append]
    rw [walk_ty t]; simp [walk, headTy]
  | .fn ps t, r, cur, n => by
    simp only [tyE_fn, List.reverse_append, List.reverse_cons, List.append_assoc, List.singleton_append, List.cons_append, List.reverse_nil, List.nil_append]
    rw [walk_ty t, walk]
    simp only [headTy]
    rw [skip_backp s l x obj ext file ps r 0 cur]

theorem cls_head (t : Ty) : cls (some (headTy t)) = .ext := by cases t <;> rfl

/-- the declarations that end the search -/
def hit (cur : Bool) (d : Decl) : Bool := d.name = x && (cur || d.linked)

theorem walk_miss (d : Decl) (cur : Bool) (h : hit x cur d = false) (r : List E) (n : E) :
    ∃ n', walk s l x obj ext file (d.enc.reverse ++ r) 0 cur n = walk s l x obj ext file r 0 cur n' := by
  obtain ⟨y, k⟩ := d
  have hy : y ≠ x ∨ cur = false := by
    by_cases hy : y = x
    · right; cases cur <;> simp_all [hit]
    · exact .inl hy
  cases k with
  | ext t =>
    have hy : y ≠ x := by
      rintro rfl; simp [hit, Decl.linked] at h
    refine ⟨.ty (.ident (some y)), ?_⟩
    simp only [Decl.enc, List.reverse_cons, List.append_assoc, List.singleton_append, List.reverse_nil, List.nil_append, List.cons_append]
    rw [walk_ty]; simp [walk, hy]
  | auto t =>
    refine ⟨.ty (.ident (some y)), ?_⟩
    simp only [Decl.enc, List.reverse_cons, List.append_assoc, List.singleton_append, List.reverse_nil, List.nil_append, List.cons_append]
    rw [walk_ty]
    rcases hy with hy | hy <;> simp [walk, hy, cls]
  | stat t =>
    refine ⟨.ty (.ident (some y)), ?_⟩
    simp only [Decl.enc, List.reverse_cons, List.append_assoc, List.singleton_append, List.reverse_nil, List.nil_append, List.cons_append]
    rw [walk_ty]
    rcases hy with hy | hy <;> simp [walk, hy, cls]
  | tdef t =>
    refine ⟨.tdef y, ?_⟩
    simp only [Decl.enc, List.reverse_cons, List.append_assoc, List.singleton_append, List.reverse_nil, List.nil_append, List.cons_append]
    rw [walk_ty]
    rcases hy with hy | hy <;> simp [walk, hy]
  | enum =>
    refine ⟨.ty (.ident (some y)), ?_⟩
    simp only [Decl.enc, List.reverse_cons, List.reverse_nil, List.nil_append, List.append_assoc, List.singleton_append, List.cons_append]
    rcases hy with hy | hy <;> simp [walk, hy, cls]

/-- over what a scope contains, up to the last declaration that ends the search -/
theorem walk_items (cur : Bool) : (it : Items) → it.deep → ∀ (r : List E) (n : E),
    match it.decls.reverse.find? (hit x cur) with
    | none => ∃ n', walk s l x obj ext file (it.enc.reverse ++ r) 0 cur n = walk s l x obj ext file r 0 cur n'
    | some d => d.deep ∧ ∃ A B n', it.enc = A ++ (d.enc ++ B) ∧
        walk s l x obj ext file (it.enc.reverse ++ r) 0 cur n = walk s l x obj ext file (d.enc.reverse ++ (A.reverse ++ r)) 0 cur n'
  | .nil, _, r, n => ⟨n, rfl⟩
  | .decl d it, h, r, n => by
    have ih := walk_items cur it h.2 (d.enc.reverse ++ r) n
    simp only [Items.decls, List.reverse_cons, List.find?_append, List.find?_singleton, Items.enc, List.reverse_append, List.append_assoc, List.reverse_nil, List.nil_append, List.cons_append]
    cases hf : it.decls.reverse.find? (hit x cur) with
    | some e =>
      rw [hf] at ih
      obtain ⟨h1, A, B, n', h2, h3⟩ := ih
      exact ⟨h1, d.enc ++ A, B, n', by simp [h2], by simpa using h3⟩
    | none =>
      rw [hf] at ih
      obtain ⟨n', h3⟩ := ih
      cases hd : hit x cur d with
      | true => exact ⟨h.1, [], it.enc, n', by simp, by simpa using h3⟩
      | false =>
        obtain ⟨n2, h4⟩ := walk_miss s l x obj ext file d cur hd r n'
        exact ⟨n2, by rw [h3, h4]⟩
  | .anon t it, h, r, n => by
    have ih := walk_items cur it h.2 ((tyE t).reverse ++ .ty (.ident none) :: r) n
    have e : ∀ n', walk s l x obj ext file ((tyE t).reverse ++ .ty (.ident none) :: r) 0 cur n' =
        walk s l x obj ext file r 0 cur (.ty (.ident none)) := fun n' => by rw [walk_ty]; simp [walk]
    simp only [Items.decls, Items.enc, List.reverse_append, List.append_assoc, List.reverse_cons, List.singleton_append, List.cons_append, List.reverse_nil, List.nil_append]
    cases hf : it.decls.reverse.find? (hit x cur) with
    | some d =>
      rw [hf] at ih
      obtain ⟨h1, A, B, n', h2, h3⟩ := ih
      exact ⟨h1, .ty (.ident none) :: tyE t ++ A, B, n', by simp [h2], by simpa using h3⟩
    | none =>
      rw [hf] at ih
      obtain ⟨n', h3⟩ := ih
      exact ⟨_, by rw [h3, e]⟩
  | .other it, h, r, n => by
    have ih := walk_items cur it h (.other :: r) n
    simp only [Items.decls, Items.enc, List.append_assoc, List.reverse_cons, List.singleton_append, List.reverse_nil, List.nil_append, List.cons_append]
    cases hf : it.decls.reverse.find? (hit x cur) with
    | some d =>
      rw [hf] at ih
      obtain ⟨h1, A, B, n', h2, h3⟩ := ih
      exact ⟨h1, .other :: A, B, n', by simp [h2], by simpa using h3⟩
    | none =>
      rw [hf] at ih
      obtain ⟨n', h3⟩ := ih
      exact ⟨.other, by rw [h3]; simp [walk]⟩
  | .field y t it, h, r, n => by
    have ih := walk_items cur it h.2 ((tyE t).reverse ++ .lofs :: .mem y :: r) n
    have e : ∀ n', walk s l x obj ext file ((tyE t).reverse ++ .lofs :: .mem y :: r) 0 cur n' =
        walk s l x obj ext file r 0 cur (.mem y) := fun n' => by rw [walk_ty]; simp [walk]
    simp only [Items.decls, Items.enc, List.reverse_append, List.append_assoc, List.reverse_cons, List.singleton_append, List.cons_append, List.reverse_nil, List.nil_append]
    cases hf : it.decls.reverse.find? (hit x cur) with
    | some d =>
      rw [hf] at ih
      obtain ⟨h1, A, B, n', h2, h3⟩ := ih
      exact ⟨h1, .mem y :: .lofs :: tyE t ++ A, B, n', by simp [h2], by simpa using h3⟩
    | none =>
      rw [hf] at ih
      obtain ⟨n', h3⟩ := ih
      exact ⟨_, by rw [h3, e]⟩
  | .body m it, h, r, n => by
    have ih := walk_items cur it h.2 (.rbrc :: (m.enc.reverse ++ .lbrc :: r)) n
    have im := walk_items cur m h.1 (.lbrc :: r) .rbrc
    have e : ∀ n', walk s l x obj ext file (.rbrc :: (m.enc.reverse ++ .lbrc :: r)) 0 cur n' =
        walk s l x obj ext file (m.enc.reverse ++ .lbrc :: r) 0 cur .rbrc := fun n' => by simp [walk]
    simp only [Items.decls, Items.enc, List.reverse_append, List.append_assoc, List.reverse_cons, List.singleton_append, List.cons_append,
      List.find?_append, List.reverse_nil, List.nil_append]
    cases hf : it.decls.reverse.find? (hit x cur) with
    | some d =>
      rw [hf] at ih
      obtain ⟨h1, A, B, n', h2, h3⟩ := ih
      exact ⟨h1, .lbrc :: m.enc ++ .rbrc :: A, B, n', by simp [h2], by simpa using h3⟩
    | none =>
      rw [hf] at ih
      obtain ⟨n', h3⟩ := ih
      rw [Option.none_or]
      cases hm : m.decls.reverse.find? (hit x cur) with
      | some d =>
        rw [hm] at im
        obtain ⟨h1, A, B, n2, h2, h4⟩ := im
        exact ⟨h1, .lbrc :: A, B ++ .rbrc :: it.enc, n2, by simp [h2], by rw [h3, e, h4]; simp⟩
      | none =>
        rw [hm] at im
        obtain ⟨n2, h4⟩ := im
        exact ⟨.lbrc, by rw [h3, e, h4]; simp [walk]⟩

end

/-- at a declaration with linkage of an outer scope -/
theorem walk_ext (s : List E) (l x : Nat) (t : Ty) (r : List E) (n : E) (file : Bool) :
    walk s l x true true file ((Decl.enc ⟨x, .ext t⟩).reverse ++ r) 0 false n = against s l r.length := by
  simp only [Decl.enc, List.reverse_cons, List.append_assoc, List.singleton_append, List.reverse_nil, List.nil_append, List.cons_append]
  rw [walk_ty]; simp [walk, cls_head]

/-- at a declaration of the current scope -/
theorem walk_cur (s : List E) (l x : Nat) (d : Decl) (hd : d.name = x) (r : List E) (n : E) (obj ext file : Bool)
    (hf : file = true → d.local = false ∧ (obj = true → ext = true)) (ho : obj = false → ext = false) :
    walk s l x obj ext file (d.enc.reverse ++ r) 0 true n =
      if ext = true ∧ d.linked = true then against s l r.length else .error := by
  obtain ⟨y, k⟩ := d
  simp only at hd; subst hd
  cases k with
  | ext t =>
    simp only [Decl.enc, List.reverse_cons, List.append_assoc, List.singleton_append, List.reverse_nil, List.nil_append, List.cons_append]
    rw [walk_ty]
    cases obj <;> cases ext <;> cases file <;> simp_all [walk, cls_head, Decl.linked, Decl.local]
  | auto t =>
    simp only [Decl.enc, List.reverse_cons, List.append_assoc, List.singleton_append, List.reverse_nil, List.nil_append, List.cons_append]
    rw [walk_ty]
    cases obj <;> cases ext <;> cases file <;> simp_all [walk, cls, Decl.linked, Decl.local]
  | stat t =>
    simp only [Decl.enc, List.reverse_cons, List.append_assoc, List.singleton_append, List.reverse_nil, List.nil_append, List.cons_append]
    rw [walk_ty]
    cases obj <;> cases ext <;> cases file <;> simp_all [walk, cls, Decl.linked, Decl.local]
  | tdef t =>
    simp only [Decl.enc, List.reverse_cons, List.append_assoc, List.singleton_append, List.reverse_nil, List.nil_append, List.cons_append]
    rw [walk_ty]
    simp [walk, Decl.linked]
  | enum =>
    simp only [Decl.enc, List.reverse_cons, List.reverse_nil, List.nil_append, List.append_assoc, List.singleton_append, List.cons_append]
    simp [walk, cls, Decl.linked]

theorem encAll_cons (it : Items) (r : List Items) (h : r ≠ []) : encAll (it :: r) = encAll r ++ .hash :: it.enc := by
  cases r with
  | nil => exact absurd rfl h
  | cons a r => rfl

/-- through outer scopes -/
theorem walk_outer (s : List E) (l x : Nat) (file : Bool) : (scopes : List Items) → (∀ it ∈ scopes, it.deep) → ∀ n,
    match (declsAll scopes).reverse.find? (hit x false) with
    | none => walk s l x true true file (encAll scopes).reverse 0 false n = .ok s
    | some d => d.deep ∧ ∃ A B n', encAll scopes = A ++ (d.enc ++ B) ∧
        walk s l x true true file (encAll scopes).reverse 0 false n = walk s l x true true file (d.enc.reverse ++ A.reverse) 0 false n'
  | [], _, n => by simp [declsAll, encAll, walk]
  | [it], h, n => by
    have := walk_items s l x true true file false it (h it (by simp)) [] n
    simp only [declsAll, List.nil_append, encAll]
    cases hf : it.decls.reverse.find? (hit x false) with
    | some d => rw [hf] at this; simpa using this
    | none =>
      rw [hf] at this
      obtain ⟨n', h⟩ := this
      simpa [walk] using h
  | it :: a :: r, h, n => by
    have hi := walk_items s l x true true file false it (h it (by simp)) (.hash :: (encAll (a :: r)).reverse) n
    have ih := walk_outer s l x file (a :: r) (fun b hb => h b (List.mem_cons_of_mem _ hb)) .hash
    rw [encAll_cons _ _ (by simp)]
    rw [show declsAll (it :: a :: r) = declsAll (a :: r) ++ it.decls from rfl]
    simp only [List.reverse_append, List.find?_append, List.reverse_cons, List.append_assoc, List.singleton_append, List.reverse_nil, List.nil_append, List.cons_append]
    cases hf : it.decls.reverse.find? (hit x false) with
    | some d =>
      rw [hf] at hi
      obtain ⟨h1, A, B, n', h2, h3⟩ := hi
      refine ⟨h1, encAll (a :: r) ++ .hash :: A, B, n', by simp [h2], ?_⟩
      simpa using h3
    | none =>
      rw [hf] at hi
      obtain ⟨n', h3⟩ := hi
      rw [Option.none_or, h3]
      have e : walk s l x true true file (.hash :: (encAll (a :: r)).reverse) 0 false n' =
          walk s l x true true file (encAll (a :: r)).reverse 0 false .hash := by simp [walk]
      rw [e]
      cases hg : (declsAll (a :: r)).reverse.find? (hit x false) with
      | none => rw [hg] at ih; exact ih
      | some d =>
        rw [hg] at ih
        obtain ⟨h1, A, B, n2, h2, h4⟩ := ih
        exact ⟨h1, A, B ++ .hash :: it.enc, n2, by simp [h2], h4⟩

/-- the first entry of a declaration -/
def top (d : Decl) : E := match d.kind with
  | .tdef _ => .tdef d.name
  | _ => .ty (.ident (some d.name))

/-- the entries of a new declaration, and its kind, as `checkRedecl` sees them -/
theorem check_eq (T B : List E) (d : Decl) (file : Bool) :
    checkRedecl (T ++ (d.enc ++ B)) T.length file =
      walk (T ++ (d.enc ++ B)) T.length d.name (d.linked || d.local) d.linked file T.reverse 0 true (top d) := by
  obtain ⟨x, k⟩ := d
  have h0 : ∀ (e : E) (r : List E), (T ++ (e :: r))[T.length]? = some e := by simp
  have h1 : ∀ (e e' : E) (r : List E), (T ++ (e :: e' :: r))[T.length + 1]? = some e' := fun e e' r => by
    rw [List.getElem?_append_right (by omega)]; simp
  cases k with
  | ext t =>
    obtain ⟨r, hr⟩ := tyE_head t
    simp only [checkRedecl, Decl.enc, List.cons_append, hr, h0, h1, cls_head, List.take_left, Decl.linked, Decl.local, top]
    simp
  | auto t => simp [checkRedecl, Decl.enc, h1, cls, Decl.linked, Decl.local, top]
  | stat t => simp [checkRedecl, Decl.enc, h1, cls, Decl.linked, Decl.local, top]
  | tdef t => simp [checkRedecl, Decl.enc, Decl.linked, Decl.local, top]
  | enum => simp [checkRedecl, Decl.enc, h1, cls, Decl.linked, Decl.local, top]

theorem linked_ext (d : Decl) (h : d.linked = true) : ∃ t, d = ⟨d.name, .ext t⟩ := by
  obtain ⟨x, k⟩ := d
  cases k <;> simp [Decl.linked] at h ⊢

/-- what `prior` finds -/
theorem prior_find (x : Nat) (ds : List Decl) :
    prior x ds = (ds.reverse.find? (hit x false)).bind fun d => match d.kind with | .ext t => some t | _ => none := by
  unfold prior
  generalize ds.reverse = l
  induction l with
  | nil => rfl
  | cons d l ih =>
    obtain ⟨y, k⟩ := d
    cases k <;> simp only [List.findSome?_cons, List.find?_cons, hit, Decl.linked, Bool.false_or, Bool.and_false, Bool.or_false, Bool.and_true] at ih ⊢
    case ext t =>
      by_cases hy : y = x
      · simp [hy]
      · simp only [hy, if_false, decide_false]; exact ih
    all_goals exact ih

theorem hit_iff (x : Nat) (d : Decl) : hit x true d = decide (d.name = x) := by simp [hit]

/-- the comparison with the declaration found, at any place of the table -/
theorem against_at (A B C : List E) (x y : Nat) (N O : Ty) (hN : N.deep) (hO : O.deep) (T : List E)
    (hT : T = A ++ (Decl.enc ⟨y, .ext O⟩ ++ B)) :
    against (T ++ (Decl.enc ⟨x, .ext N⟩ ++ C)) T.length A.length =
      if acc N O then .ok (T ++ (Decl.enc ⟨x, .ext (mrg N O)⟩ ++ C)) else .error := by
  have := against_eq A B C (.ty (.ident (some y))) rfl rfl x N O hN hO
  subst hT
  simpa [Decl.enc] using this

/-! ### members -/

theorem mem_plain (s : List E) (y : Nat) (e : E) (r : List E) (c : Nat) (n : E) (hc : c ≠ 0)
    (h1 : e ≠ .ty .lpar) (h2 : e ≠ .ty .rpar) (h3 : e ≠ .lbrc) (h4 : e ≠ .rbrc) (h5 : c = 1 → e ≠ .mem y) :
    walkMem s y (e :: r) c n = walkMem s y r c e := by
  rw [walkMem]
  simp only [h1, h2, h3, h4, or_self, if_false, hc]
  rw [if_neg]
  rintro ⟨a, b, -⟩
  exact h5 a b

mutual
theorem mem_ty (s : List E) (y : Nat) : (t : Ty) → ∀ (r : List E) (c : Nat) (n : E), c ≠ 0 →
    walkMem s y ((tyE t).reverse ++ r) c n = walkMem s y r c (headTy t)
  | .base b, r, c, n, hc => by
    simp only [tyE_base, List.reverse_singleton, List.singleton_append]
    rw [mem_plain _ _ _ _ _ _ hc] <;> simp [headTy]
  | .ptr t, r, c, n, hc => by
    simp only [tyE_ptr, List.reverse_cons, List.append_assoc, List.singleton_append, List.reverse_nil, List.nil_append, List.cons_append]
    rw [mem_ty s y t _ _ _ hc, mem_plain _ _ _ _ _ _ hc] <;> simp [headTy]
  | .arr m t, r, c, n, hc => by
    simp only [tyE_arr, List.reverse_cons, List.append_assoc, List.singleton_append, List.reverse_nil, List.nil_append, List.cons_append]
    rw [mem_ty s y t _ _ _ hc, mem_plain _ _ _ _ _ _ hc, mem_plain _ _ _ _ _ _ hc, mem_plain _ _ _ _ _ _ hc] <;> simp [headTy]
  | .fn ps t, r, c, n, hc => by
    simp only [tyE_fn, List.reverse_append, List.reverse_cons, List.append_assoc, List.singleton_append, List.cons_append, List.reverse_nil, List.nil_append]
    rw [mem_ty s y t _ _ _ hc, walkMem]
    simp only [reduceCtorEq, or_self, or_false, if_true, if_false, false_and, and_false, E.ty.injEq]
    rw [mem_ps s y ps r c _ hc]
    rfl
theorem mem_ps (s : List E) (y : Nat) : (ps : Ps) → ∀ (r : List E) (c : Nat) (n : E), c ≠ 0 →
    walkMem s y ((psE ps).reverse ++ .ty .lpar :: r) (c + 1) n = walkMem s y r c (.ty .lpar)
  | .unknown, r, c, n, hc => by
    simp only [psE_unknown, List.reverse_nil, List.nil_append]
    rw [walkMem]; simp [hc]
  | .nil, r, c, n, hc => by
    simp only [psE_nil, List.reverse_cons, List.reverse_nil, List.nil_append, List.append_assoc, List.singleton_append, List.cons_append]
    rw [mem_plain _ _ _ _ _ _ (by omega), mem_plain _ _ _ _ _ _ (by omega), walkMem] <;> simp [hc]
  | .dots, r, c, n, hc => by
    simp only [psE_dots, List.reverse_cons, List.reverse_nil, List.nil_append, List.append_assoc, List.singleton_append, List.cons_append]
    rw [mem_plain _ _ _ _ _ _ (by omega), mem_plain _ _ _ _ _ _ (by omega), walkMem] <;> simp [hc]
  | .cons z t ps, r, c, n, hc => by
    simp only [psE_cons, List.reverse_append, List.reverse_cons, List.append_assoc, List.singleton_append, List.cons_append, List.reverse_nil, List.nil_append]
    obtain ⟨n', h⟩ := mem_ps' s y ps ((tyE t).reverse ++ .ty (.ident z) :: .ty .lpar :: r) (c + 1) n (by omega)
    rw [h, mem_ty s y t _ _ _ (by omega), mem_plain _ _ _ _ _ _ (by omega), walkMem] <;> simp [hc]
theorem mem_ps' (s : List E) (y : Nat) : (ps : Ps) → ∀ (r : List E) (c : Nat) (n : E), c ≠ 0 →
    ∃ n', walkMem s y ((psE' ps).reverse ++ r) c n = walkMem s y r c n'
  | .unknown, r, c, n, hc => ⟨n, by simp⟩
  | .nil, r, c, n, hc => ⟨n, by simp⟩
  | .dots, r, c, n, hc => by
    simp only [psE'_dots, List.reverse_cons, List.reverse_nil, List.nil_append, List.append_assoc, List.singleton_append, List.cons_append]
    rw [mem_plain _ _ _ _ _ _ hc, mem_plain _ _ _ _ _ _ hc]
    · exact ⟨_, rfl⟩
    all_goals simp
  | .cons z t ps, r, c, n, hc => by
    simp only [psE'_cons, List.reverse_append, List.reverse_cons, List.append_assoc, List.singleton_append, List.cons_append, List.reverse_nil, List.nil_append]
    obtain ⟨n', h⟩ := mem_ps' s y ps ((tyE t).reverse ++ .ty (.ident z) :: r) c n hc
    refine ⟨.ty (.ident z), ?_⟩
    rw [h, mem_ty s y t _ _ _ hc, mem_plain _ _ _ _ _ _ hc] <;> simp
end

theorem mem_decl (s : List E) (y : Nat) (d : Decl) (r : List E) (c : Nat) (n : E) (hc : c ≠ 0) :
    ∃ n', walkMem s y (d.enc.reverse ++ r) c n = walkMem s y r c n' := by
  obtain ⟨x, k⟩ := d
  cases k <;> simp only [Decl.enc, List.reverse_cons, List.reverse_nil, List.nil_append, List.append_assoc, List.singleton_append, List.cons_append]
  case ext t =>
    refine ⟨.ty (.ident (some x)), ?_⟩
    rw [mem_ty s y t _ _ _ hc, mem_plain _ _ _ _ _ _ hc] <;> simp
  case auto t =>
    refine ⟨.ty (.ident (some x)), ?_⟩
    rw [mem_ty s y t _ _ _ hc, mem_plain _ _ _ _ _ _ hc, mem_plain _ _ _ _ _ _ hc] <;> simp
  case stat t =>
    refine ⟨.ty (.ident (some x)), ?_⟩
    rw [mem_ty s y t _ _ _ hc, mem_plain _ _ _ _ _ _ hc, mem_plain _ _ _ _ _ _ hc] <;> simp
  case tdef t =>
    refine ⟨.tdef x, ?_⟩
    rw [mem_ty s y t _ _ _ hc, mem_plain _ _ _ _ _ _ hc] <;> simp
  case enum =>
    refine ⟨.ty (.ident (some x)), ?_⟩
    rw [mem_plain _ _ _ _ _ _ hc, mem_plain _ _ _ _ _ _ hc] <;> simp

/-- over members: those of the structure itself count, those of structures in it do not -/
theorem mem_items (s : List E) (y : Nat) : (it : Items) → ∀ (r : List E) (c : Nat) (n : E), c ≠ 0 →
    (¬(c = 1 ∧ y ∈ it.fields) → ∃ n', walkMem s y (it.enc.reverse ++ r) c n = walkMem s y r c n') ∧
    (c = 1 ∧ y ∈ it.fields → walkMem s y (it.enc.reverse ++ r) c n = .error)
  | .nil, r, c, n, hc => by simp [Items.fields, Items.enc]; exact ⟨n, rfl⟩
  | .decl d it, r, c, n, hc => by
    simp only [Items.fields, Items.enc, List.reverse_append, List.append_assoc]
    obtain ⟨h1, h2⟩ := mem_items s y it (d.enc.reverse ++ r) c n hc
    refine ⟨fun h => ?_, h2⟩
    obtain ⟨n1, e⟩ := h1 h
    obtain ⟨n2, e'⟩ := mem_decl s y d r c n1 hc
    exact ⟨n2, by rw [e, e']⟩
  | .anon t it, r, c, n, hc => by
    simp only [Items.fields, Items.enc, List.reverse_append, List.append_assoc, List.reverse_cons, List.singleton_append, List.cons_append, List.reverse_nil, List.nil_append]
    obtain ⟨h1, h2⟩ := mem_items s y it ((tyE t).reverse ++ .ty (.ident none) :: r) c n hc
    refine ⟨fun h => ?_, h2⟩
    obtain ⟨n1, e⟩ := h1 h
    refine ⟨.ty (.ident none), ?_⟩
    rw [e, mem_ty s y t _ _ _ hc, mem_plain _ _ _ _ _ _ hc] <;> simp
  | .other it, r, c, n, hc => by
    simp only [Items.fields, Items.enc, List.append_assoc, List.reverse_cons, List.singleton_append, List.reverse_nil, List.nil_append, List.cons_append]
    obtain ⟨h1, h2⟩ := mem_items s y it (.other :: r) c n hc
    refine ⟨fun h => ?_, h2⟩
    obtain ⟨n1, e⟩ := h1 h
    refine ⟨.other, ?_⟩
    rw [e, mem_plain _ _ _ _ _ _ hc] <;> simp
  | .field z t it, r, c, n, hc => by
    simp only [Items.fields, Items.enc, List.reverse_append, List.append_assoc, List.reverse_cons, List.singleton_append, List.cons_append,
      List.mem_cons, List.reverse_nil, List.nil_append]
    obtain ⟨h1, h2⟩ := mem_items s y it ((tyE t).reverse ++ .lofs :: .mem z :: r) c n hc
    have e1 : ∀ n, walkMem s y ((tyE t).reverse ++ .lofs :: .mem z :: r) c n = walkMem s y (.mem z :: r) c .lofs := fun n => by
      rw [mem_ty s y t _ _ _ hc, mem_plain _ _ _ _ _ _ hc] <;> simp
    by_cases hi : c = 1 ∧ y ∈ it.fields
    · exact ⟨fun h => absurd ⟨hi.1, .inr hi.2⟩ h, fun _ => h2 hi⟩
    · obtain ⟨n1, e⟩ := h1 hi
      rw [e, e1]
      by_cases hz : c = 1 ∧ y = z
      · refine ⟨fun h => absurd ⟨hz.1, .inl hz.2⟩ h, fun _ => ?_⟩
        rw [walkMem]; simp [hz]
      · refine ⟨fun _ => ⟨.mem z, ?_⟩, fun h => absurd h (by
          rintro ⟨a, b | b⟩
          · exact hz ⟨a, b⟩
          · exact hi ⟨a, b⟩)⟩
        rw [mem_plain _ _ _ _ _ _ hc] <;> simp
        intro a b; exact hz ⟨a, b.symm⟩
  | .body m it, r, c, n, hc => by
    simp only [Items.fields, Items.enc, List.reverse_append, List.append_assoc, List.reverse_cons, List.singleton_append, List.cons_append, List.reverse_nil, List.nil_append]
    obtain ⟨h1, h2⟩ := mem_items s y it (.rbrc :: (m.enc.reverse ++ .lbrc :: r)) c n hc
    refine ⟨fun h => ?_, h2⟩
    obtain ⟨n1, e⟩ := h1 h
    obtain ⟨n2, e2⟩ := (mem_items s y m (.lbrc :: r) (c + 1) .rbrc (by omega)).1 (by omega)
    refine ⟨.lbrc, ?_⟩
    rw [e, walkMem]
    simp only [reduceCtorEq, or_self, or_true, or_false, if_true, if_false, false_and, and_false, false_or]
    rw [e2, walkMem]
    simp [hc]

end Smlr.Redecl
