import Verif.Scope.Types
/-!
# Scopes: declarations, blocks and functions
-/
set_option autoImplicit false

namespace Smlr.Scope

theorem data_ok : ∀ (es : List Expr) {e : Env} {a : List SEv} {st : List Tk} (tr : List Ev),
    sData es e = some a → Free a → Inv [] st e → data es ⟨st, tr⟩ = some ⟨st, tr ++ evs a⟩
  | [], e, a, st, tr, h, hf, hI => by
    simp only [sData, Option.some.injEq] at h
    subst h
    simp [data]
  | x :: r, e, a, st, tr, h, hf, hI => by
    rw [sData] at h
    obtain ⟨⟨e1, a1⟩, h1, h⟩ := Option.bind_eq_some_iff.mp h
    obtain ⟨a2, h2, h⟩ := Option.bind_eq_some_iff.mp h
    simp only [Option.some.injEq] at h
    subst h
    obtain ⟨l1, m1, _⟩ := expr_ok [] false x tr h1 hf.left hI
    have m2 := data_ok r (tr ++ evs a1) h2 hf.right hI
    rw [data, m1]
    simp only [Option.bind_some, S.cut]
    rw [take_mid, m2]
    simp

theorem init_ok {x id p : Nat} {i : Init} {e e' : Env} {a : List SEv} {st : List Tk} (tr : List Ev)
    (h : sInit x i e = some (e', a)) (hf : Free a) (hI : Inv [] st e) (hp : st[p]? = some (.ident (.id x) id)) :
    ∃ l, init p i ⟨st, tr⟩ = some ⟨st ++ l, tr ++ evs a⟩ ∧ Inv [] (st ++ l) e' := by
  cases i with
  | none =>
    simp only [sInit, Option.some.injEq, Prod.mk.injEq] at h
    obtain ⟨rfl, rfl⟩ := h
    exact ⟨[], by simp [init], by simpa using hI⟩
  | data es =>
    rw [sInit] at h
    obtain ⟨a1, h1, h⟩ := Option.bind_eq_some_iff.mp h
    simp only [Option.some.injEq, Prod.mk.injEq] at h
    obtain ⟨rfl, rfl⟩ := h
    refine ⟨[], ?_, by simpa using hI⟩
    rw [init, data_ok es tr h1 hf hI]
    simp
  | assign v =>
    rw [sInit] at h
    obtain ⟨⟨e1, a1⟩, h1, h⟩ := Option.bind_eq_some_iff.mp h
    obtain ⟨⟨e2, a2⟩, h2, h⟩ := Option.bind_eq_some_iff.mp h
    simp only [Option.some.injEq, Prod.mk.injEq] at h
    obtain ⟨rfl, rfl⟩ := h
    obtain ⟨l1, m1, i1⟩ := expr_ok [] false v tr h1 hf.left hI
    obtain ⟨l2, m2, i2⟩ := name_ok (tr ++ evs a1) h2 hf.right i1
    refine ⟨l1 ++ l2, ?_, by simpa using i2⟩
    rw [init]
    dsimp only
    rw [hp]
    dsimp only
    rw [m1]
    simp only [Option.bind_some]
    rw [m2]
    simp

theorem TyOk.lpar_iff {l : List Tk} (h : TyOk l) (st : List Tk) (i : Tk) : (st ++ i :: l)[st.length + 1]? = some .lpar ↔ hdOf l = .fn := by
  cases h <;> (try rw [List.cons_append]) <;> rw [get_mid1] <;> simp [hdOf]

theorem mark_ok {T : List Tk} (hT : TyOk T) (blk : Bool) {sto : Sto} (hs : sto ≠ .typedef) (st : List Tk) (i : Tk) :
    ∃ t l, mark blk sto st.length (st ++ i :: T) = st ++ i :: t :: l ∧ Closed (t :: l) ∧ HasCls (clsOf blk sto (hdOf T)) t := by
  have hl := hT.lpar_iff st i
  obtain ⟨t, r, hr, ht⟩ := hT.head
  have hcl := hT.closed
  unfold mark
  by_cases hf : hdOf T = .fn
  · rw [if_pos (.inl (hl.mpr hf))]
    rw [hr] at hcl ⊢
    refine ⟨t, r, rfl, hcl, ?_⟩
    rw [hr] at hf
    have hc : clsOf blk sto (hdOf (t :: r)) = .plain := by simp [clsOf, hf]
    rw [hc]; exact ht
  · rw [if_neg (by rintro (h | h); exact hf (hl.mp h); exact hs h)]
    rw [insert_mid, insert_mid]
    cases blk with
    | false =>
      simp only [Bool.false_eq_true, false_and, if_false]
      rw [hr] at hcl ⊢
      refine ⟨t, r, rfl, hcl, ?_⟩
      have hc : clsOf false sto (hdOf (t :: r)) = .plain := by simp [clsOf]
      rw [hc]; exact ht
    | true =>
      cases sto with
      | none =>
        refine ⟨.lofs, T, by simp, .cons rfl hcl, ?_⟩
        simp [clsOf, hf, HasCls]
      | static =>
        refine ⟨.ident .num 0, T, by simp, .cons rfl hcl, ?_⟩
        simp [clsOf, hf, HasCls]
      | extern =>
        refine ⟨t, r, by simp [hr], hr ▸ hcl, ?_⟩
        simp only [clsOf, hf, HasCls]
        simpa using ht
      | typedef => exact absurd rfl hs

theorem declr_ok (blk : Bool) (sto : Sto) (B : B) (h : Hd) : ∀ (ds : List (Dr × Init)) {e e' : Env} {a : List SEv} {st : List Tk} (tr : List Ev),
    sDeclr blk sto h ds e = some (e', a) → Free a → Inv [] st e → BOk st B h →
    ∃ l, declr blk sto B ds ⟨st, tr⟩ = some ⟨st ++ l, tr ++ evs a⟩ ∧ Inv [] (st ++ l) e'
  | [], e, e', a, st, tr, hs, hf, hI, hB => by
    simp only [sDeclr, Option.some.injEq, Prod.mk.injEq] at hs
    obtain ⟨rfl, rfl⟩ := hs
    exact ⟨[], by simp [declr], by simpa using hI⟩
  | (d, i) :: r, e, e', a, st, tr, hs, hf, hI, hB => by
    rw [sDeclr] at hs
    split at hs
    · cases hs
    rename_i x id hn
    obtain ⟨a1, h1, hs⟩ := Option.bind_eq_some_iff.mp hs
    have hfa : Free a1 := by
      split at hs
      · obtain ⟨_, _, hs⟩ := Option.bind_eq_some_iff.mp hs
        simp only [Option.some.injEq, Prod.mk.injEq] at hs
        rw [← hs.2] at hf; exact hf.left
      · obtain ⟨_, _, hs⟩ := Option.bind_eq_some_iff.mp hs
        obtain ⟨_, _, hs⟩ := Option.bind_eq_some_iff.mp hs
        simp only [Option.some.injEq, Prod.mk.injEq] at hs
        rw [← hs.2] at hf; exact hf.left.left
    obtain ⟨q, m1, hq, he⟩ := dr_ok [x] false d tr h1 hfa (hI.weaken (P' := [x]) (by simp)) (by
      intro y j hy; rw [hn] at hy; simp only [Option.some.injEq, Prod.mk.injEq] at hy; simp [hy.1])
    obtain ⟨ty, m2, hty, hth⟩ := pushBase_ok (hB.ext (nmOf (dname d) :: q)) (tr ++ evs a1)
    have hT := hq.ty hty
    have hhd := hd_eq he.1 hth
    rw [hn] at m1 m2
    rw [declr, m1]
    simp only [Option.bind_some]
    rw [m2]
    simp only [Option.bind_some]
    rw [show st ++ nmOf (some (x, id)) :: q ++ ty = st ++ .ident (.id x) id :: (q ++ ty) by simp [nmOf]]
    by_cases ht : sto = .typedef
    · rw [if_pos ht] at hs
      obtain ⟨⟨e2, a2⟩, h2, hs⟩ := Option.bind_eq_some_iff.mp hs
      simp only [Option.some.injEq, Prod.mk.injEq] at hs
      obtain ⟨rfl, rfl⟩ := hs
      have hm : mark blk sto st.length (st ++ .ident (.id x) id :: (q ++ ty)) = st ++ .ident (.id x) id :: (q ++ ty) := by
        rw [mark, if_pos (.inr ht)]
      have i1 := hI.addTd hT x id
      rw [hhd] at i1
      obtain ⟨l3, m3, i3⟩ := declr_ok blk sto B h r (tr ++ evs a1) h2 hf.right i1 (hB.ext _)
      refine ⟨.tdef (.id x) id :: (q ++ ty) ++ l3, ?_, by simpa using i3⟩
      rw [if_pos ht, hm, get_mid]
      dsimp only
      rw [set_mid, m3]
      simp
    · rw [if_neg ht] at hs
      obtain ⟨⟨e2, a2⟩, h2, hs⟩ := Option.bind_eq_some_iff.mp hs
      obtain ⟨⟨e3, a3⟩, h3, hs⟩ := Option.bind_eq_some_iff.mp hs
      simp only [Option.some.injEq, Prod.mk.injEq] at hs
      obtain ⟨rfl, rfl⟩ := hs
      obtain ⟨t, l, hm, hcl, hcs⟩ := mark_ok hT blk ht st (.ident (.id x) id)
      rw [hhd] at hcs
      have i1 := hI.add hcl x id hcs
      obtain ⟨l2, m3, i2⟩ := init_ok (p := st.length) (tr ++ evs a1) h2 hf.left.right i1 (get_mid _ _ _)
      obtain ⟨l3, m4, i3⟩ := declr_ok blk sto B h r (tr ++ evs a1 ++ evs a2) h3 hf.right i2 ((hB.ext _).ext _)
      refine ⟨.ident (.id x) id :: t :: l ++ l2 ++ l3, ?_, by simpa using i3⟩
      rw [if_neg ht, hm, m3]
      simp only [Option.bind_some]
      rw [m4]
      simp

theorem decl_ok (blk : Bool) (d : Decl) {e e' : Env} {a : List SEv} {st : List Tk} (tr : List Ev)
    (h : sDecl blk d e = some (e', a)) (hf : Free a) (hI : Inv [] st e) :
    ∃ l, decl blk d ⟨st, tr⟩ = some ⟨st ++ l, tr ++ evs a⟩ ∧ Inv [] (st ++ l) e' := by
  unfold sDecl at h
  obtain ⟨⟨e1, a1, hh⟩, h1, h⟩ := Option.bind_eq_some_iff.mp h
  obtain ⟨⟨e2, a2⟩, h2, h⟩ := Option.bind_eq_some_iff.mp h
  simp only [Option.some.injEq, Prod.mk.injEq] at h
  obtain ⟨rfl, rfl⟩ := h
  obtain ⟨l1, B, m1, i1, hB, _, _⟩ := base_ok [] false false d.base tr h1 hf.left hI
  obtain ⟨l2, m2, i2⟩ := declr_ok blk d.sto B hh d.ds (tr ++ evs a1) h2 hf.right i1 hB
  refine ⟨l1 ++ l2, ?_, by simpa using i2⟩
  rw [decl, m1]
  simp only [Option.bind_some]
  rw [m2]
  simp

theorem tagDecl_ok (b : Base) {e e' : Env} {a : List SEv} {st : List Tk} (tr : List Ev)
    (h : sTagDecl b e = some (e', a)) (hf : Free a) (hI : Inv [] st e) :
    ∃ l, tagDecl b ⟨st, tr⟩ = some ⟨st ++ l, tr ++ evs a⟩ ∧ Inv [] (st ++ l) e' := by
  cases b with
  | void => cases h
  | prim => cases h
  | tdef x => cases h
  | ref k x id =>
    unfold sTagDecl at h
    obtain ⟨⟨e1, a1, hh⟩, h1, h⟩ := Option.bind_eq_some_iff.mp h
    have hfa : a1 = a := by
      dsimp only at h
      split at h
      · split at h
        · simp only [Option.some.injEq, Prod.mk.injEq] at h; exact h.2
        · simp only [Option.some.injEq, Prod.mk.injEq] at h; exact h.2
      · simp only [Option.some.injEq, Prod.mk.injEq] at h; exact h.2
    subst hfa
    obtain ⟨l1, B, m1, i1, hB, hsh, _⟩ := base_ok [] false false (.ref k x id) tr h1 hf hI
    have hsh : B = .one (if k = .enum then .eptr else .sptr) := hsh
    subst hsh
    rw [tagDecl, m1]
    simp only [Option.bind_some, S.push]
    by_cases hk : k = .enum
    · subst hk
      have he : e1 = e' := by
        dsimp only at h
        split at h
        · simpa using h
        · simpa using h
      subst he
      refine ⟨l1 ++ [.ident .something 0, .eptr], by simp, ?_⟩
      have := i1.anon (l := [.eptr]) (.one rfl) 0
      simpa using this
    · simp only [hk, if_false]
      have ht : List.take (st ++ l1).length (st ++ l1 ++ [Tk.ident .something 0] ++ [Tk.sptr]) = st ++ l1 := by
        rw [List.append_assoc, take_mid]
      rw [ht]
      have i2 := i1.anon (l := [.sptr]) (.one rfl) 0
      have hg := i1.tg x
      dsimp only at h
      cases hl : tlookup x e1.tags true with
      | none =>
        rw [hl] at h hg
        simp only [Option.some.injEq, Prod.mk.injEq, and_true] at h
        subst h
        have ha : findTagged (.id x) (st ++ l1) = .absent := hg
        rw [ha]
        exact ⟨l1 ++ [.ident .something 0, .sptr], by simp, by simpa using i2⟩
      | some o =>
        obtain ⟨t, cur⟩ := o
        rw [hl] at h hg
        obtain ⟨p, hp, _⟩ := tag_found hg
        rw [hp]
        cases cur with
        | true =>
          simp only [Option.some.injEq, Prod.mk.injEq, and_true] at h
          subst h
          exact ⟨l1 ++ [.ident .something 0, .sptr], by simp, by simpa using i2⟩
        | false =>
          simp only [hk, if_false, Option.some.injEq, Prod.mk.injEq, and_true] at h
          subst h
          have i3 := i2.addTag (l := []) (fun hit _ => .nil _) x id k (b := false) (by simp)
          exact ⟨l1 ++ [.ident .something 0, .sptr, .kw k, .tag (.id x) id], by simp, by simpa using i3⟩
  | «def» k x id ms =>
    cases x with
    | none => cases h
    | some x =>
      unfold sTagDecl at h
      obtain ⟨⟨e1, a1, hh⟩, h1, h⟩ := Option.bind_eq_some_iff.mp h
      simp only [Option.some.injEq, Prod.mk.injEq] at h
      obtain ⟨rfl, rfl⟩ := h
      obtain ⟨l1, B, m1, i1, hB, hsh, _⟩ := base_ok [] false false _ tr h1 hf hI
      have hsh : B = .one .sptr := hsh
      subst hsh
      rw [tagDecl, m1]
      simp only [Option.bind_some, S.push]
      have i2 := i1.anon (l := [.sptr]) (.one rfl) 0
      exact ⟨l1 ++ [.ident .something 0, .sptr], by simp, by simpa using i2⟩
  | enm x id es =>
    unfold sTagDecl at h
    obtain ⟨⟨e1, a1, hh⟩, h1, h⟩ := Option.bind_eq_some_iff.mp h
    simp only [Option.some.injEq, Prod.mk.injEq] at h
    obtain ⟨rfl, rfl⟩ := h
    obtain ⟨l1, B, m1, i1, hB, hsh, _⟩ := base_ok [] false false _ tr h1 hf hI
    have hsh : B = .one .eptr := hsh
    subst hsh
    rw [tagDecl, m1]
    simp only [Option.bind_some, S.push]
    have i2 := i1.anon (l := [.eptr]) (.one rfl) 0
    exact ⟨l1 ++ [.ident .something 0, .eptr], by simp, by simpa using i2⟩

theorem items_ok : ∀ (b : Items) {e e' : Env} {a : List SEv} {st : List Tk} (tr : List Ev),
    sItems b e = some (e', a) → Free a → Inv [] st e →
    ∃ l, items b ⟨st, tr⟩ = some ⟨st ++ l, tr ++ evs a⟩ ∧ Inv [] (st ++ l) e'
  | .nil, e, e', a, st, tr, h, hf, hI => by
    simp only [sItems, Option.some.injEq, Prod.mk.injEq] at h
    obtain ⟨rfl, rfl⟩ := h
    exact ⟨[], by simp [items], by simpa using hI⟩
  | .decl d r, e, e', a, st, tr, h, hf, hI => by
    rw [sItems] at h
    obtain ⟨⟨e1, a1⟩, h1, h⟩ := Option.bind_eq_some_iff.mp h
    obtain ⟨⟨e2, a2⟩, h2, h⟩ := Option.bind_eq_some_iff.mp h
    simp only [Option.some.injEq, Prod.mk.injEq] at h
    obtain ⟨rfl, rfl⟩ := h
    obtain ⟨l1, m1, i1⟩ := decl_ok true d tr h1 hf.left hI
    obtain ⟨l2, m2, i2⟩ := items_ok r (tr ++ evs a1) h2 hf.right i1
    refine ⟨l1 ++ l2, ?_, by simpa using i2⟩
    rw [items, m1]
    simp only [Option.bind_some]
    rw [m2]; simp
  | .tag t r, e, e', a, st, tr, h, hf, hI => by
    rw [sItems] at h
    obtain ⟨⟨e1, a1⟩, h1, h⟩ := Option.bind_eq_some_iff.mp h
    obtain ⟨⟨e2, a2⟩, h2, h⟩ := Option.bind_eq_some_iff.mp h
    simp only [Option.some.injEq, Prod.mk.injEq] at h
    obtain ⟨rfl, rfl⟩ := h
    obtain ⟨l1, m1, i1⟩ := tagDecl_ok t tr h1 hf.left hI
    obtain ⟨l2, m2, i2⟩ := items_ok r (tr ++ evs a1) h2 hf.right i1
    refine ⟨l1 ++ l2, ?_, by simpa using i2⟩
    rw [items, m1]
    simp only [Option.bind_some]
    rw [m2]; simp
  | .expr x r, e, e', a, st, tr, h, hf, hI => by
    rw [sItems] at h
    obtain ⟨⟨e1, a1⟩, h1, h⟩ := Option.bind_eq_some_iff.mp h
    obtain ⟨⟨e2, a2⟩, h2, h⟩ := Option.bind_eq_some_iff.mp h
    simp only [Option.some.injEq, Prod.mk.injEq] at h
    obtain ⟨rfl, rfl⟩ := h
    obtain ⟨l1, m1, i1⟩ := expr_ok [] false x tr h1 hf.left hI
    obtain ⟨l2, m2, i2⟩ := items_ok r (tr ++ evs a1) h2 hf.right i1
    refine ⟨l1 ++ l2, ?_, by simpa using i2⟩
    rw [items, m1]
    simp only [Option.bind_some]
    rw [m2]; simp
  | .block t r, e, e', a, st, tr, h, hf, hI => by
    rw [sItems] at h
    obtain ⟨⟨e1, a1⟩, h1, h⟩ := Option.bind_eq_some_iff.mp h
    obtain ⟨⟨e2, a2⟩, h2, h⟩ := Option.bind_eq_some_iff.mp h
    simp only [Option.some.injEq, Prod.mk.injEq] at h
    obtain ⟨rfl, rfl⟩ := h
    obtain ⟨l1, m1, _⟩ := items_ok t tr h1 hf.left hI.block
    obtain ⟨l2, m2, i2⟩ := items_ok r (tr ++ evs a1) h2 hf.right hI
    refine ⟨l2, ?_, i2⟩
    rw [items, S.push, m1]
    simp only [Option.bind_some, S.cut]
    rw [List.append_assoc, take_mid, m2]; simp
  | .for_ d t r, e, e', a, st, tr, h, hf, hI => by
    rw [sItems] at h
    obtain ⟨⟨e1, a1⟩, h1, h⟩ := Option.bind_eq_some_iff.mp h
    obtain ⟨⟨e2, a2⟩, h2, h⟩ := Option.bind_eq_some_iff.mp h
    obtain ⟨⟨e3, a3⟩, h3, h⟩ := Option.bind_eq_some_iff.mp h
    simp only [Option.some.injEq, Prod.mk.injEq] at h
    obtain ⟨rfl, rfl⟩ := h
    obtain ⟨l1, m1, i1⟩ := decl_ok true d tr h1 hf.left.left hI.block
    obtain ⟨l2, m2, _⟩ := items_ok t (tr ++ evs a1) h2 hf.left.right i1
    obtain ⟨l3, m3, i3⟩ := items_ok r (tr ++ evs a1 ++ evs a2) h3 hf.right hI
    refine ⟨l3, ?_, i3⟩
    rw [items, S.push, m1]
    simp only [Option.bind_some]
    rw [m2]
    simp only [Option.bind_some, S.cut]
    rw [List.append_assoc, List.append_assoc, take_mid, m3]; simp

theorem fnDef_ok (b : Base) (d : Dr) (body : Items) {e e' : Env} {a : List SEv} {st : List Tk} (tr : List Ev)
    (h : sFn b d body e = some (e', a)) (hf : Free a) (hI : Inv [] st e) :
    ∃ l, fnDef b d body ⟨st, tr⟩ = some ⟨st ++ l, tr ++ evs a⟩ ∧ Inv [] (st ++ l) e' := by
  unfold sFn at h
  obtain ⟨⟨e1, a1, hh⟩, h1, h⟩ := Option.bind_eq_some_iff.mp h
  dsimp only at h
  split at h
  · rename_i x id ps hn hps
    obtain ⟨a2, h2, h⟩ := Option.bind_eq_some_iff.mp h
    obtain ⟨⟨e3, a3, l3⟩, h3, h⟩ := Option.bind_eq_some_iff.mp h
    obtain ⟨eb, h4, h⟩ := Option.bind_eq_some_iff.mp h
    obtain ⟨⟨e5, a5⟩, h5, h⟩ := Option.bind_eq_some_iff.mp h
    simp only [Option.some.injEq, Prod.mk.injEq] at h
    obtain ⟨rfl, rfl⟩ := h
    obtain ⟨l1, B, m1, i1, hB, _, _⟩ := base_ok [] false false b tr h1 hf.left.left hI
    obtain ⟨q, m2, hq, he⟩ := dr_ok [x] false d (tr ++ evs a1) h2 hf.left.right (i1.weaken (P' := [x]) (by simp)) (by
      intro y j hy; rw [hn] at hy; simp only [Option.some.injEq, Prod.mk.injEq] at hy; simp [hy.1])
    obtain ⟨ty, m3, hty, _⟩ := pushBase_ok (hB.ext (nmOf (dname d) :: q)) (tr ++ evs a1 ++ evs a2)
    have hT := hq.ty hty
    rw [hn] at m2 m3
    obtain ⟨e6, a6, l6, m, q', h6, rfl, henc⟩ := he.2 ps hps
    rw [h3] at h6
    simp only [Option.some.injEq, Prod.mk.injEq] at h6
    obtain ⟨rfl, rfl, rfl⟩ := h6
    have i2 : Inv [] (st ++ l1 ++ .ident (.id x) id :: .lpar :: (m ++ .rpar :: (q' ++ ty))) (e1.add x (.obj id .plain)) := by
      refine i1.add ?_ x id (c := .plain) rfl
      have := hT.closed
      simpa using this
    have hst : st ++ l1 ++ nmOf (some (x, id)) :: (.lpar :: m ++ .rpar :: q') ++ ty =
        st ++ l1 ++ .ident (.id x) id :: .lpar :: (m ++ .rpar :: (q' ++ ty)) := by simp [nmOf]
    rw [hst] at m3
    obtain ⟨l7, m7, i7⟩ := addParams_ok henc (q' ++ ty) ((st ++ l1 ++ .ident (.id x) id :: .lpar :: (m ++ .rpar :: (q' ++ ty))).length + 1)
      _ _ _ _ (by simp; omega) i2.block h4
    obtain ⟨l8, m8, _⟩ := items_ok body (tr ++ evs a1 ++ evs a2) h5 hf.right i7
    refine ⟨l1 ++ .ident (.id x) id :: .lpar :: (m ++ .rpar :: (q' ++ ty)), ?_, by simpa using i2⟩
    rw [fnDef, m1]
    simp only [Option.bind_some]
    rw [m2]
    simp only [Option.bind_some]
    rw [m3]
    simp only [Option.bind_some]
    rw [get_mid1]
    simp only [if_true]
    have hd : List.drop ((st ++ l1).length + 2) (st ++ l1 ++ .ident (.id x) id :: .lpar :: (m ++ .rpar :: (q' ++ ty))) =
        m ++ .rpar :: (q' ++ ty) := by
      rw [List.drop_append]; simp
    rw [hd, m7]
    simp only [Option.bind_some]
    rw [m8]
    simp only [Option.bind_some, S.cut]
    have ht : ∀ (s : List Tk), List.take s.length (s ++ [Tk.hash] ++ l7 ++ l8) = s := by
      intro s
      rw [List.append_assoc, List.append_assoc, take_mid]
    rw [ht]
    simp
  · cases h

theorem prog_ok : ∀ (p : List Top) {e e' : Env} {a : List SEv} {st : List Tk} (tr : List Ev),
    sProg p e = some (e', a) → Free a → Inv [] st e →
    ∃ l, prog p ⟨st, tr⟩ = some ⟨st ++ l, tr ++ evs a⟩ ∧ Inv [] (st ++ l) e'
  | [], e, e', a, st, tr, h, hf, hI => by
    simp only [sProg, Option.some.injEq, Prod.mk.injEq] at h
    obtain ⟨rfl, rfl⟩ := h
    exact ⟨[], by simp [prog], by simpa using hI⟩
  | t :: r, e, e', a, st, tr, h, hf, hI => by
    rw [sProg] at h
    obtain ⟨⟨e1, a1⟩, h1, h⟩ := Option.bind_eq_some_iff.mp h
    obtain ⟨⟨e2, a2⟩, h2, h⟩ := Option.bind_eq_some_iff.mp h
    simp only [Option.some.injEq, Prod.mk.injEq] at h
    obtain ⟨rfl, rfl⟩ := h
    have ht : ∃ l, top t ⟨st, tr⟩ = some ⟨st ++ l, tr ++ evs a1⟩ ∧ Inv [] (st ++ l) e1 := by
      cases t with
      | decl d => exact decl_ok false d tr h1 hf.left hI
      | tag b => exact tagDecl_ok b tr h1 hf.left hI
      | fn b d body => exact fnDef_ok b d body tr h1 hf.left hI
    obtain ⟨l1, m1, i1⟩ := ht
    obtain ⟨l2, m2, i2⟩ := prog_ok r (tr ++ evs a1) h2 hf.right i1
    refine ⟨l1 ++ l2, ?_, by simpa using i2⟩
    rw [prog, m1]
    simp only [Option.bind_some]
    rw [m2]; simp

theorem inv_start : Inv [] start ⟨[[]], [[]]⟩ := by
  constructor
  · intro x _
    exact ⟨rfl, rfl⟩
  · intro x
    exact rfl

end Smlr.Scope
