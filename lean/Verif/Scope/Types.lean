import Verif.Scope.Decl
/-!
# Scopes: the mutual recursion over types, declarators and expressions
-/
set_option autoImplicit false

namespace Smlr.Scope

/-- what the derivations `q` next to the name are -/
def HeadIs (q : List Tk) : Option Hd → Prop
  | none => q = []
  | some h => ∀ r, hdOf (q ++ r) = h

/-- how the result of `base` depends on the tree -/
def BShape (b : Base) (r : B) : Prop :=
  match b with
  | .ref k _ _ => r = .one (if k = .enum then .eptr else .sptr)
  | .def _ _ _ _ => r = .one .sptr
  | .enm _ _ _ => r = .one .eptr
  | _ => True

/-- what a suffix encodes -/
def SufEnc (P : List Nat) (sf : Suf) (e : Env) (q : List Tk) : Prop :=
  match sf with
  | .none => q = []
  | .arr .nil => q = []
  | .arr _ => ∃ q', q = .lbrk :: q'
  | .fn ps => ∃ e2 a2 l m, sPars P true ps e.proto = some (e2, a2, l) ∧ q = .lpar :: m ++ [.rpar] ∧ ParsEnc m l

/-- what a declarator encodes behind the name -/
def DrEnc (P : List Nat) (d : Dr) (e : Env) (q : List Tk) : Prop :=
  HeadIs q (headOf d) ∧
  ∀ ps, headPars d = some ps → ∃ e2 a2 l m q', sPars P true ps e.proto = some (e2, a2, l) ∧ q = .lpar :: m ++ .rpar :: q' ∧ ParsEnc m l

/-- what the inner part of a declarator encodes -/
def InEnc (P : List Nat) (i : In) (e : Env) (q : List Tk) : Prop :=
  match i with
  | .nest d => DrEnc P d e q
  | _ => q = []

theorem SufEnc.head {P : List Nat} {n : Nat} {sf : Suf} {e : Env} {q2 : List Tk} (h2 : SufEnc P sf e q2) :
    HeadIs (q2 ++ List.replicate n .star) (sufHead n sf) := by
  cases sf with
  | none =>
    have : q2 = [] := h2
    subst this
    cases n <;> simp [HeadIs, List.replicate_succ, hdOf, sufHead]
  | arr ds =>
    cases ds with
    | nil =>
      have : q2 = [] := h2
      subst this
      cases n <;> simp [HeadIs, List.replicate_succ, hdOf, sufHead]
    | empty r => obtain ⟨q', rfl⟩ := h2; intro r; rfl
    | cons x r => obtain ⟨q', rfl⟩ := h2; intro r; rfl
  | fn ps =>
    obtain ⟨_, _, _, _, _, rfl, _⟩ := h2
    intro r; rfl

theorem SufEnc.pars {P : List Nat} {n : Nat} {sf : Suf} {e : Env} {q2 : List Tk} (h2 : SufEnc P sf e q2) (ps : Pars)
    (hp : sufPars sf = some ps) : ∃ e2 a2 l m q', sPars P true ps e.proto = some (e2, a2, l) ∧
      q2 ++ List.replicate n .star = .lpar :: m ++ .rpar :: q' ∧ ParsEnc m l := by
  cases sf with
  | none => cases hp
  | arr ds => cases hp
  | fn ps' =>
    have : ps' = ps := by simpa [sufPars] using hp
    subst this
    obtain ⟨e2, a2, l, m, h3, rfl, h5⟩ := h2
    exact ⟨e2, a2, l, m, List.replicate n .star, h3, by simp, h5⟩

theorem DrEnc.mk {P : List Nat} {n : Nat} {i : In} {sf : Suf} {e : Env} {q q2 : List Tk}
    (h1 : InEnc P i e q) (h2 : SufEnc P sf e q2) :
    DrEnc P (.mk n i sf) e (q ++ q2 ++ List.replicate n .star) := by
  cases i with
  | name x id =>
    have : q = [] := h1
    subst this
    exact ⟨by rw [headOf]; exact h2.head, fun ps hp => h2.pars ps (by rwa [headPars] at hp)⟩
  | anon =>
    have : q = [] := h1
    subst this
    exact ⟨by rw [headOf]; exact h2.head, fun ps hp => h2.pars ps (by rwa [headPars] at hp)⟩
  | nest d =>
    obtain ⟨h3, h4⟩ := h1
    cases hd : headOf d with
    | none =>
      rw [hd] at h3
      have : q = [] := h3
      subst this
      refine ⟨by rw [headOf, hd]; exact h2.head, fun ps hp => h2.pars ps (by rwa [headPars, hd] at hp)⟩
    | some h =>
      rw [hd] at h3
      constructor
      · rw [headOf, hd]
        intro r
        rw [List.append_assoc, List.append_assoc]
        exact h3 _
      · intro ps hp
        rw [headPars, hd] at hp
        obtain ⟨e2, a2, l, m, q', h5, rfl, h7⟩ := h4 ps hp
        exact ⟨e2, a2, l, m, q' ++ (q2 ++ List.replicate n .star), h5, by simp, h7⟩

theorem hd_eq {q ty : List Tk} {d : Dr} {h : Hd} (hq : HeadIs q (headOf d)) (ht : hdOf ty = h) : hdOf (q ++ ty) = hd d h := by
  unfold hd
  cases hh : headOf d with
  | none => rw [hh] at hq; have : q = [] := hq; subst this; simpa using ht
  | some o => rw [hh] at hq; exact hq ty

/-- pushing the name of a declarator and part of its type -/
theorem Inv.decl {P : List Nat} {st : List Tk} {e : Env} (h : Inv P st e) {l : List Tk} (hl : Closed l) (o : Option (Nat × Nat))
    (ho : ∀ x id, o = some (x, id) → x ∈ P) : Inv P (st ++ nmOf o :: l) e := by
  cases o with
  | none => exact h.anon hl 0
  | some a => exact h.pending hl a.2 (ho a.1 a.2 rfl)

theorem mem_owns (d : Dr) (P : List Nat) : ∀ x id, dname d = some (x, id) → x ∈ owns d P := by
  intro x id h
  simp [owns, h]

theorem sub_owns (d : Dr) (P : List Nat) : ∀ x, x ∈ P → x ∈ owns d P := by
  intro x h
  unfold owns
  split
  · exact List.mem_cons_of_mem _ h
  · exact h

theorem quiet_tagrest {l : List Tk} (hl : l = [] ∨ l = [.size, .size, .lbrc]) : ∀ hit, Quiet hit → Pass hit l := by
  intro hit hq
  rcases hl with rfl | rfl
  · exact .nil _
  · have h1 : Pass hit [.size] := .one hq.size (by simp) (by simp)
    have h2 : Pass hit [.lbrc] := .one (hq.ntr _ rfl) (by simp) (by simp)
    exact h1.app (h1.app h2)

/-- a tag, or a nameless structure, about to be defined -/
theorem Inv.addTag? {P : List Nat} {st : List Tk} {e : Env} (h : Inv P st e) (x : Option Nat) (i : Nat) (k : Kind) {b : Bool} {l : List Tk}
    (hl : (l = [] ∧ b = false) ∨ (l = [.size, .size, .lbrc] ∧ b = true)) :
    Inv P (st ++ .kw k :: .tag (tagNm x) i :: l) (e.addTag? x ⟨i, k, b⟩) := by
  have hq := quiet_tagrest (l := l) (by rcases hl with h | h; exact .inl h.1; exact .inr h.1)
  cases x with
  | some x =>
    refine h.addTag hq x i k ?_
    rcases hl with ⟨rfl, rfl⟩ | ⟨rfl, rfl⟩ <;> simp
  | none =>
    refine h.quiet (l := [.kw k] ++ ([.tag .something i] ++ l)) (fun hit hh => ?_) (by simp)
    exact (Pass.one (hh.kw k) (by simp) (by simp)).app ((Pass.one (hh.tsome i) (by simp) (by simp)).app (hq hit hh))

mutual
theorem expr_ok (P : List Nat) (pl : Bool) : ∀ (x : Expr) {e e' : Env} {a : List SEv} {st : List Tk} (tr : List Ev),
    sExpr P pl x e = some (e', a) → Free a → Inv P st e →
    ∃ l, expr pl x ⟨st, tr⟩ = some ⟨st ++ l, tr ++ evs a⟩ ∧ Inv P (st ++ l) e'
  | .mk ts us, e, e', a, st, tr, h, hf, hI => by
    rw [sExpr] at h
    obtain ⟨⟨e1, a1⟩, h1, h⟩ := Option.bind_eq_some_iff.mp h
    obtain ⟨⟨e2, a2⟩, h2, h⟩ := Option.bind_eq_some_iff.mp h
    simp only [Option.some.injEq, Prod.mk.injEq] at h
    obtain ⟨rfl, rfl⟩ := h
    obtain ⟨l1, m1, i1⟩ := tys_ok P pl ts tr h1 hf.left hI
    obtain ⟨l2, m2, i2⟩ := names_ok us (tr ++ evs a1) h2 hf.right i1
    refine ⟨l1 ++ l2, ?_, by simpa using i2⟩
    rw [expr, m1]
    show names us _ = _
    rw [m2]; simp

theorem tys_ok (P : List Nat) (pl : Bool) : ∀ (t : Tys) {e e' : Env} {a : List SEv} {st : List Tk} (tr : List Ev),
    sTys P pl t e = some (e', a) → Free a → Inv P st e →
    ∃ l, tys pl t ⟨st, tr⟩ = some ⟨st ++ l, tr ++ evs a⟩ ∧ Inv P (st ++ l) e'
  | .nil, e, e', a, st, tr, h, hf, hI => by
    simp only [sTys, Option.some.injEq, Prod.mk.injEq] at h
    obtain ⟨rfl, rfl⟩ := h
    exact ⟨[], by simp [tys], by simpa using hI⟩
  | .cons b d r, e, e', a, st, tr, h, hf, hI => by
    rw [sTys] at h
    obtain ⟨⟨e1, a1, hh⟩, h1, h⟩ := Option.bind_eq_some_iff.mp h
    obtain ⟨a2, h2, h⟩ := Option.bind_eq_some_iff.mp h
    dsimp only at h
    split at h
    · cases h
    rename_i hn
    obtain ⟨⟨e3, a3⟩, h3, h⟩ := Option.bind_eq_some_iff.mp h
    simp only [Option.some.injEq, Prod.mk.injEq] at h
    obtain ⟨rfl, rfl⟩ := h
    obtain ⟨l1, B, m1, i1, hB, _, _⟩ := base_ok P pl true b tr h1 hf.left.left hI
    obtain ⟨q, m2, hq, _⟩ := dr_ok P pl d (tr ++ evs a1) h2 hf.left.right i1 (by rw [hn]; intro x id hc; cases hc)
    rw [hn] at m2
    obtain ⟨ty, m3, hty, _⟩ := pushBase_ok (hB.ext (nmOf none :: q)) (tr ++ evs a1 ++ evs a2)
    have hT := hq.ty hty
    have i2 : Inv P (st ++ l1 ++ .ident .cast 0 :: (q ++ ty)) e1 := i1.closed (.cons rfl hT.closed)
    obtain ⟨l3, m4, i3⟩ := tys_ok P pl r (tr ++ evs a1 ++ evs a2 ++ [.self true]) h3 hf.right.tail i2
    refine ⟨l1 ++ .ident .cast 0 :: (q ++ ty) ++ l3, ?_, by simpa using i3⟩
    rw [tys, m1]
    simp only [Option.bind_some]
    rw [m2]
    simp only [Option.bind_some]
    rw [m3]
    simp only [Option.bind_some]
    have hs : findSymbol .something (st ++ l1 ++ nmOf none :: q ++ ty) = .found (st ++ l1).length true := by
      unfold findSymbol
      rw [List.append_assoc, List.cons_append]
      refine scan_top (hT.closed.passOf ?_ rfl) rfl _
      intro t ht
      unfold neutral at ht
      unfold isSym
      split at ht <;> first | rfl | cases ht
    rw [hs]
    dsimp only
    rw [show st ++ l1 ++ nmOf none :: q ++ ty = (st ++ l1) ++ nmOf none :: (q ++ ty) by simp, set_mid]
    simp only [S.ev, beq_self_eq_true]
    rw [m4]
    simp

theorem base_ok (P : List Nat) (pl ex : Bool) : ∀ (b : Base) {e e' : Env} {a : List SEv} {h : Hd} {st : List Tk} (tr : List Ev),
    sBase P pl ex b e = some (e', a, h) → Free a → Inv P st e →
    ∃ l B, base pl ex b ⟨st, tr⟩ = some (⟨st ++ l, tr ++ evs a⟩, B) ∧ Inv P (st ++ l) e' ∧ BOk (st ++ l) B h ∧ BShape b B ∧
      (pl = true → l = [] ∧ e' = e)
  | .void, e, e', a, h, st, tr, hs, hf, hI => by
    simp only [sBase, Option.some.injEq, Prod.mk.injEq] at hs
    obtain ⟨rfl, rfl, rfl⟩ := hs
    exact ⟨[], .one .void, by simp [base], by simpa using hI, .inl ⟨rfl, rfl⟩, trivial, fun _ => ⟨rfl, rfl⟩⟩
  | .prim, e, e', a, h, st, tr, hs, hf, hI => by
    simp only [sBase, Option.some.injEq, Prod.mk.injEq] at hs
    obtain ⟨rfl, rfl, rfl⟩ := hs
    exact ⟨[], .one .base, by simp [base], by simpa using hI, .inr ⟨.inl rfl, rfl⟩, trivial, fun _ => ⟨rfl, rfl⟩⟩
  | .tdef x, e, e', a, h, st, tr, hs, hf, hI => by
    simp only [sBase] at hs
    split at hs
    · rename_i id hh hl
      simp only [Option.some.injEq, Prod.mk.injEq] at hs
      obtain ⟨rfl, rfl, rfl⟩ := hs
      have hx : x ∉ P := by simpa using hf _ (List.mem_singleton.mpr rfl)
      have hn := hI.nm x hx
      rw [hl] at hn
      obtain ⟨p, cur, ty, r, h1, h2, h3, h4⟩ := hn
      have hg := get_of_drop (r := ty ++ r) h2
      have ht : findTypedef (.id x) st = some p := by
        unfold findTypedef
        rw [h1]
        dsimp only
        rw [hg]
      refine ⟨[], .copy p, ?_, by simpa using hI, ⟨_, _, ty, r, by simpa using h2, h3, h4⟩, trivial, fun _ => ⟨rfl, rfl⟩⟩
      rw [base]
      dsimp only
      rw [ht]
      dsimp only
      rw [hg]
      simp [S.ev]
    · cases hs
  | .ref k x id, e, e', a, h, st, tr, hs, hf, hI => by
    simp only [sBase] at hs
    have hg := hI.tg x
    split at hs
    · rename_i t cur hl
      rw [hl] at hg
      split at hs
      · rename_i hk
        simp only [Option.some.injEq, Prod.mk.injEq] at hs
        obtain ⟨rfl, rfl, rfl⟩ := hs
        obtain ⟨p, h1, h2, _⟩ := tag_found hg
        refine ⟨[], .one (if k = .enum then .eptr else .sptr), ?_, by simpa using hI, ?_, rfl, fun _ => ⟨rfl, rfl⟩⟩
        · rw [base]
          dsimp only
          rw [h1]
          dsimp only
          rw [h2]
          dsimp only
          rw [if_pos hk]
          simp [S.ev]
        · refine .inr ⟨?_, rfl⟩
          split
          · exact .inr (.inr rfl)
          · exact .inr (.inl rfl)
      · cases hs
    · rename_i hl
      rw [hl] at hg
      split at hs
      · cases hs
      · rename_i hc
        simp only [not_or] at hc
        simp only [Option.some.injEq, Prod.mk.injEq] at hs
        obtain ⟨rfl, rfl, rfl⟩ := hs
        have ha : findTagged (.id x) st = .absent := hg
        refine ⟨[.kw k, .tag (.id x) id], .one .sptr, ?_, ?_, .inr ⟨.inr (.inl rfl), rfl⟩, ?_, fun hp => absurd hp hc.1⟩
        · rw [base]
          dsimp only
          rw [ha]
          dsimp only
          rw [if_neg (by simpa using hc)]
          simp [S.ev, S.push]
        · exact hI.addTag (l := []) (fun hit _ => .nil _) x id k (by simp)
        · show B.one .sptr = .one (if k = .enum then .eptr else .sptr)
          rw [if_neg hc.2]
  | .def k x id ms, e, e', a, h, st, tr, hs, hf, hI => by
    rw [sBase] at hs
    split at hs
    · cases hs
    rename_i hc
    simp only [not_or] at hc
    obtain ⟨a1, h1, hs⟩ := Option.bind_eq_some_iff.mp hs
    obtain ⟨⟨e2, a2⟩, h2, hs⟩ := Option.bind_eq_some_iff.mp hs
    simp only [Option.some.injEq, Prod.mk.injEq] at hs
    obtain ⟨rfl, rfl, rfl⟩ := hs
    have m1 := header_ok tr h1 hI
    have i1 := hI.addTag? x id k (b := true) (l := [.size, .size, .lbrc]) (.inr ⟨rfl, rfl⟩)
    obtain ⟨l2, m2, i2⟩ := mems_ok P ms (tr ++ evs a1) h2 hf.right i1
    have i3 := i2.closed (l := [.rbrc]) (.one rfl)
    refine ⟨_, .one .sptr, ?_, (by simpa only [List.append_assoc] using i3), .inr ⟨.inr (.inl rfl), rfl⟩, rfl, fun hp => absurd hp hc.1⟩
    rw [base, if_neg (by simp [hc.1, hc.2.1]), m1]
    simp only [Option.bind_some, S.push]
    rw [m2]
    simp
  | .enm x id es, e, e', a, h, st, tr, hs, hf, hI => by
    rw [sBase] at hs
    split at hs
    · cases hs
    rename_i hc
    simp only [not_or] at hc
    obtain ⟨a1, h1, hs⟩ := Option.bind_eq_some_iff.mp hs
    obtain ⟨⟨e2, a2⟩, h2, hs⟩ := Option.bind_eq_some_iff.mp hs
    simp only [Option.some.injEq, Prod.mk.injEq] at hs
    obtain ⟨rfl, rfl, rfl⟩ := hs
    have m1 := header_ok tr h1 hI
    have i1 := hI.addTag? x id .enum (b := false) (l := []) (.inl ⟨rfl, rfl⟩)
    obtain ⟨l2, m2, i2⟩ := enums_ok P es (tr ++ evs a1) h2 hf.right i1
    refine ⟨_, .one .eptr, ?_, (by simpa only [List.append_assoc] using i2), .inr ⟨.inr (.inr rfl), rfl⟩, rfl, fun hp => absurd hp hc.1⟩
    rw [base, if_neg (by simp [hc.1, hc.2]), m1]
    simp only [Option.bind_some, S.push]
    rw [m2]
    simp

theorem dr_ok (P : List Nat) (pl : Bool) : ∀ (d : Dr) {e : Env} {a : List SEv} {st : List Tk} (tr : List Ev),
    sDr P pl d e = some a → Free a → Inv P st e → (∀ x id, dname d = some (x, id) → x ∈ P) →
    ∃ q, dr pl d ⟨st, tr⟩ = some ⟨st ++ nmOf (dname d) :: q, tr ++ evs a⟩ ∧ Seq q ∧ DrEnc P d e q
  | .mk n i sf, e, a, st, tr, h, hf, hI, ho => by
    rw [sDr] at h
    obtain ⟨a1, h1, h⟩ := Option.bind_eq_some_iff.mp h
    obtain ⟨a2, h2, h⟩ := Option.bind_eq_some_iff.mp h
    simp only [Option.some.injEq] at h
    subst h
    have hin : ∃ q, inn pl i ⟨st, tr⟩ = some ⟨st ++ nmOf (dname (.mk n i sf)) :: q, tr ++ evs a1⟩ ∧ Seq q ∧
        InEnc P i e q := by
      match i with
      | .name x id =>
        simp only [sIn, Option.some.injEq] at h1
        subst h1
        exact ⟨[], by simp [inn, S.push, dname, nmOf], .nil, rfl⟩
      | .anon =>
        simp only [sIn, Option.some.injEq] at h1
        subst h1
        exact ⟨[], by simp [inn, S.push, dname, nmOf], .nil, rfl⟩
      | .nest d =>
        rw [sIn] at h1
        obtain ⟨q, m, hq, he⟩ := dr_ok P pl d tr h1 hf.left hI (by simpa only [dname] using ho)
        exact ⟨q, by rw [inn, m, dname], hq, he⟩
    obtain ⟨q, m1, hq, he⟩ := hin
    have i1 := hI.decl hq.closed _ ho
    obtain ⟨q2, m2, hq2, he2⟩ := suf_ok P pl sf (tr ++ evs a1) h2 hf.right i1
    refine ⟨q ++ q2 ++ List.replicate n .star, ?_, (hq.app hq2).app (seq_replicate n), .mk he he2⟩
    rw [dr, m1]
    simp only [Option.bind_some]
    rw [m2]
    simp [S.push]

theorem suf_ok (P : List Nat) (pl : Bool) : ∀ (sf : Suf) {e : Env} {a : List SEv} {st : List Tk} (tr : List Ev),
    sSuf P pl sf e = some a → Free a → Inv P st e →
    ∃ q, suf pl sf ⟨st, tr⟩ = some ⟨st ++ q, tr ++ evs a⟩ ∧ Seq q ∧ SufEnc P sf e q
  | .none, e, a, st, tr, h, hf, hI => by
    simp only [sSuf, Option.some.injEq] at h
    subst h
    exact ⟨[], by simp [suf], .nil, rfl⟩
  | .fn ps, e, a, st, tr, h, hf, hI => by
    rw [sSuf] at h
    obtain ⟨⟨e2, a2, l⟩, h1, h⟩ := Option.bind_eq_some_iff.mp h
    simp only [Option.some.injEq] at h
    subst h
    obtain ⟨m, m1, he⟩ := pars_ok P true ps tr h1 hf hI.proto
    refine ⟨.lpar :: m ++ [.rpar], ?_, .fn he.bal .nil, e2, a2, l, m, h1, rfl, he⟩
    rw [suf, S.push, m1]
    simp [S.push]
  | .arr ds, e, a, st, tr, h, hf, hI => by
    rw [sSuf] at h
    obtain ⟨q, m, hq, he⟩ := dims_ok P pl ds tr h hf hI
    refine ⟨q, by rw [suf, m], hq, ?_⟩
    cases ds with
    | nil => exact he
    | empty r => exact he
    | cons x r => exact he

theorem dims_ok (P : List Nat) (pl : Bool) : ∀ (ds : Dims) {e : Env} {a : List SEv} {st : List Tk} (tr : List Ev),
    sDims P pl ds e = some a → Free a → Inv P st e →
    ∃ q, dims pl ds ⟨st, tr⟩ = some ⟨st ++ q, tr ++ evs a⟩ ∧ Seq q ∧ (match ds with | .nil => q = [] | _ => ∃ q', q = .lbrk :: q')
  | .nil, e, a, st, tr, h, hf, hI => by
    simp only [sDims, Option.some.injEq] at h
    subst h
    exact ⟨[], by simp [dims], .nil, rfl⟩
  | .empty r, e, a, st, tr, h, hf, hI => by
    rw [sDims] at h
    have i1 := hI.closed (l := [.lbrk, .num, .rbrk]) (.cons rfl (.cons rfl (.one rfl)))
    obtain ⟨q, m, hq, _⟩ := dims_ok P pl r tr h hf i1
    refine ⟨.lbrk :: .num :: .rbrk :: q, ?_, .arr hq, _, rfl⟩
    rw [dims, S.push, m]
    simp
  | .cons x r, e, a, st, tr, h, hf, hI => by
    rw [sDims] at h
    obtain ⟨⟨e1, a1⟩, h1, h⟩ := Option.bind_eq_some_iff.mp h
    obtain ⟨a2, h2, h⟩ := Option.bind_eq_some_iff.mp h
    simp only [Option.some.injEq] at h
    subst h
    have i1 := hI.closed (l := [.void, .lbrk]) (.cons rfl (.one rfl))
    obtain ⟨l, m1, _⟩ := expr_ok P pl x tr h1 hf.left i1
    have i2 := hI.closed (l := [.lbrk, .num, .rbrk]) (.cons rfl (.cons rfl (.one rfl)))
    obtain ⟨q, m2, hq, _⟩ := dims_ok P pl r (tr ++ evs a1) h2 hf.right i2
    refine ⟨.lbrk :: .num :: .rbrk :: q, ?_, .arr hq, _, rfl⟩
    rw [dims, S.push, m1]
    simp only [Option.bind_some, S.cut, S.push]
    have : (List.take (st.length + 2) (st ++ [Tk.void, Tk.lbrk] ++ l) ++ [Tk.num, Tk.rbrk]).eraseIdx st.length = st ++ [.lbrk, .num, .rbrk] := by
      have h3 : List.take (st.length + 2) (st ++ [Tk.void, Tk.lbrk] ++ l) = st ++ [Tk.void, Tk.lbrk] := by
        have := take_mid (st ++ [Tk.void, Tk.lbrk]) l
        simpa using this
      rw [h3, show st ++ [Tk.void, Tk.lbrk] ++ [Tk.num, Tk.rbrk] = st ++ Tk.void :: [.lbrk, .num, .rbrk] by simp, erase_mid0]
    rw [this, m2]
    simp

theorem pars_ok (P : List Nat) (f : Bool) : ∀ (ps : Pars) {e e' : Env} {a : List SEv} {l : List (Option (Nat × Nat))} {st : List Tk} (tr : List Ev),
    sPars P f ps e = some (e', a, l) → Free a → Inv P st e →
    ∃ m, pars f ps ⟨st, tr⟩ = some ⟨st ++ m, tr ++ evs a⟩ ∧ ParsEnc m l
  | .nil, e, e', a, l, st, tr, h, hf, hI => by
    simp only [sPars, Option.some.injEq, Prod.mk.injEq] at h
    obtain ⟨rfl, rfl, rfl⟩ := h
    exact ⟨[], by simp [pars], .nil⟩
  | .ell, e, e', a, l, st, tr, h, hf, hI => by
    rw [sPars] at h
    split at h
    · cases h
    rename_i hc
    simp only [Option.some.injEq, Prod.mk.injEq] at h
    obtain ⟨rfl, rfl, rfl⟩ := h
    exact ⟨[.ident .something 0, .ell], by rw [pars, if_neg hc]; simp [S.push], .ell⟩
  | .cons b d r, e, e', a, l, st, tr, h0, hf, hI => by
    rw [sPars] at h0
    obtain ⟨⟨e1, a1, hh⟩, h1, h0'⟩ := Option.bind_eq_some_iff.mp h0
    obtain ⟨a2, h2, h⟩ := Option.bind_eq_some_iff.mp h0'
    clear h0 h0'
    dsimp only at h
    have hfree : Free (a1 ++ a2) := by
      split at h
      · split at h
        · simp only [Option.some.injEq, Prod.mk.injEq] at h
          rw [← h.2.1] at hf; exact hf
        · cases h
      · obtain ⟨⟨e3, a3, l3⟩, h3, h⟩ := Option.bind_eq_some_iff.mp h
        simp only [Option.some.injEq, Prod.mk.injEq] at h
        rw [← h.2.1] at hf; exact hf.left
    obtain ⟨l1, B, m1, i1, hB, _, hp⟩ := base_ok P true false b tr h1 hfree.left hI
    obtain ⟨hl1, he1⟩ := hp rfl
    subst hl1
    subst he1
    rw [List.append_nil] at m1 i1 hB
    obtain ⟨q, m2, hq, he⟩ := dr_ok (owns d P) true d (tr ++ evs a1) h2 hfree.right (i1.weaken (sub_owns d P)) (mem_owns d P)
    obtain ⟨ty, m3, hty, hth⟩ := pushBase_ok (hB.ext (nmOf (dname d) :: q)) (tr ++ evs a1 ++ evs a2)
    have hT := hq.ty hty
    have hhd := hd_eq he.1 hth
    obtain ⟨hD, hDv⟩ := decay_ty hT
    have hstart : pars f (.cons b d r) ⟨st, tr⟩ =
        (let s : S := ⟨st ++ nmOf (dname d) :: decayTy (q ++ ty), tr ++ evs a1 ++ evs a2⟩
          if s.st[s.st.length - 1]? = some .void then
            match s.st[s.st.length - 2]? with
            | some (.ident n _) => if n = .something ∧ f = true ∧ isLast r = true then some s else none
            | _ => pars false r s
          else pars false r s) := by
      rw [pars, m1]
      simp only [Option.bind_some]
      rw [m2]
      simp only [Option.bind_some]
      rw [m3]
      simp only [Option.bind_some]
      rw [show st ++ nmOf (dname d) :: q ++ ty = st ++ nmOf (dname d) :: (q ++ ty) by simp, decay_eq _ _ hT]
      rfl
    rw [hstart]
    dsimp only
    by_cases hv : hd d hh = .void
    · rw [if_pos hv] at h
      split at h
      · rename_i hn
        simp only [Option.some.injEq, Prod.mk.injEq] at h
        obtain ⟨rfl, rfl, rfl⟩ := h
        have hDT := hD.void_iff.mp (hDv.mpr (hhd.trans hv))
        rw [hDT, hn]
        refine ⟨[nmOf none, .void], ?_, .void⟩
        rw [if_pos (by simp)]
        have : (st ++ [nmOf none, Tk.void])[(st ++ [nmOf none, Tk.void]).length - 2]? = some (.ident .something 0) := by
          simp [nmOf]
        rw [this]
        simp [isLast]
      · cases h
    · rw [if_neg hv] at h
      obtain ⟨⟨e3, a3, l3⟩, h3, h⟩ := Option.bind_eq_some_iff.mp h
      simp only [Option.some.injEq, Prod.mk.injEq] at h
      obtain ⟨rfl, rfl, rfl⟩ := h
      have hDn : hdOf (decayTy (q ++ ty)) ≠ .void := fun hc => hv ((hhd.symm.trans (hDv.mp hc)))
      have i2 : Inv P (st ++ nmOf (dname d) :: decayTy (q ++ ty))
          (match dname d with | some (x, id) => e1.add x (.obj id .plain) | none => e1) := by
        cases hn : dname d with
        | none => exact i1.anon hD.closed 0
        | some o =>
          obtain ⟨t, r', hr', ht'⟩ := hD.head
          have hcl := hD.closed
          rw [hr'] at hcl ⊢
          exact i1.add hcl o.1 o.2 (c := .plain) ht'
      obtain ⟨m, m4, hm⟩ := pars_ok P false r (tr ++ evs a1 ++ evs a2) h3 hf.right i2
      refine ⟨nmOf (dname d) :: decayTy (q ++ ty) ++ m, ?_, .cons hD hDn hm⟩
      have hbr : (let s : S := ⟨st ++ nmOf (dname d) :: decayTy (q ++ ty), tr ++ evs a1 ++ evs a2⟩
          if s.st[s.st.length - 1]? = some .void then
            match s.st[s.st.length - 2]? with
            | some (.ident n _) => if n = .something ∧ f = true ∧ isLast r = true then some s else none
            | _ => pars false r s
          else pars false r s) = pars false r ⟨st ++ nmOf (dname d) :: decayTy (q ++ ty), tr ++ evs a1 ++ evs a2⟩ := by
        dsimp only
        rcases hD.last with hl | ⟨v, hl, hl'⟩ | ⟨l', u, v, hl, hl'⟩
        · exact absurd hl hDn
        · rw [hl, if_neg (by simpa using hl')]
        · rw [hl]
          split
          · have : (st ++ nmOf (dname d) :: (l' ++ [u, v]))[(st ++ nmOf (dname d) :: (l' ++ [u, v])).length - 2]? = some u := by
              rw [show st ++ nmOf (dname d) :: (l' ++ [u, v]) = (st ++ nmOf (dname d) :: l') ++ u :: [v] by simp]
              rw [show ((st ++ nmOf (dname d) :: l') ++ u :: [v]).length - 2 = (st ++ nmOf (dname d) :: l').length by simp; omega]
              exact get_mid _ _ _
            rw [this]
            split
            · rename_i n i hc
              simp only [Option.some.injEq] at hc
              exact absurd hc (hl' n i)
            · rfl
          · rfl
      dsimp only at hbr
      rw [hbr, m4]
      simp

theorem mems_ok (P : List Nat) : ∀ (ms : Mems) {e e' : Env} {a : List SEv} {st : List Tk} (tr : List Ev),
    sMems P ms e = some (e', a) → Free a → Inv P st e →
    ∃ l, mems ms ⟨st, tr⟩ = some ⟨st ++ l, tr ++ evs a⟩ ∧ Inv P (st ++ l) e'
  | .nil, e, e', a, st, tr, h, hf, hI => by
    simp only [sMems, Option.some.injEq, Prod.mk.injEq] at h
    obtain ⟨rfl, rfl⟩ := h
    exact ⟨[], by simp [mems], by simpa using hI⟩
  | .cons b ds r, e, e', a, st, tr, h, hf, hI => by
    rw [sMems] at h
    obtain ⟨⟨e1, a1, hh⟩, h1, h⟩ := Option.bind_eq_some_iff.mp h
    obtain ⟨a2, h2, h⟩ := Option.bind_eq_some_iff.mp h
    obtain ⟨⟨e3, a3⟩, h3, h⟩ := Option.bind_eq_some_iff.mp h
    simp only [Option.some.injEq, Prod.mk.injEq] at h
    obtain ⟨rfl, rfl⟩ := h
    obtain ⟨l1, B, m1, i1, hB, _, _⟩ := base_ok P false false b tr h1 hf.left.left hI
    obtain ⟨l2, m2, i2⟩ := memDrs_ok P ds (tr ++ evs a1) h2 hf.left.right i1 hB
    obtain ⟨l3, m3, i3⟩ := mems_ok P r (tr ++ evs a1 ++ evs a2) h3 hf.right i2
    refine ⟨l1 ++ l2 ++ l3, ?_, by simpa using i3⟩
    rw [mems, m1]
    simp only [Option.bind_some]
    rw [m2]
    simp only [Option.bind_some]
    rw [m3]
    simp

theorem memDrs_ok (P : List Nat) : ∀ (ds : Drs) {e : Env} {a : List SEv} {B : B} {h : Hd} {st : List Tk} (tr : List Ev),
    sMemDrs P ds e = some a → Free a → Inv P st e → BOk st B h →
    ∃ l, memDrs B ds ⟨st, tr⟩ = some ⟨st ++ l, tr ++ evs a⟩ ∧ Inv P (st ++ l) e
  | .nil, e, a, B, h, st, tr, hs, hf, hI, hB => by
    simp only [sMemDrs, Option.some.injEq] at hs
    subst hs
    exact ⟨[], by simp [memDrs], by simpa using hI⟩
  | .cons d r, e, a, B, h, st, tr, hs, hf, hI, hB => by
    rw [sMemDrs] at hs
    obtain ⟨a1, h1, hs⟩ := Option.bind_eq_some_iff.mp hs
    obtain ⟨a2, h2, hs⟩ := Option.bind_eq_some_iff.mp hs
    simp only [Option.some.injEq] at hs
    subst hs
    obtain ⟨q, m1, hq, _⟩ := dr_ok (owns d P) false d tr h1 hf.left (hI.weaken (sub_owns d P)) (mem_owns d P)
    obtain ⟨ty, m2, hty, _⟩ := pushBase_ok (hB.ext (nmOf (dname d) :: q)) (tr ++ evs a1)
    have hT := hq.ty hty
    obtain ⟨n, i, hn⟩ : ∃ n i, nmOf (dname d) = .ident n i := by
      cases dname d with
      | none => exact ⟨_, _, rfl⟩
      | some o => exact ⟨_, _, rfl⟩
    have hc : Closed (.mem n :: .lofs :: (q ++ ty)) := .cons rfl (.cons rfl hT.closed)
    obtain ⟨l3, m3, i3⟩ := memDrs_ok P r (tr ++ evs a1) h2 hf.right (hI.closed hc) (hB.ext _)
    refine ⟨.mem n :: .lofs :: (q ++ ty) ++ l3, ?_, by simpa using i3⟩
    rw [memDrs, m1]
    simp only [Option.bind_some]
    rw [m2]
    simp only [Option.bind_some]
    rw [hn, show st ++ Tk.ident n i :: q ++ ty = st ++ Tk.ident n i :: (q ++ ty) by simp, get_mid]
    dsimp only
    rw [set_mid, insert_mid, m3]
    simp

theorem enums_ok (P : List Nat) : ∀ (es : Enums) {e e' : Env} {a : List SEv} {st : List Tk} (tr : List Ev),
    sEnums P es e = some (e', a) → Free a → Inv P st e →
    ∃ l, enums es ⟨st, tr⟩ = some ⟨st ++ l, tr ++ evs a⟩ ∧ Inv P (st ++ l) e'
  | .nil, e, e', a, st, tr, h, hf, hI => by
    simp only [sEnums, Option.some.injEq, Prod.mk.injEq] at h
    obtain ⟨rfl, rfl⟩ := h
    exact ⟨[], by simp [enums], by simpa using hI⟩
  | .auto x id r, e, e', a, st, tr, h, hf, hI => by
    rw [sEnums] at h
    have i1 := hI.add (t := .num) (l := []) (.one rfl) x id (c := .enum) rfl
    obtain ⟨l2, m2, i2⟩ := enums_ok P r tr h hf i1
    refine ⟨.ident (.id x) id :: .num :: l2, ?_, by simpa using i2⟩
    rw [enums, S.push, m2]
    simp
  | .cons x id v r, e, e', a, st, tr, h, hf, hI => by
    rw [sEnums] at h
    obtain ⟨⟨e1, a1⟩, h1, h⟩ := Option.bind_eq_some_iff.mp h
    obtain ⟨⟨e2, a2⟩, h2, h⟩ := Option.bind_eq_some_iff.mp h
    simp only [Option.some.injEq, Prod.mk.injEq] at h
    obtain ⟨rfl, rfl⟩ := h
    obtain ⟨l1, m1, _⟩ := expr_ok P false v tr h1 hf.left hI
    have i1 := hI.add (t := .num) (l := []) (.one rfl) x id (c := .enum) rfl
    obtain ⟨l2, m2, i2⟩ := enums_ok P r (tr ++ evs a1) h2 hf.right i1
    refine ⟨.ident (.id x) id :: .num :: l2, ?_, by simpa using i2⟩
    rw [enums, m1]
    simp only [Option.bind_some, S.cut, S.push]
    rw [take_mid, m2]
    simp
end

end Smlr.Scope
