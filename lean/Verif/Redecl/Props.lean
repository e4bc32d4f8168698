import Verif.Redecl.Walk

set_option autoImplicit false
/-! C60: declarations of a name that was declared before. -/
namespace Smlr.Redecl

open Smlr.Declr Smlr.Declr.Spec Smlr.Redecl.Spec

/-- C60.  A new declaration `d` of a name, on top of a table with the declarations of nested scopes, is accepted
if and only if C allows it there; and if it is a further declaration of an object or function then its type in the
table is the composite type.
What is missing of the full statement is in the hypothesis `tame`: if the new and the old type have a parameter list
`()` then C must allow the other list there, and (for the type in the table) it must not be the new declaration
that has `()`; see `c60_reject`, `c60_promote`, `c60_lost`. -/
theorem c60_redecl_partial (small : Nat → Bool) (cur : Items) (outer : List Items) (d : Decl) (rest : List E) (file : Bool)
    (hc : cur.deep) (ho : ∀ it ∈ outer, it.deep) (hd : d.deep)
    (hfile : file = true → d.local = false ∧ ∀ e ∈ cur.decls, e.local = false)
    (tog : Together cur.decls)
    (tame : ∀ t t', d.kind = .ext t → prior d.name (declsAll (cur :: outer)) = some t' → Tame small true t t') :
    (Valid small (declsAll outer) cur.decls d →
      ∃ s, checkRedecl (encAll (cur :: outer) ++ (d.enc ++ rest)) (encAll (cur :: outer)).length file = .ok s ∧
        ((∀ t t', d.kind = .ext t → prior d.name (declsAll (cur :: outer)) = some t' → Tame small false t t') →
          s = encAll (cur :: outer) ++ ((d.with (prior d.name (declsAll (cur :: outer)))).enc ++ rest))) ∧
    (¬Valid small (declsAll outer) cur.decls d →
      checkRedecl (encAll (cur :: outer) ++ (d.enc ++ rest)) (encAll (cur :: outer)).length file = .error) := by
  have hdecl : declsAll (cur :: outer) = declsAll outer ++ cur.decls := rfl
  rw [check_eq]
  generalize hnx : top d = nx
  clear hnx
  generalize hs : encAll (cur :: outer) ++ (d.enc ++ rest) = s
  -- the result of a comparison with a declaration with the type `O`
  have cmp : ∀ (N O : Ty) (y : Nat) (A B : List E), d.kind = .ext N → O.deep →
      encAll (cur :: outer) = A ++ (Decl.enc ⟨y, .ext O⟩ ++ B) → prior d.name (declsAll (cur :: outer)) = some O →
      (Compat small N O → ∃ s', against s (encAll (cur :: outer)).length A.length = .ok s' ∧
        ((∀ t t', d.kind = .ext t → prior d.name (declsAll (cur :: outer)) = some t' → Tame small false t t') →
          s' = encAll (cur :: outer) ++ ((d.with (prior d.name (declsAll (cur :: outer)))).enc ++ rest))) ∧
      (¬Compat small N O → against s (encAll (cur :: outer)).length A.length = .error) := by
    intro N O y A B hk hO hT hp
    have hN : N.deep := by simpa [Decl.deep, hk] using hd
    have hde : d = ⟨d.name, .ext N⟩ := by rw [← hk]
    have ha := against_at A B rest d.name y N O hN hO _ hT
    rw [← hde, hs] at ha
    have hi := acc_iff small true N O hN hO (tame N O hk hp)
    rw [ha]
    refine ⟨fun h => ⟨_, by rw [if_pos (hi.2 h)], fun ht => ?_⟩, fun h => by rw [if_neg (fun h' => h (hi.1 h'))]⟩
    have hm := mrg_eq small N O (ht N O hk hp)
    rw [hp, hm]
    simp only [Decl.with, hk]
  -- without linkage
  cases hcur : cur.decls.reverse.find? (hit d.name true) with
  | some e =>
    have hn : e.name = d.name := by
      have := List.find?_some hcur
      simpa [hit] using this
    have hmem : e ∈ cur.decls := by
      have := List.mem_of_find?_eq_some hcur
      simpa using this
    -- the search ends at `e`
    obtain ⟨R, hR⟩ : ∃ R, encAll (cur :: outer) = R ++ cur.enc := by
      cases outer with
      | nil => exact ⟨[], rfl⟩
      | cons a r => exact ⟨encAll (a :: r) ++ [.hash], by simp [encAll]⟩
    have hw := walk_items s (encAll (cur :: outer)).length d.name (d.linked || d.local) d.linked file true cur hc R.reverse nx
    rw [hcur] at hw
    obtain ⟨hed, A, B, n', h1, h2⟩ := hw
    have hrev : (encAll (cur :: outer)).reverse = cur.enc.reverse ++ R.reverse := by rw [hR]; simp
    rw [hrev, h2, walk_cur _ _ _ e hn _ _ _ _ _
      (fun hf => ⟨(hfile hf).2 e hmem, fun h => by simpa [(hfile hf).1] using h⟩) (fun h => by simp at h; exact h.1)]
    by_cases hl : d.linked = true ∧ e.linked = true
    · rw [if_pos hl]
      obtain ⟨N, hdN⟩ := linked_ext d hl.1
      obtain ⟨O, heO⟩ := linked_ext e hl.2
      have hk : d.kind = .ext N := by rw [hdN]
      have hp : prior d.name (declsAll (cur :: outer)) = some O := by
        rw [prior_find, hdecl, List.reverse_append, List.find?_append]
        have : cur.decls.reverse.find? (hit d.name false) = some e := by
          -- `e` is the last declaration of the name, and it has linkage
          rw [List.find?_eq_some_iff_append] at hcur ⊢
          obtain ⟨hh, as, bs, hl1, hl2⟩ := hcur
          refine ⟨by simp [hit, hn, hl.2], as, bs, hl1, fun a ha => ?_⟩
          have := hl2 a ha
          simp [hit] at this ⊢
          exact .inl this
        rw [this, heO]
        rfl
      have hlen : (A.reverse ++ R.reverse).length = (R ++ A).length := by simp; omega
      have hOd : O.deep := by
        rw [heO] at hed; simpa [Decl.deep] using hed
      have hT : encAll (cur :: outer) = (R ++ A) ++ (Decl.enc ⟨e.name, .ext O⟩ ++ B) := by
        rw [← heO, hR, h1]; simp
      rw [hlen]
      obtain ⟨c1, c2⟩ := cmp N O e.name (R ++ A) B hk hOd hT hp
      have hall : ∀ a ∈ cur.decls, a.name = d.name → a.linked = true ∧ d.linked = true := by
        intro a ha han
        refine ⟨?_, hl.1⟩
        rw [List.find?_eq_some_iff_append] at hcur
        obtain ⟨hh, as, bs, hl1, hl2⟩ := hcur
        have hcd : cur.decls = bs.reverse ++ (e :: as.reverse) := by
          have := congrArg List.reverse hl1; simpa using this
        rw [hcd] at ha
        rcases List.mem_append.1 ha with h | h
        · have := tog
          rw [Together, hcd, List.pairwise_append] at this
          exact (this.2.2 a h e (by simp) (by rw [han, hn])).1
        · rcases List.mem_cons.1 h with h | h
          · rw [h]; exact hl.2
          · have := hl2 a (by simpa using h)
            simp [hit, han] at this
      have hv : Valid small (declsAll outer) cur.decls d ↔ Compat small N O := by
        constructor
        · intro h; exact h.2 N O hk hp
        · intro h
          refine ⟨hall, fun t t' h1 h2 => ?_⟩
          rw [hdecl] at hp
          rw [hk] at h1; rw [hp] at h2
          cases h1; cases h2; exact h
      rw [hv]
      exact ⟨c1, c2⟩
    · rw [if_neg hl]
      have hnv : ¬Valid small (declsAll outer) cur.decls d := fun h => hl ⟨(h.1 e hmem hn).2, (h.1 e hmem hn).1⟩
      exact ⟨fun h => absurd h hnv, fun _ => rfl⟩
  | none =>
    have hnone : ∀ e ∈ cur.decls, e.name ≠ d.name := by
      intro e he
      have := List.find?_eq_none.1 hcur e (by simpa using he)
      simpa [hit] using this
    have hfree : cur.decls.reverse.find? (hit d.name false) = none := by
      rw [List.find?_eq_none]
      intro e he
      simp [hit, hnone e (by simpa using he)]
    have hprior : prior d.name (declsAll (cur :: outer)) = prior d.name (declsAll outer) := by
      rw [prior_find, prior_find, hdecl, List.reverse_append, List.find?_append, hfree, Option.none_or]
    have hfirst : ∀ e ∈ cur.decls, e.name = d.name → e.linked = true ∧ d.linked = true :=
      fun e he h => absurd h (hnone e he)
    -- nothing is found: the table stays as it is
    have fine : (d.linked = true → prior d.name (declsAll (cur :: outer)) = none) →
        Valid small (declsAll outer) cur.decls d ∧
        s = encAll (cur :: outer) ++ ((d.with (prior d.name (declsAll (cur :: outer)))).enc ++ rest) := by
      intro h
      have hno : ∀ t, d.kind = .ext t → prior d.name (declsAll (cur :: outer)) = none := fun t ht =>
        h (by simp [Decl.linked, ht])
      refine ⟨⟨hfirst, fun t t' h1 h2 => ?_⟩, ?_⟩
      · rw [← hdecl, hno t h1] at h2; simp at h2
      · rw [← hs]
        have : d.with (prior d.name (declsAll (cur :: outer))) = d := by
          cases hk : d.kind <;> simp only [Decl.with, hk]
          rw [hno _ hk]
        rw [this]
    have done : walk s (encAll (cur :: outer)).length d.name (d.linked || d.local) d.linked file (encAll (cur :: outer)).reverse 0 true nx = .ok s →
        (d.linked = true → prior d.name (declsAll (cur :: outer)) = none) → _ := fun hw h =>
      (⟨fun _ => ⟨s, hw, fun _ => (fine h).2⟩, fun hv => absurd (fine h).1 hv⟩ :
        (Valid small (declsAll outer) cur.decls d → ∃ s', walk s (encAll (cur :: outer)).length d.name (d.linked || d.local) d.linked file (encAll (cur :: outer)).reverse 0 true nx = .ok s' ∧
          ((∀ t t', d.kind = .ext t → prior d.name (declsAll (cur :: outer)) = some t' → Tame small false t t') →
            s' = encAll (cur :: outer) ++ ((d.with (prior d.name (declsAll (cur :: outer)))).enc ++ rest))) ∧
        (¬Valid small (declsAll outer) cur.decls d →
          walk s (encAll (cur :: outer)).length d.name (d.linked || d.local) d.linked file (encAll (cur :: outer)).reverse 0 true nx = .error))
    cases outer with
    | nil =>
      have hw := walk_items s (encAll [cur]).length d.name (d.linked || d.local) d.linked file true cur hc [] nx
      rw [hcur] at hw
      obtain ⟨n', hw⟩ := hw
      refine done (by simpa [encAll, walk] using hw) (fun _ => ?_)
      rw [hprior]; rfl
    | cons a r =>
      have hw := walk_items s (encAll (cur :: a :: r)).length d.name (d.linked || d.local) d.linked file true cur hc
        (.hash :: (encAll (a :: r)).reverse) nx
      rw [hcur] at hw
      obtain ⟨n', hw⟩ := hw
      have hrev : (encAll (cur :: a :: r)).reverse = cur.enc.reverse ++ .hash :: (encAll (a :: r)).reverse := by
        rw [encAll_cons _ _ (by simp)]; simp
      rw [← hrev] at hw
      cases hl : d.linked with
      | false =>
        rw [hl] at hw done
        refine done (by rw [hw]; simp [walk]) (by simp)
      | true =>
        rw [hl] at hw done
        have hh : walk s (encAll (cur :: a :: r)).length d.name (true || d.local) true file (.hash :: (encAll (a :: r)).reverse) 0 true n' =
            walk s (encAll (cur :: a :: r)).length d.name true true file (encAll (a :: r)).reverse 0 false .hash := by
          simp [walk]
        have hout := walk_outer s (encAll (cur :: a :: r)).length d.name file (a :: r) ho .hash
        cases hf : (declsAll (a :: r)).reverse.find? (hit d.name false) with
        | none =>
          rw [hf] at hout
          refine done (by rw [hw, hh, hout]) (fun _ => ?_)
          rw [hprior, prior_find, hf]; rfl
        | some e =>
          rw [hf] at hout
          obtain ⟨hed, A, B, n2, h1, h2⟩ := hout
          have hhit := List.find?_some hf
          simp only [hit, Bool.false_or, Bool.and_eq_true, decide_eq_true_eq] at hhit
          obtain ⟨N, hdN⟩ := linked_ext d hl
          obtain ⟨O, heO⟩ := linked_ext e hhit.2
          have hk : d.kind = .ext N := by rw [hdN]
          have hp : prior d.name (declsAll (cur :: a :: r)) = some O := by
            rw [hprior, prior_find, hf, heO]; rfl
          have hOd : O.deep := by rw [heO] at hed; simpa [Decl.deep] using hed
          have hen : e = ⟨d.name, .ext O⟩ := by rw [heO, hhit.1]
          have hT : encAll (cur :: a :: r) = A ++ (Decl.enc ⟨e.name, .ext O⟩ ++ (B ++ .hash :: cur.enc)) := by
            rw [← heO, encAll_cons _ _ (by simp), h1]; simp
          obtain ⟨c1, c2⟩ := cmp N O e.name A _ hk hOd hT hp
          rw [hw, hh, h2, hen, walk_ext, List.length_reverse]
          have hv : Valid small (declsAll (a :: r)) cur.decls d ↔ Compat small N O := by
            constructor
            · intro h; exact h.2 N O hk hp
            · intro h
              refine ⟨hfirst, fun t t' h1 h2 => ?_⟩
              rw [hdecl] at hp
              rw [hk] at h1; rw [hp] at h2
              cases h1; cases h2; exact h
          rw [hv]
          exact ⟨c1, c2⟩

/-- C60, members: a new member of a structure, on top of the members that precede it, is rejected if and only
if one of them has its name; members of structures in the structure do not count. -/
theorem c60_members (T rest : List E) (ms : Items) (y : Nat) (t : Ty) (file : Bool) :
    checkRedecl (T ++ .lbrc :: (ms.enc ++ (.mem y :: .lofs :: tyE t ++ rest))) (T ++ .lbrc :: ms.enc).length file =
      if y ∈ ms.fields then .error else .ok (T ++ .lbrc :: (ms.enc ++ (.mem y :: .lofs :: tyE t ++ rest))) := by
  generalize hs : T ++ .lbrc :: (ms.enc ++ (.mem y :: .lofs :: tyE t ++ rest)) = s
  have hs' : s = (T ++ .lbrc :: ms.enc) ++ (.mem y :: .lofs :: tyE t ++ rest) := by rw [← hs]; simp
  have h0 : s[(T ++ E.lbrc :: ms.enc).length]? = some (.mem y) := by
    rw [hs', List.getElem?_append_right (by omega)]; simp
  have h1 : (s.take (T ++ E.lbrc :: ms.enc).length).reverse = ms.enc.reverse ++ .lbrc :: T.reverse := by
    rw [hs', List.take_left]; simp
  unfold checkRedecl
  rw [h0]
  simp only [h1]
  obtain ⟨m1, m2⟩ := mem_items s y ms (.lbrc :: T.reverse) 1 (.mem y) (by omega)
  by_cases h : y ∈ ms.fields
  · rw [if_pos h, m2 ⟨rfl, h⟩]
  · rw [if_neg h]
    obtain ⟨n', e⟩ := m1 (fun h' => h h'.2)
    rw [e, walkMem]
    simp

/-! ### where the code departs from C -/

/-- `int` and a type that is promoted -/
abbrev int : Ty := .base (.plain 0)
abbrev char : Ty := .base (.plain 1)
abbrev promoted (b : Nat) : Bool := b == 1

/-- After `int f(int);` C allows `int f();`, but the code rejects it. -/
theorem c60_reject :
    ∃ cur d, Valid promoted [] (Items.decls cur) d ∧ checkRedecl (encAll [cur] ++ (d.enc ++ [])) (encAll [cur]).length true = .error := by
  refine ⟨.decl ⟨5, .ext (.fn (.cons none int .nil) int)⟩ .nil, ⟨5, .ext (.fn .unknown int)⟩, ⟨?_, ?_⟩, by decide +kernel⟩
  · simp [Items.decls, Decl.linked]
  · intro t t' h1 h2
    simp [prior, Items.decls] at h1 h2
    subst h1; subst h2
    simp [Compat, PCompat, Promoted, narrow]

/-- After `int f();` C allows neither `int f(char);` nor `int f(int, ...);`, but the code accepts them. -/
theorem c60_promote :
    ∀ ps ∈ [Ps.cons none char .nil, Ps.cons none int .dots], ∃ cur d s,
      d.kind = .ext (.fn ps int) ∧ ¬Valid promoted [] (Items.decls cur) d ∧
      checkRedecl (encAll [cur] ++ (d.enc ++ [])) (encAll [cur]).length true = .ok s := by
  intro ps hps
  refine ⟨.decl ⟨5, .ext (.fn .unknown int)⟩ .nil, ⟨5, .ext (.fn ps int)⟩, encAll [.decl ⟨5, .ext (.fn .unknown int)⟩ .nil] ++ (Decl.enc ⟨5, .ext (.fn ps int)⟩ ++ []), rfl, ?_, ?_⟩
  · rintro ⟨-, h⟩
    have := h (.fn ps int) (.fn .unknown int) rfl rfl
    simp only [List.mem_cons, List.not_mem_nil, or_false] at hps
    rcases hps with rfl | rfl <;> simp [Compat, PCompat, Promoted, narrow] at this
  · simp only [List.mem_cons, List.not_mem_nil, or_false] at hps
    rcases hps with rfl | rfl <;> decide +kernel

/-- After `int f(void);` and `int f();` the function takes no arguments, but the table then has `int f();`. -/
theorem c60_lost :
    ∃ cur d s, Valid promoted [] (Items.decls cur) d ∧
      checkRedecl (encAll [cur] ++ (d.enc ++ [])) (encAll [cur]).length true = .ok s ∧
      s ≠ encAll [cur] ++ ((d.with (prior d.name (Items.decls cur))).enc ++ []) := by
  refine ⟨.decl ⟨5, .ext (.fn .nil int)⟩ .nil, ⟨5, .ext (.fn .unknown int)⟩, _, ⟨?_, ?_⟩, rfl, by decide +kernel⟩
  · simp [Items.decls, Decl.linked]
  · intro t t' h1 h2
    simp [prior, Items.decls] at h1 h2
    subst h1; subst h2
    simp [Compat, PCompat, Promoted]

/-! ### examples -/

/-- A file declares `int a[];`, `int g(int p, int (*)[]);`, `typedef char T;` and `struct { int m; enum { K } k; } v;`;
a function has a variable `a` and an inner block with `int w;`.  There `extern int a[7];` and
`int g(int, int (*q)[3]);` are accepted and complete the types; `extern char a[7];`, `static int w;` and `int w();` are rejected. -/
abbrev exFile : Items :=
  .decl ⟨1, .ext (.arr 0 int)⟩ <| .decl ⟨2, .ext (.fn (.cons (some 9) int (.cons none (.ptr (.arr 0 int)) .nil)) int)⟩ <|
  .decl ⟨3, .tdef char⟩ <| .other <| .other <|
  .body (.field 20 int <| .other <| .decl ⟨21, .enum⟩ <| .field 22 int .nil) <| .decl ⟨4, .ext (.base (.plain 30))⟩ .nil
abbrev exFn : Items := .decl ⟨1, .auto int⟩ .nil
abbrev exBlock : Items := .decl ⟨6, .auto int⟩ .nil
abbrev exScopes : List Items := [exBlock, exFn, exFile]

example : prior 1 (declsAll exScopes) = some (.arr 0 int) := rfl
example : checkRedecl (encAll exScopes ++ (Decl.enc ⟨1, .ext (.arr 7 int)⟩ ++ [])) (encAll exScopes).length false =
    .ok (encAll exScopes ++ (Decl.enc ⟨1, .ext (.arr 7 int)⟩ ++ [])) := by decide +kernel
example : checkRedecl (encAll exScopes ++ (Decl.enc ⟨2, .ext (.fn (.cons none int (.cons (some 8) (.ptr (.arr 3 int)) .nil)) int)⟩ ++ []))
      (encAll exScopes).length false =
    .ok (encAll exScopes ++ (Decl.enc ⟨2, .ext (.fn (.cons none int (.cons (some 8) (.ptr (.arr 3 int)) .nil)) int)⟩ ++ [])) := by
  decide +kernel
example : checkRedecl (encAll exScopes ++ (Decl.enc ⟨1, .ext (.arr 7 char)⟩ ++ [])) (encAll exScopes).length false = .error := by
  decide +kernel
example : checkRedecl (encAll exScopes ++ (Decl.enc ⟨6, .stat int⟩ ++ [])) (encAll exScopes).length false = .error := by decide +kernel
example : checkRedecl (encAll exScopes ++ (Decl.enc ⟨6, .ext (.fn .unknown int)⟩ ++ [])) (encAll exScopes).length false = .error := by
  decide +kernel
/-- the enumeration constant of the structure belongs to the file -/
example : checkRedecl (encAll [exFile] ++ (Decl.enc ⟨21, .ext int⟩ ++ [])) (encAll [exFile]).length true = .error := by decide +kernel
/-- the hypotheses of `c60_redecl_partial` hold for the second of these declarations, and so does `Valid` -/
example : (∀ it ∈ exScopes, Items.deep it) ∧ Together (Items.decls exBlock) ∧
    (∀ t t', prior 2 (declsAll exScopes) = some t' → t = .fn (.cons none int (.cons (some 8) (.ptr (.arr 3 int)) .nil)) int →
      Tame promoted false t t' ∧ Compat promoted t t') := by
  refine ⟨?_, ?_, ?_⟩
  · simp [exScopes, Items.deep, Decl.deep, Ty.deep, Ps.deep, Ps.deep', Ty.isFn, Ty.isVoid, Ty.isArr]
  · simp [Together, Items.decls]
  · intro t t' h1 h2
    simp [prior, declsAll, Items.decls] at h1
    subst h1; subst h2
    simp [Tame, PTame, Compat, PCompat]
/-- members: `struct { int a; struct { int b; } c; int b; ...` - a further `b` is rejected, a further `d` is not -/
abbrev exMembers : Items := .field 1 int <| .other <| .body (.field 7 int .nil) <| .field 3 int <| .field 2 int .nil
example : 2 ∈ exMembers.fields ∧ 7 ∉ exMembers.fields := by decide

end Smlr.Redecl
