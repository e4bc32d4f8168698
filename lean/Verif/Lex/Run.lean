import Verif.Lex.Lexeme
set_option autoImplicit false
/-! The whole text. -/
namespace Smlr.Lex

open Lit (peek)

theorem tokens_eq (T : Cfg) (f : Nat) (s : Str) (n : Nat) : tokens T (f + 1) s n =
    match skip s n with
    | .error e => .error e
    | .ok (s, n) =>
      if peek s = 0 then .ok []
      else match inner T s with
        | .error e => .error e
        | .ok (some (t, r)) => (tokens T f r n).map ((t, n) :: ·)
        | .ok none =>
          if peek s = 0x5F ∨ isAlpha (peek s) then
            match getIdent s with
            | .error e => .error e
            | .ok (w, r) =>
              match expansion T n w with
              | some e => tokens T f (e ++ 0x20 :: r) n
              | none =>
                let t := getTokenByWord w
                if ignored t then tokens T f r n
                else (tokens T f r n).map ((if t = .Ident then .ident w else .op t, n) :: ·)
          else if peek s = 0x23 then .error .directive
          else .error .char := rfl

theorem tokens_skip (T : Cfg) (f : Nat) (s s' : Str) (n n' : Nat) (h : skip s n = skip s' n') : tokens T f s n = tokens T f s' n' := by
  cases f with
  | zero => rfl
  | succ f => rw [tokens_eq, tokens_eq, h]

theorem tokens_nil (T : Cfg) (f n m : Nat) : tokens T f [] n = tokens T f [] m := by
  cases f <;> rfl

/-- the first characters of tokens -/
theorem starts : ∀ c ∈ firsts ++ letters ++ digits ++ [0x27, 0x22], c ≠ 0 ∧ c ∉ blanks ∧ c ≠ cr ∧ c ≠ lf := by decide +kernel

theorem stuck_of {s : Str} (h : peek s ∈ firsts ++ letters ++ digits ++ [0x27, 0x22]) (hs : peek s = 0x2F → peek s.tail ≠ 0x2F ∧ peek s.tail ≠ 0x2A) :
    Stuck s ∧ peek s ≠ 0 := by
  obtain ⟨h0, h1, h2, h3⟩ := starts _ h
  exact ⟨⟨h1, h2, h3, hs⟩, h0⟩

theorem slash_punct : ∀ p ∈ puncts, p.1.head? = some 0x2F → p.1 = str "/" ∨ p.1 = str "/=" := by decide +kernel

theorem letters_ne : ∀ c ∈ letters, c ∉ firsts ∧ c ∉ digits ∧ c ≠ 0x27 ∧ c ≠ 0x22 ∧ c ≠ 0x2F ∧ c ≠ 0x2E := by decide +kernel

theorem oper_letter {s : Str} (h : peek s ∉ firsts) : oper s = none := by
  cases ho : oper s with
  | none => rfl
  | some x =>
    obtain ⟨t, k⟩ := x
    obtain ⟨w, r, e, -, hp, -⟩ := oper_some s t k ho
    obtain ⟨c, hc, hw⟩ := puncts_first _ hp
    exfalso
    refine h ?_
    rw [e]
    cases w with
    | nil => cases hw
    | cons d w =>
      injection hw with hw
      subst hw
      exact hc

theorem Word.peek {s w r : Str} (h : Word s w r) : Lit.peek s ∈ letters := by
  obtain ⟨rfl, ⟨c, w, rfl, hc⟩, -⟩ := h
  exact hc

theorem inner_word (T : Cfg) {s w r : Str} (h : Word s w r) : inner T s = .ok none := by
  obtain ⟨h1, h2, h3, h4, h5, h6⟩ := letters_ne _ h.peek
  unfold inner
  rw [oper_letter h1]
  dsimp only
  rw [if_neg, if_neg, if_neg]
  · unfold isQuote
    simp only [Bool.or_eq_true, decide_eq_true_eq, not_or]
    exact ⟨h3, h4⟩
  · rintro ⟨hL, hq⟩
    have hh := h
    obtain ⟨rfl, ⟨c, w, rfl, hc⟩, ha, hs, hn⟩ := h
    have hcL : c = 0x4C := hL
    subst hcL
    cases w with
    | nil =>
      cases r with
      | nil => exact absurd hq (by decide)
      | cons d r =>
        have := hn (by decide) d rfl
        change isQuote d = true at hq
        unfold isQuote at hq
        simp only [Bool.or_eq_true, decide_eq_true_eq] at hq
        rcases hq with hq | hq
        · exact this.1 hq
        · exact this.2 hq
    | cons d w =>
      change isQuote d = true at hq
      have hd := ha d (by simp)
      have : ∀ c ∈ letters ++ digits, isQuote c = false := by decide +kernel
      rw [this d hd] at hq
      cases hq
  · rintro (h | h)
    · exact h2 ((isDigit_iff _).1 h)
    · exact h6 h

/-- a name -/
theorem word_step (T : Cfg) {s w r : Str} (h : Word s w r) (hl : w.length ≤ 63) (f n : Nat) : Stuck s ∧ peek s ≠ 0 ∧
    tokens T (f + 1) s n = match expansion T n w with
      | some e => tokens T f (e ++ 0x20 :: r) n
      | none => if ignored (getTokenByWord w) then tokens T f r n
                else (tokens T f r n).map ((if getTokenByWord w = .Ident then .ident w else .op (getTokenByWord w), n) :: ·) := by
  have hp := h.peek
  obtain ⟨h1, h2⟩ := stuck_of (s := s) (by simp only [List.mem_append]; exact Or.inl (Or.inl (Or.inr hp))) (fun h => absurd h (letters_ne _ hp).2.2.2.2.1)
  refine ⟨h1, h2, ?_⟩
  rw [tokens_eq, skip_stuck s n h1]
  dsimp only
  rw [if_neg h2, inner_word T h]
  dsimp only
  rw [if_pos ((start_iff _).2 hp), getIdent_ok h hl]

theorem not_op {s : Str} (h : oper s = none) (hq : peek s ∈ [0x27, 0x22, 0x4C]) : ¬ (isDigit (peek s) = true ∨ peek s = 0x2E) := by
  have : ∀ c ∈ ([0x27, 0x22, 0x4C] : List UInt8), ¬ (isDigit c = true ∨ c = 0x2E) := by decide
  exact this _ hq

/-- a literal -/
theorem literal_step (T : Cfg) (wide : Bool) (q : UInt8) (hq : q = 0x27 ∨ q = 0x22) (s : Str) (t : Token) (r : Str)
    (h : literal T wide (q :: s) = .ok (t, r)) (f n : Nat) :
    Stuck (prefixL wide ++ q :: s) ∧ peek (prefixL wide ++ q :: s) ≠ 0 ∧ tokens T (f + 1) (prefixL wide ++ q :: s) n = (tokens T f r n).map ((t, n) :: ·) := by
  have hqm : q ∈ ([0x27, 0x22] : List UInt8) := by rcases hq with rfl | rfl <;> decide
  have hqq : isQuote q = true := by rcases hq with rfl | rfl <;> decide
  have hL : str "L" = [0x4C] := by decide
  have hpk : peek (prefixL wide ++ q :: s) ∈ ([0x27, 0x22, 0x4C] : List UInt8) := by
    cases wide
    · show q ∈ _
      rcases hq with rfl | rfl <;> decide
    · show (0x4C : UInt8) ∈ _
      decide
  have key : ∀ c ∈ ([0x27, 0x22, 0x4C] : List UInt8), c ∈ firsts ++ letters ++ digits ++ [0x27, 0x22] ∧ c ≠ 0x2F ∧ c ∉ firsts := by decide +kernel
  obtain ⟨k1, k2, k3⟩ := key _ hpk
  obtain ⟨h1, h2⟩ := stuck_of k1 (fun h => absurd h k2)
  refine ⟨h1, h2, ?_⟩
  rw [tokens_eq, skip_stuck _ n h1]
  dsimp only
  rw [if_neg h2]
  have hop := oper_letter k3
  have hi : inner T (prefixL wide ++ q :: s) = .ok (some (t, r)) := by
    unfold inner
    rw [hop]
    dsimp only
    rw [if_neg (not_op hop hpk)]
    cases wide
    · rw [if_neg, if_pos]
      · show (literal T false (q :: s)).map some = _
        rw [h]; rfl
      · exact hqq
      · rintro ⟨h, -⟩
        have : q = 0x4C := h
        rcases hq with rfl | rfl <;> exact absurd this (by decide)
    · rw [if_pos]
      · show (literal T true (q :: s)).map some = _
        rw [h]; rfl
      · exact ⟨rfl, hqq⟩
  rw [hi]

/-- one token -/
theorem lexeme_step (T : Cfg) (hW : T.W = 2 ∨ T.W = 4) (hw : T.wcs = 2 ∨ T.wcs = 4) {num : Str → Number.Tok → Nat → Str → Prop} (hnum : NumOk T num)
    {s : Str} {t : Token} {r : Str} (h : Lexeme T num s t r) (f n : Nat) :
    Stuck s ∧ peek s ≠ 0 ∧ tokens T (f + 1) s n = (tokens T f r n).map ((t, n) :: ·) := by
  cases h with
  | punct w t r h1 h2 h3 h4 =>
    obtain ⟨c, hc, hw⟩ := puncts_first _ h1
    have hpk : peek (w ++ r) = c := by
      cases w with
      | nil => cases hw
      | cons d w => injection hw
    obtain ⟨g1, g2⟩ := stuck_of (s := w ++ r) (by rw [hpk]; simp only [List.mem_append]; exact Or.inl (Or.inl (Or.inl hc))) (by
      intro hs
      rw [hpk] at hs
      subst hs
      rcases slash_punct _ h1 hw with rfl | rfl
      · show peek r ≠ 0x2F ∧ peek r ≠ 0x2A
        cases r with
        | nil => decide
        | cons d r => exact h4 rfl d rfl
      · show (0x3D : UInt8) ≠ 0x2F ∧ (0x3D : UInt8) ≠ 0x2A
        decide)
    refine ⟨g1, g2, ?_⟩
    rw [tokens_eq, skip_stuck _ n g1]
    dsimp only
    rw [if_neg g2]
    have : inner T (w ++ r) = .ok (some (.op t, r)) := by
      unfold inner
      rw [(oper_iff (w ++ r) t w.length).2 ⟨w, r, rfl, rfl, h1, h2, h3⟩]
      dsimp only
      rw [List.drop_left]
    rw [this]
  | keyword s w t r h1 h2 h3 h4 =>
    obtain ⟨k1, k2, k3, k4⟩ := keyword_ok _ h2
    dsimp only at k1 k2 k3 k4
    obtain ⟨g1, g2, g3⟩ := word_step T h1 k3 f n
    refine ⟨g1, g2, ?_⟩
    rw [g3, (plain_iff T n w).2 h4]
    dsimp only
    rw [k1, if_neg (fun h => h3 (k4.1 h)), if_neg k2]
  | ident s w r h1 h2 h3 h4 =>
    obtain ⟨g1, g2, g3⟩ := word_step T h1 h2 f n
    refine ⟨g1, g2, ?_⟩
    rw [g3, (plain_iff T n w).2 h4]
    dsimp only
    rw [not_keyword h3, if_neg (by decide), if_pos rfl]
  | num s t v r h1 =>
    have hrun := hnum.run _ _ _ _ h1
    have hs := hnum.start _ _ _ _ h1
    have hor : isDigit (peek s) = true ∨ peek s = 0x2E := by
      rcases hs with h | h
      · exact Or.inl h
      · exact Or.inr h.1
    have hop : oper s = none := by
      cases ho : oper s with
      | none => rfl
      | some x =>
        exfalso
        obtain ⟨t', k⟩ := x
        obtain ⟨w, r', e, hk, hp, hm, hd⟩ := oper_some s t' k ho
        obtain ⟨c, hc, hw⟩ := puncts_first _ hp
        have hpk : peek s = c := by
          rw [e]
          cases w with
          | nil => cases hw
          | cons d w => injection hw
        rcases hs with h | ⟨h, h'⟩
        · have : ∀ c ∈ firsts, isDigit c = false := by decide +kernel
          rw [hpk, this c hc] at h
          cases h
        · rcases puncts_shape _ hp with ⟨a, ha, -⟩ | ⟨q, hq, ha⟩ | ⟨q, hq, ha⟩
          · dsimp only at ha
            subst ha
            injection hw with hw
            have hdot : [a] = str "." := by rw [str_dot, hw, ← hpk, h]
            rw [e] at h'
            change isDigit (peek r') = true at h'
            cases r' with
            | nil => exact absurd h' (by decide)
            | cons d r' => exact hd hdot d rfl ((isDigit_iff d).1 h')
          · dsimp only at ha
            subst ha
            injection hw with hw
            have : ∀ q ∈ twos, q.1 ≠ 0x2E := by decide
            exact this q hq (by rw [hw, ← hpk, h])
          · dsimp only at ha
            subst ha
            injection hw with hw
            have : ∀ q ∈ threes, q.1 = 0x2E → isDigit q.2.1 = false := by decide
            have h3 := this q hq (by rw [hw, ← hpk, h])
            rw [e] at h'
            change isDigit q.2.1 = true at h'
            rw [h'] at h3
            cases h3
    obtain ⟨g1, g2⟩ := stuck_of (s := s) (by
      simp only [List.mem_append]
      rcases hs with h | h
      · exact Or.inl (Or.inr ((isDigit_iff _).1 h))
      · rw [h.1]; exact Or.inl (Or.inl (Or.inl (by decide)))) (by
        intro h
        exfalso
        rw [h] at hs
        rcases hs with h | ⟨h, -⟩
        · exact absurd h (by decide)
        · exact absurd h (by decide))
    refine ⟨g1, g2, ?_⟩
    rw [tokens_eq, skip_stuck _ n g1]
    dsimp only
    rw [if_neg g2]
    have : inner T s = .ok (some (.num t v, r)) := by
      unfold inner
      rw [hop]
      dsimp only
      rw [if_pos hor, hrun]
    rw [this]
  | char wide s vs r h1 h2 h3 =>
    refine literal_step T wide 0x27 (Or.inl rfl) s _ r ?_ f n
    unfold literal
    show (match Lit.charConst T.W T.wcs wide T.charSigned T.wideSigned s with | .error e => _ | .ok (v, r) => _) = _
    rw [(Lit.c35_char T.W T.wcs hW hw wide T.charSigned T.wideSigned s _ r).2 ⟨vs, h1, h2, h3, rfl⟩]
  | string wide s vs r h1 h2 =>
    refine literal_step T wide 0x22 (Or.inr rfl) s _ r ?_ f n
    unfold literal
    rw [if_neg (by show ¬ (0x22 : UInt8) = 0x27; decide)]
    show (match Lit.getString T.wcs wide s with | .error e => _ | .ok (b, r) => _) = _
    rw [(Lit.c35_string T.wcs hw wide s _ r).2 ⟨vs, h1, h2, rfl⟩]

theorem gap_suffix {full : Bool} {s r : Str} {k : Nat} (h : Gap full s k r) : ∃ g, s = g ++ r := by
  induction h with
  | nil r => exact ⟨[], rfl⟩
  | blank c s k r _ _ ih => obtain ⟨g, rfl⟩ := ih; exact ⟨c :: g, rfl⟩
  | newline e s k r _ _ _ ih => obtain ⟨g, rfl⟩ := ih; exact ⟨e ++ g, by simp⟩
  | line b s k r _ _ _ _ _ ih => obtain ⟨g, rfl⟩ := ih; exact ⟨str "//" ++ b ++ g, by simp⟩
  | block b s k r _ _ _ ih => obtain ⟨g, rfl⟩ := ih; exact ⟨str "/*" ++ b ++ str "*/" ++ g, by simp⟩

/-- white space before something -/
theorem skip_to {full : Bool} {s s' z : Str} {k n : Nat} (h : Gap full s k s') (h0 : full = true → 0 ∉ s)
    (hz : z = [] ∨ (full = false ∧ ∃ z', z = 0x20 :: z')) : skip (s ++ z) n = skip (s' ++ z) (n + k) ∧ (z = [] ∨ k = 0) := by
  rcases hz with rfl | ⟨rfl, hz⟩
  · cases full with
    | true =>
      rw [List.append_nil, List.append_nil]
      exact ⟨skip_gap h n (h0 rfl), Or.inl rfl⟩
    | false =>
      obtain ⟨rfl, h2⟩ := gap_false h
      exact ⟨h2 [] n, Or.inl rfl⟩
  · obtain ⟨rfl, h2⟩ := gap_false h
    exact ⟨h2 z n, Or.inr rfl⟩

theorem map_map' (x : Except Err (List (Token × Nat))) (g h : List (Token × Nat) → List (Token × Nat)) : (x.map g).map h = x.map (fun l => h (g l)) := by
  cases x <;> rfl

/-- the text `s`, followed by `z` -/
theorem lexes_run (T : Cfg) (hW : T.W = 2 ∨ T.W = 4) (hw : T.wcs = 2 ∨ T.wcs = 4) {num : Str → Number.Tok → Nat → Str → Prop} (hnum : NumOk T num)
    (happ : NumApp num) (hsuf : ∀ s t v r, num s t v r → ∃ w, s = w ++ r) {full : Bool} {s : Str} {n : Nat} {ts : List (Token × Nat)}
    (h : Lexes T num full s n ts) : (full = true → 0 ∉ s) → ∀ z, (z = [] ∨ (full = false ∧ ∃ z', z = 0x20 :: z')) →
    ∃ N, ∀ f, tokens T (f + N) (s ++ z) n = (tokens T f z n).map (ts ++ ·) := by
  have idmap : ∀ x : Except Err (List (Token × Nat)), x = x.map ([] ++ ·) := by intro x; cases x <;> rfl
  have hrest : ∀ {s g r : Str}, s = g ++ r → 0 ∉ s → 0 ∉ r := by
    intro s g r h h0 h1
    exact h0 (by rw [h]; exact List.mem_append_right _ h1)
  have hzn : ∀ {z : Str} {k n f : Nat}, (z = [] ∨ k = 0) → tokens T f z (n + k) = tokens T f z n := by
    intro z k n f h
    rcases h with rfl | rfl
    · exact tokens_nil T f _ _
    · rfl
  have hsep : ∀ {z : Str} {full : Bool}, (z = [] ∨ (full = false ∧ ∃ z', z = 0x20 :: z')) → Sep z := by
    intro z full h
    rcases h with h | ⟨-, h⟩
    · exact Or.inl h
    · exact Or.inr h
  induction h with
  | done full s k n hg =>
    intro h0 z hz
    obtain ⟨h1, h2⟩ := skip_to (n := n) hg h0 hz
    refine ⟨0, fun f => ?_⟩
    rw [Nat.add_zero, tokens_skip T f _ _ _ _ h1, List.nil_append, hzn h2]
    exact idmap _
  | token full s k s' n t r ts hg hx _ ih =>
    intro h0 z hz
    obtain ⟨h1, h2⟩ := skip_to (n := n) hg h0 hz
    obtain ⟨g, hgs⟩ := gap_suffix hg
    obtain ⟨g', hgs'⟩ := hx.suffix hsuf
    obtain ⟨N, hN⟩ := ih (fun h => hrest hgs' (hrest hgs (h0 h))) z hz
    refine ⟨N + 1, fun f => ?_⟩
    rw [← Nat.add_assoc, tokens_skip T _ _ _ _ _ h1, (lexeme_step T hW hw hnum (hx.append happ (hsep hz)) (f + N) (n + k)).2.2, hN, map_map', hzn h2]
    rfl
  | drop full s k s' n w r ts hg hx hd hp _ ih =>
    intro h0 z hz
    obtain ⟨h1, h2⟩ := skip_to (n := n) hg h0 hz
    obtain ⟨g, hgs⟩ := gap_suffix hg
    obtain ⟨N, hN⟩ := ih (fun h => hrest hx.text (hrest hgs (h0 h))) z hz
    obtain ⟨t, ht⟩ := dropped_kw w hd
    obtain ⟨k1, k2, k3, k4⟩ := keyword_ok _ ht
    dsimp only at k1 k2 k3 k4
    refine ⟨N + 1, fun f => ?_⟩
    rw [← Nat.add_assoc, tokens_skip T _ _ _ _ _ h1, (word_step T (hx.append (hsep hz)) k3 (f + N) (n + k)).2.2, (plain_iff T _ w).2 hp]
    dsimp only
    rw [k1, if_pos (k4.2 hd), hN, hzn h2]
  | «macro» full s k s' n w e r ts ts' hg hx hl he _ _ ih1 ih2 =>
    intro h0 z hz
    obtain ⟨h1, h2⟩ := skip_to (n := n) hg h0 hz
    obtain ⟨g, hgs⟩ := gap_suffix hg
    obtain ⟨N2, hN2⟩ := ih2 (fun h => hrest hx.text (hrest hgs (h0 h))) z hz
    obtain ⟨N1, hN1⟩ := ih1 (by intro h; cases h) (0x20 :: (r ++ z)) (Or.inr ⟨rfl, _, rfl⟩)
    refine ⟨N2 + N1 + 1, fun f => ?_⟩
    rw [← Nat.add_assoc, tokens_skip T _ _ _ _ _ h1, (word_step T (hx.append (hsep hz)) hl (f + (N2 + N1)) (n + k)).2.2, (expansion_iff T _ w e).2 he]
    dsimp only
    rw [← Nat.add_assoc, hN1, tokens_skip T _ (0x20 :: (r ++ z)) (r ++ z) _ (n + k) (skip_blank _ _ _ (by decide)), hN2, map_map', hzn h2]
    simp only [List.append_assoc]

end Smlr.Lex
