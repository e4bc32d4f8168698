import Verif.Lex.Run
set_option autoImplicit false
/-! Every accepted text consists of tokens. -/
namespace Smlr.Lex

open Lit (peek)

/-! ### `GetNumber` returns an end of its text -/

theorem scanHex_suffix (s : Str) : ∀ (n cnt a b : Nat) (r : Str), Number.scanHex true s n cnt = .ok (a, b, r) → r <:+ s := by
  induction s with
  | nil => intro n cnt a b r h; cases h; exact List.suffix_refl _
  | cons c s ih =>
    intro n cnt a b r h
    unfold Number.scanHex at h
    cases hv : Number.hexVal c with
    | none => rw [hv] at h; cases h; exact List.suffix_refl _
    | some d =>
      rw [hv] at h
      dsimp only at h
      split at h
      · cases h
      · exact (ih _ _ _ _ _ h).trans (List.suffix_cons _ _)

theorem skipZeros_suffix (s : Str) : (Number.skipZeros s).2 <:+ s := by
  induction s with
  | nil => exact List.suffix_refl _
  | cons c s ih =>
    unfold Number.skipZeros
    split
    · exact ih.trans (List.suffix_cons _ _)
    · exact List.suffix_refl _

theorem scanInt_suffix (s : Str) : ∀ (ds : List Nat) (m : Int), (Number.scanInt s ds m).2.2 <:+ s := by
  induction s with
  | nil => intro ds m; exact List.suffix_refl _
  | cons c s ih =>
    intro ds m
    unfold Number.scanInt
    split
    · split
      · exact (ih _ _).trans (List.suffix_cons _ _)
      · exact (ih _ _).trans (List.suffix_cons _ _)
    · exact List.suffix_refl _

theorem scanFrac_suffix (s : Str) : ∀ (ds : List Nat) (m : Int), (Number.scanFrac s ds m).2.2 <:+ s := by
  induction s with
  | nil => intro ds m; exact List.suffix_refl _
  | cons c s ih =>
    intro ds m
    unfold Number.scanFrac
    split
    · exact (ih _ _).trans (List.suffix_cons _ _)
    · exact List.suffix_refl _

theorem scanExp_suffix (s : Str) : ∀ (n cnt a b : Nat) (r : Str), Number.scanExp true s n cnt = .ok (a, b, r) → r <:+ s := by
  induction s with
  | nil => intro n cnt a b r h; cases h; exact List.suffix_refl _
  | cons c s ih =>
    intro n cnt a b r h
    unfold Number.scanExp at h
    split at h
    · dsimp only at h
      split at h
      · simp only [if_true] at h; cases h
      · exact (ih _ _ _ _ _ h).trans (List.suffix_cons _ _)
    · cases h; exact List.suffix_refl _

/-- the second half of `scanSuffix` -/
def scanL (u : Bool) (s : Str) : Bool × Bool × Str :=
  match s with
  | c :: s' =>
    if c = 0x6C ∨ c = 0x4C then
      match s' with
      | c' :: s'' => if !u && (c' = 0x75 ∨ c' = 0x55) then (true, true, s'') else (u, true, s')
      | [] => (u, true, [])
    else (u, false, s)
  | [] => (u, false, [])

theorem scanL_suffix (u : Bool) (s : Str) : (scanL u s).2.2 <:+ s := by
  have h1 : ∀ (c d : UInt8) (s : Str), s <:+ c :: d :: s := fun c d s => ⟨[c, d], rfl⟩
  unfold scanL
  cases s with
  | nil => exact List.suffix_refl _
  | cons d s =>
    dsimp only
    split
    · cases s with
      | nil => exact List.suffix_cons _ _
      | cons e s =>
        dsimp only
        split
        · exact h1 _ _ _
        · exact List.suffix_cons _ _
    · exact List.suffix_refl _

theorem scanSuffix_suffix (s : Str) : (Number.scanSuffix s).2.2 <:+ s := by
  cases s with
  | nil => exact List.suffix_refl _
  | cons c s =>
    have e : Number.scanSuffix (c :: s) = scanL (if c = 0x75 ∨ c = 0x55 then (true, s) else (false, c :: s)).1 (if c = 0x75 ∨ c = 0x55 then (true, s) else (false, c :: s)).2 := rfl
    rw [e]
    by_cases hc : c = 0x75 ∨ c = 0x55
    · rw [if_pos hc]
      exact (scanL_suffix true s).trans (List.suffix_cons _ _)
    · rw [if_neg hc]
      exact scanL_suffix false (c :: s)

theorem endInt_suffix (word : Nat) (dec : Bool) (n : Nat) (s : Str) (t : Number.Tok) (v : Nat) (r : Str) (h : Number.endInt true word dec n s = .ok (t, v, r)) : r <:+ s := by
  have hs := scanSuffix_suffix s
  unfold Number.endInt at h
  generalize Number.scanSuffix s = x at h hs
  obtain ⟨u, l, s'⟩ := x
  dsimp only at h hs
  rw [if_pos rfl] at h
  split at h
  · cases h
  · cases h
    exact hs

theorem dropFL_suffix (s : Str) : Number.dropFL s <:+ s := by
  unfold Number.dropFL
  cases s with
  | nil => exact List.suffix_refl _
  | cons c s =>
    dsimp only
    split
    · exact List.suffix_cons _ _
    · exact List.suffix_refl _

theorem endFloat_suffix (ds : List Nat) (m e : Int) (s : Str) (t : Number.Tok) (v : Nat) (r : Str) (h : Number.endFloat true ds m e s = .ok (t, v, r)) : r <:+ s := by
  have hs := dropFL_suffix s
  unfold Number.endFloat at h
  generalize Number.dropTrailing ds m = x at h
  obtain ⟨ds', m'⟩ := x
  dsimp only at h
  generalize (if ds' = [] then ([0], 0) else (ds', m') : List Nat × Int) = y at h
  obtain ⟨ds'', m''⟩ := y
  dsimp only at h
  by_cases hc : (m'' ≥ 0 ∧ e > 2 ^ 31 - 1 - m'') ∨ (m'' < 0 ∧ e ≤ -2 ^ 31 - (m'' + 1))
  · rw [if_pos hc, if_pos rfl] at h; cases h
  · rw [if_neg hc, if_pos rfl] at h
    cases hx : Number.d2f ds'' (e + m'') with
    | error x => rw [hx] at h; cases h
    | ok x =>
      rw [hx] at h
      cases h
      exact hs

/-- the sign of the exponent -/
def signPart (s : Str) : Bool × Str :=
  match s with
  | c' :: s'' => if c' = 0x2D then (true, s'') else if c' = 0x2B then (false, s'') else (false, s)
  | [] => (false, [])

theorem signPart_suffix (s : Str) : (signPart s).2 <:+ s := by
  unfold signPart
  cases s with
  | nil => exact List.suffix_refl _
  | cons d s =>
    dsimp only
    split
    · exact List.suffix_cons _ _
    · split
      · exact List.suffix_cons _ _
      · exact List.suffix_refl _

theorem scanExpPart_cons (c : UInt8) (s : Str) : Number.scanExpPart true (c :: s) =
    if c = 0x65 ∨ c = 0x45 then
      match Number.scanExp true (signPart s).2 0 0 with
      | .error e => .error e
      | .ok (n, cnt, s') => if cnt = 0 then .error .badFloat else .ok (if (signPart s).1 then -(n : Int) else n, cnt, s')
    else .ok (0, 0, c :: s) := rfl

theorem scanExpPart_suffix (s : Str) (e : Int) (n : Nat) (r : Str) (h : Number.scanExpPart true s = .ok (e, n, r)) : r <:+ s := by
  cases s with
  | nil => cases h; exact List.suffix_refl _
  | cons c s =>
    rw [scanExpPart_cons] at h
    by_cases hc : c = 0x65 ∨ c = 0x45
    · rw [if_pos hc] at h
      cases hx : Number.scanExp true (signPart s).2 0 0 with
      | error x => rw [hx] at h; cases h
      | ok x =>
        obtain ⟨a, b, r'⟩ := x
        rw [hx] at h
        dsimp only at h
        split at h
        · cases h
        · cases h
          exact ((scanExp_suffix _ _ _ _ _ _ hx).trans (signPart_suffix s)).trans (List.suffix_cons _ _)
    · rw [if_neg hc] at h
      cases h
      exact List.suffix_refl _

theorem scanFracPart_suffix (s : Str) (ds : List Nat) (m : Int) : (Number.scanFracPart s ds m).2.2.2 <:+ s := by
  unfold Number.scanFracPart
  cases s with
  | nil => exact List.suffix_refl _
  | cons c s =>
    dsimp only
    split
    · by_cases hd : ds = []
      · rw [if_pos hd]
        dsimp only
        exact ((scanFrac_suffix _ _ _).trans (skipZeros_suffix _)).trans (List.suffix_cons _ _)
      · rw [if_neg hd]
        dsimp only
        exact (scanFrac_suffix _ _ _).trans (List.suffix_cons _ _)
    · exact List.suffix_refl _

theorem decimal_suffix (word : Nat) (lz : Bool) (s : Str) (t : Number.Tok) (v : Nat) (r : Str) (h : Number.decimal true word lz s = .ok (t, v, r)) : r <:+ s := by
  unfold Number.decimal at h
  have h1 := (scanInt_suffix (Number.skipZeros s).2 [] 0).trans (skipZeros_suffix s)
  generalize Number.scanInt (Number.skipZeros s).2 [] 0 = x at h h1
  obtain ⟨ds, m, s1⟩ := x
  dsimp only at h h1
  have h2 := (scanFracPart_suffix s1 ds m).trans h1
  generalize Number.scanFracPart s1 ds m = x at h h2
  obtain ⟨ds', m', dot, s2⟩ := x
  dsimp only at h h2
  cases hx : Number.scanExpPart true s2 with
  | error e => rw [hx] at h; cases h
  | ok x =>
    obtain ⟨e, cnt, s3⟩ := x
    have h3 := (scanExpPart_suffix _ _ _ _ hx).trans h2
    rw [hx] at h
    dsimp only at h
    split at h
    · exact (endFloat_suffix _ _ _ _ _ _ _ h).trans h3
    · split at h
      · cases h
      · exact (endInt_suffix _ _ _ _ _ _ _ h).trans h3

theorem getNumber_suffix (word : Nat) (s : Str) (t : Number.Tok) (v : Nat) (r : Str) (h : Number.getNumber true word s = .ok (t, v, r)) : r <:+ s := by
  unfold Number.getNumber at h
  cases hp : Number.hexPrefix s with
  | none =>
    rw [hp] at h
    exact decimal_suffix _ _ _ _ _ _ h
  | some s' =>
    rw [hp] at h
    have h1 : s' <:+ s := by
      unfold Number.hexPrefix at hp
      split at hp
      · split at hp
        · injection hp with hp
          subst hp
          exact ⟨[_, _], rfl⟩
        · cases hp
      · cases hp
    dsimp only at h
    cases hx : Number.scanHex true s' 0 0 with
    | error e => rw [hx] at h; cases h
    | ok x =>
      obtain ⟨a, b, s2⟩ := x
      rw [hx] at h
      dsimp only at h
      split at h
      · cases h
      · exact ((endInt_suffix _ _ _ _ _ _ _ h).trans (scanHex_suffix _ _ _ _ _ _ hx)).trans h1

/-! ### the loop -/

/-- the numbers `GetNumber` accepts -/
def GetNum (T : Cfg) (s : Str) (t : Number.Tok) (v : Nat) (r : Str) : Prop :=
  Number.getNumber true T.W s = .ok (t, v, r) ∧ (isDigit (peek s) = true ∨ (peek s = 0x2E ∧ isDigit (peek s.tail) = true))

theorem getNum_suffix (T : Cfg) (s : Str) (t : Number.Tok) (v : Nat) (r : Str) (h : GetNum T s t v r) : ∃ w, s = w ++ r := by
  obtain ⟨w, hw⟩ := getNumber_suffix _ _ _ _ _ h.1
  exact ⟨w, hw.symm⟩

theorem literal_inv (T : Cfg) (hW : T.W = 2 ∨ T.W = 4) (hw : T.wcs = 2 ∨ T.wcs = 4) (num : Str → Number.Tok → Nat → Str → Prop) (wide : Bool) (s : Str) (t : Token) (r : Str)
    (hq : isQuote (peek s) = true) (h : literal T wide s = .ok (t, r)) : Lexeme T num (prefixL wide ++ s) t r := by
  cases s with
  | nil => exact absurd hq (by decide)
  | cons q s =>
    unfold literal at h
    change (if q = 0x27 then match Lit.charConst T.W T.wcs wide T.charSigned T.wideSigned s with | .error e => _ | .ok (v, r) => _
      else match Lit.getString T.wcs wide s with | .error e => _ | .ok (b, r) => _) = _ at h
    by_cases hc : q = 0x27
    · rw [if_pos hc] at h
      subst hc
      cases hx : Lit.charConst T.W T.wcs wide T.charSigned T.wideSigned s with
      | error e => rw [hx] at h; cases h
      | ok x =>
        obtain ⟨v, r'⟩ := x
        rw [hx] at h
        cases h
        obtain ⟨vs, h1, h2, h3, rfl⟩ := (Lit.c35_char T.W T.wcs hW hw wide T.charSigned T.wideSigned s v r).1 hx
        exact .char _ _ _ _ h1 h2 h3
    · rw [if_neg hc] at h
      have hq' : q = 0x22 := by
        change isQuote q = true at hq
        unfold isQuote at hq
        simp only [Bool.or_eq_true, decide_eq_true_eq] at hq
        rcases hq with h | h
        · exact absurd h hc
        · exact h
      subst hq'
      cases hx : Lit.getString T.wcs wide s with
      | error e => rw [hx] at h; cases h
      | ok x =>
        obtain ⟨b, r'⟩ := x
        rw [hx] at h
        cases h
        obtain ⟨vs, h1, h2, rfl⟩ := (Lit.c35_string T.wcs hw wide s b r).1 hx
        exact .string _ _ _ _ h1 h2

theorem inner_inv (T : Cfg) (hW : T.W = 2 ∨ T.W = 4) (hw : T.wcs = 2 ∨ T.wcs = 4) (s : Str) (hs : Stuck s) (t : Token) (r : Str)
    (h : inner T s = .ok (some (t, r))) : Lexeme T (GetNum T) s t r := by
  unfold inner at h
  cases ho : oper s with
  | some x =>
    obtain ⟨t', k⟩ := x
    rw [ho] at h
    cases h
    obtain ⟨w, r, rfl, hk, hp, hm, hd⟩ := oper_some s t' k ho
    rw [← hk, List.drop_left]
    refine .punct w t' r hp hm hd ?_
    rintro rfl c hc
    have := hs.slash rfl
    change peek r ≠ 0x2F ∧ peek r ≠ 0x2A at this
    cases r with
    | nil => cases hc
    | cons d r =>
      injection hc with hc
      subst hc
      exact this
  | none =>
    rw [ho] at h
    dsimp only at h
    by_cases hn : isDigit (peek s) = true ∨ peek s = 0x2E
    · rw [if_pos hn] at h
      cases hx : Number.getNumber true T.W s with
      | error e => rw [hx] at h; cases h
      | ok x =>
        obtain ⟨t', v, r'⟩ := x
        rw [hx] at h
        cases h
        refine .num _ _ _ _ ⟨hx, ?_⟩
        rcases hn with h | h
        · exact Or.inl h
        · rcases oper_none s ho with h' | h'
          · exact absurd (by rw [h]; decide) h'
          · exact Or.inr h'
    · rw [if_neg hn] at h
      by_cases hl : peek s = 0x4C ∧ isQuote (peek s.tail) = true
      · rw [if_pos hl] at h
        cases hx : literal T true s.tail with
        | error e => rw [hx] at h; cases h
        | ok x =>
          rw [hx] at h
          cases h
          have := literal_inv T hW hw (GetNum T) true s.tail t r hl.2 hx
          cases s with
          | nil => exact absurd hl.1 (by decide)
          | cons c s =>
            have hc : c = 0x4C := hl.1
            subst hc
            exact this
      · rw [if_neg hl] at h
        by_cases hq : isQuote (peek s) = true
        · rw [if_pos hq] at h
          cases hx : literal T false s with
          | error e => rw [hx] at h; cases h
          | ok x =>
            rw [hx] at h
            cases h
            exact literal_inv T hW hw (GetNum T) false s t r hq hx
        · rw [if_neg hq] at h
          cases h

theorem inner_none (T : Cfg) (s : Str) (h : inner T s = .ok none) : peek s = 0x4C → isQuote (peek s.tail) = false := by
  intro hL
  cases hq : isQuote (peek s.tail) with
  | false => rfl
  | true =>
    exfalso
    unfold inner at h
    rw [oper_letter (by rw [hL]; decide)] at h
    dsimp only at h
    rw [if_neg (by rw [hL]; decide), if_pos ⟨hL, hq⟩] at h
    cases hx : literal T true s.tail with
    | error e => rw [hx] at h; cases h
    | ok x => rw [hx] at h; cases h

theorem tokens_back (T : Cfg) (hW : T.W = 2 ∨ T.W = 4) (hw : T.wcs = 2 ∨ T.wcs = 4) (f : Nat) : ∀ (s : Str) (n : Nat) (ts : List (Token × Nat)),
    0 ∉ s → (∀ w, w <:+: s → Plain T w) → tokens T f s n = .ok ts → Lexes T (GetNum T) true s n ts := by
  induction f with
  | zero => intro s n ts _ _ h; cases h
  | succ f ih =>
    intro s n ts h0 hm h
    rw [tokens_eq] at h
    cases hk : skip s n with
    | error e => rw [hk] at h; cases h
    | ok x =>
      obtain ⟨s', n'⟩ := x
      obtain ⟨k, hg, rfl, hst, h0'⟩ := skip_inv s n s' n' h0 hk
      rw [hk] at h
      dsimp only at h
      obtain ⟨g, hgs⟩ := gap_suffix hg
      by_cases hp0 : peek s' = 0
      · rw [if_pos hp0] at h
        cases h
        have : s' = [] := by
          cases s' with
          | nil => rfl
          | cons c s' =>
            have hc : c = 0 := hp0
            exact absurd (by rw [hc]; exact List.mem_cons_self) h0'
        subst this
        exact .done _ _ k _ hg
      · rw [if_neg hp0] at h
        have hrest : ∀ w r : Str, s' = w ++ r → 0 ∉ r ∧ (∀ v, v <:+: r → Plain T v) := by
          intro w r hr
          refine ⟨fun h => h0' (by rw [hr]; exact List.mem_append_right _ h), fun v hv => hm v ?_⟩
          rw [hgs, hr]
          exact (hv.trans (List.suffix_append w r).isInfix).trans (List.suffix_append g (w ++ r)).isInfix
        cases hi : inner T s' with
        | error e => rw [hi] at h; cases h
        | ok y =>
          rw [hi] at h
          cases y with
          | some y =>
            obtain ⟨t, r⟩ := y
            dsimp only at h
            have hx := inner_inv T hW hw s' hst t r hi
            obtain ⟨w, hwr⟩ := hx.suffix (getNum_suffix T)
            cases hr : tokens T f r (n + k) with
            | error e => rw [hr] at h; cases h
            | ok ts' =>
              rw [hr] at h
              cases h
              exact .token _ _ _ _ _ _ _ _ hg hx (ih r (n + k) ts' (hrest w r hwr).1 (hrest w r hwr).2 hr)
          | none =>
            dsimp only at h
            by_cases hl : peek s' = 0x5F ∨ isAlpha (peek s') = true
            · rw [if_pos hl] at h
              cases hgi : getIdent s' with
              | error e => rw [hgi] at h; cases h
              | ok y =>
                obtain ⟨w, r⟩ := y
                rw [hgi] at h
                dsimp only at h
                obtain ⟨hx, hlen⟩ := getIdent_inv hgi (inner_none T s' hi)
                have hpl : Plain T w := hm w (by
                  rw [hgs, hx.text]
                  exact ⟨g, r, by simp⟩)
                rw [(plain_iff T (n + k) w).2 hpl] at h
                dsimp only at h
                obtain ⟨hr0, hrm⟩ := hrest w r hx.text
                by_cases hkw : ∃ t, (w, t) ∈ keywords
                · obtain ⟨t, ht⟩ := hkw
                  obtain ⟨k1, k2, k3, k4⟩ := keyword_ok _ ht
                  dsimp only at k1 k2 k3 k4
                  rw [k1] at h
                  by_cases hd : ignored t = true
                  · rw [if_pos hd] at h
                    exact .drop _ _ _ _ _ _ _ _ hg hx (k4.1 hd) hpl (ih r (n + k) ts hr0 hrm h)
                  · rw [if_neg hd, if_neg k2] at h
                    cases hr : tokens T f r (n + k) with
                    | error e => rw [hr] at h; cases h
                    | ok ts' =>
                      rw [hr] at h
                      cases h
                      exact .token _ _ _ _ _ _ _ _ hg (.keyword _ _ _ _ hx ht (fun h => hd (k4.2 h)) hpl) (ih r (n + k) ts' hr0 hrm hr)
                · have hno : ∀ t, (w, t) ∉ keywords := fun t h => hkw ⟨t, h⟩
                  rw [not_keyword hno, if_neg (by decide), if_pos rfl] at h
                  cases hr : tokens T f r (n + k) with
                  | error e => rw [hr] at h; cases h
                  | ok ts' =>
                    rw [hr] at h
                    cases h
                    exact .token _ _ _ _ _ _ _ _ hg (.ident _ _ _ hx hlen hno hpl) (ih r (n + k) ts' hr0 hrm hr)
            · rw [if_neg hl] at h
              split at h
              · cases h
              · cases h

end Smlr.Lex
