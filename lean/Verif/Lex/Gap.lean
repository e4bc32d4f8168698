import Verif.Lex.Spec
set_option autoImplicit false
/-! White space and comments. -/
namespace Smlr.Lex

open Lit (peek)

@[simp] theorem peek_cons (c : UInt8) (s : Str) : peek (c :: s) = c := rfl
@[simp] theorem peek_nil : peek [] = 0 := rfl

theorem newline_cons (c : UInt8) (s : Str) : newline (c :: s) = if c = 0x0D ∧ peek s = 0x0A then s.tail else s := rfl

theorem block_cons (f : Nat) (c : UInt8) (s : Str) (n : Nat) : block true (f + 1) (c :: s) n =
    if c = 0 then .error .comment
    else if c = 0x2A ∧ peek s = 0x2F then .ok (s.tail, n)
    else if c = 0x0D ∨ c = 0x0A then block true f (newline (c :: s)) (n + 1)
    else block true f s n := rfl

theorem newline_len (s : Str) (h : s ≠ []) : (newline s).length < s.length := by
  cases s with
  | nil => exact absurd rfl h
  | cons c s =>
    unfold newline
    split
    · simp only [List.tail_cons, List.length_cons, List.length_tail]; omega
    · simp

theorem toEol_len (s : Str) : (toEol s).length ≤ s.length := by
  induction s with
  | nil => simp [toEol]
  | cons c s ih =>
    unfold toEol
    split
    · simp
    · simp only [List.length_cons]; omega

theorem ne_nil_of_peek {s : Str} (h : peek s ≠ 0) : s ≠ [] := by
  rintro rfl; exact h rfl

theorem block_fuel (nl : Bool) (f : Nat) : ∀ (s : Str) (n f' : Nat), s.length < f → s.length < f' → block nl f s n = block nl f' s n := by
  induction f with
  | zero => intro s n f' h; omega
  | succ f ih =>
    intro s n f' h h'
    obtain ⟨f', rfl⟩ : ∃ g, f' = g + 1 := ⟨f' - 1, by omega⟩
    unfold block
    by_cases h0 : peek s = 0
    · simp only [if_pos h0]
    · simp only [if_neg h0]
      have hs := ne_nil_of_peek h0
      have h1 := newline_len s hs
      have h2 : s.tail.length < s.length := by
        cases s with
        | nil => exact absurd rfl hs
        | cons => simp
      split
      · rfl
      · split
        · split
          · rfl
          · exact ih _ _ _ (by omega) (by omega)
        · exact ih _ _ _ (by omega) (by omega)

theorem block_len (nl : Bool) (f : Nat) : ∀ (s : Str) (n : Nat) (r : Str) (m : Nat), block nl f s n = .ok (r, m) → r.length < s.length := by
  induction f with
  | zero => intro s n r m h; cases h
  | succ f ih =>
    intro s n r m h
    unfold block at h
    by_cases h0 : peek s = 0
    · rw [if_pos h0] at h; cases h
    · rw [if_neg h0] at h
      have hs := ne_nil_of_peek h0
      have h1 := newline_len s hs
      have h2 : s.tail.length < s.length := by
        cases s with
        | nil => exact absurd rfl hs
        | cons => simp
      split at h
      · cases h
        rw [List.length_tail]; omega
      · split at h
        · split at h
          · cases h
          · have := ih _ _ _ _ h; omega
        · have := ih _ _ _ _ h; omega

theorem skipSpace_fuel (nl : Bool) (f : Nat) : ∀ (s : Str) (n f' : Nat), s.length < f → s.length < f' → skipSpace nl f s n = skipSpace nl f' s n := by
  induction f with
  | zero => intro s n f' h; omega
  | succ f ih =>
    intro s n f' h h'
    obtain ⟨f', rfl⟩ : ∃ g, f' = g + 1 := ⟨f' - 1, by omega⟩
    unfold skipSpace
    by_cases h0 : peek s = 0
    · simp only [if_pos h0]
    · simp only [if_neg h0]
      have hs := ne_nil_of_peek h0
      have h1 := newline_len s hs
      have h2 : s.tail.length < s.length := by
        cases s with
        | nil => exact absurd rfl hs
        | cons => simp
      have h3 : s.tail.tail.length < s.length := by rw [List.length_tail]; omega
      have h4 := toEol_len s.tail.tail
      split
      · exact ih _ _ _ (by omega) (by omega)
      · split
        · split
          · rfl
          · exact ih _ _ _ (by omega) (by omega)
        · split
          · exact ih _ _ _ (by omega) (by omega)
          · split
            · rw [block_fuel nl f s.tail.tail n f' (by omega) (by omega)]
              cases hb : block nl f' s.tail.tail n with
              | error e => rfl
              | ok x =>
                obtain ⟨r, m⟩ := x
                have := block_len _ _ _ _ _ _ hb
                exact ih _ _ _ (by omega) (by omega)
            · rfl

/-- `SkipSpace(1)` -/
def skip (s : Str) (n : Nat) : Except Err (Str × Nat) := skipSpace true (s.length + 1) s n

theorem skip_fuel (f : Nat) (s : Str) (n : Nat) (h : s.length < f) : skipSpace true f s n = skip s n :=
  skipSpace_fuel true f s n _ h (by omega)

/-- the loop of `SkipSpace` without its bound -/
theorem skip_eq (s : Str) (n : Nat) : skip s n =
    if peek s = 0 then .ok (s, n)
    else if peek s ∈ blanks then skip s.tail n
    else if peek s = cr ∨ peek s = lf then skip (newline s) (n + 1)
    else if peek s = 0x2F ∧ peek s.tail = 0x2F then skip (toEol s.tail.tail) n
    else if peek s = 0x2F ∧ peek s.tail = 0x2A then
      match block true (s.tail.tail.length + 1) s.tail.tail n with
      | .error e => .error e
      | .ok (s, n) => skip s n
    else .ok (s, n) := by
  conv => lhs; unfold skip skipSpace
  by_cases h0 : peek s = 0
  · simp only [if_pos h0]
  · simp only [if_neg h0]
    have hs := ne_nil_of_peek h0
    have h1 := newline_len s hs
    have h2 : s.tail.length < s.length := by
      cases s with
      | nil => exact absurd rfl hs
      | cons => simp
    have h3 : s.tail.tail.length < s.length := by rw [List.length_tail]; omega
    have h4 := toEol_len s.tail.tail
    have hmem : (peek s ∈ [0x20, 9, 0x0C, 0x0B]) ↔ peek s ∈ blanks := by
      unfold blanks
      simp only [List.mem_cons, List.not_mem_nil, or_false]
      constructor
      · rintro (h | h | h | h) <;> simp [h]
      · rintro (h | h | h | h) <;> simp [h]
    by_cases hb : peek s ∈ blanks
    · rw [if_pos (hmem.2 hb), if_pos hb, skip_fuel _ _ _ (by omega)]
    · rw [if_neg (fun h => hb (hmem.1 h)), if_neg hb]
      show (if peek s = cr ∨ peek s = lf then _ else _) = _
      split
      · simp only [Bool.true_eq_false, if_false]
        exact skip_fuel _ _ _ (by omega)
      · split
        · exact skip_fuel _ _ _ (by omega)
        · split
          · rw [block_fuel true s.length s.tail.tail n (s.tail.tail.length + 1) (by omega) (by omega)]
            cases hb : block true (s.tail.tail.length + 1) s.tail.tail n with
            | error e => rfl
            | ok x =>
              obtain ⟨r, m⟩ := x
              have := block_len _ _ _ _ _ _ hb
              exact skip_fuel _ _ _ (by omega)
          · rfl

theorem skip_cons (c : UInt8) (s : Str) (n : Nat) : skip (c :: s) n =
    if c = 0 then .ok (c :: s, n)
    else if c ∈ blanks then skip s n
    else if c = cr ∨ c = lf then skip (newline (c :: s)) (n + 1)
    else if c = 0x2F ∧ peek s = 0x2F then skip (toEol s.tail) n
    else if c = 0x2F ∧ peek s = 0x2A then
      match block true (s.tail.length + 1) s.tail n with
      | .error e => .error e
      | .ok (s, n) => skip s n
    else .ok (c :: s, n) := skip_eq (c :: s) n

theorem skip_blank (c : UInt8) (s : Str) (n : Nat) (h : c ∈ blanks) : skip (c :: s) n = skip s n := by
  have h0 : c ≠ 0 := by rintro rfl; revert h; decide
  rw [skip_cons, if_neg h0, if_pos h]

/-- nothing to skip -/
structure Stuck (s : Str) : Prop where
  blank : peek s ∉ blanks
  cr : peek s ≠ cr
  lf : peek s ≠ lf
  slash : peek s = 0x2F → peek s.tail ≠ 0x2F ∧ peek s.tail ≠ 0x2A

theorem skip_stuck (s : Str) (n : Nat) (h : Stuck s) : skip s n = .ok (s, n) := by
  rw [skip_eq]
  split
  · rfl
  · rw [if_neg h.blank, if_neg (by rintro (h1 | h1); exact h.cr h1; exact h.lf h1),
      if_neg (fun h1 => (h.slash h1.1).1 h1.2), if_neg (fun h1 => (h.slash h1.1).2 h1.2)]

theorem skip_nil (n : Nat) : skip [] n = .ok ([], n) := rfl

theorem str_close : str "*/" = [0x2A, 0x2F] := by decide
theorem str_line : str "//" = [0x2F, 0x2F] := by decide
theorem str_open : str "/*" = [0x2F, 0x2A] := by decide

theorem closed_tail {c : UInt8} {b : Str} (h : Closed (c :: b)) : Closed b := by
  intro u v e
  exact h (c :: u) v (by rw [List.cons_append, e]; rfl)

theorem block_ok (b : Str) : ∀ (s : Str) (n f : Nat), Closed b → 0 ∉ b → (b ++ [0x2A, 0x2F] ++ s).length < f →
    block true f (b ++ [0x2A, 0x2F] ++ s) n = .ok (s, n + lineEnds b) := by
  induction hl : b.length using Nat.strongRecOn generalizing b with
  | ind k ih =>
    intro s n f hc h0 hf
    obtain ⟨f, rfl⟩ : ∃ g, f = g + 1 := ⟨f - 1, by omega⟩
    cases b with
    | nil => rfl
    | cons c b =>
      have hc0 : c ≠ 0 := fun h => h0 (by rw [h]; exact List.mem_cons_self)
      have h0' : 0 ∉ b := fun h => h0 (List.mem_cons_of_mem _ h)
      have hc' := closed_tail hc
      rw [List.cons_append, List.cons_append, block_cons, if_neg hc0, if_neg]
      · simp only [List.length_cons, List.cons_append] at hf hl
        by_cases hcl : c = 0x0D ∨ c = 0x0A
        · rw [if_pos hcl, newline_cons]
          by_cases hcr : c = 0x0D ∧ peek (b ++ [0x2A, 0x2F] ++ s) = 0x0A
          · rw [if_pos hcr]
            cases b with
            | nil =>
              obtain ⟨_, h⟩ := hcr
              exact absurd h (by change (0x2A : UInt8) ≠ _; decide)
            | cons d b =>
              obtain ⟨rfl, h⟩ := hcr
              have hd : d = 0x0A := h
              subst hd
              simp only [List.length_cons, List.cons_append] at hf hl ⊢
              show block true f (b ++ [0x2A, 0x2F] ++ s) (n + 1) = _
              rw [ih b.length (by omega) b rfl s _ f (closed_tail hc') (fun h => h0' (List.mem_cons_of_mem _ h)) (by omega)]
              simp only [lineEnds, lf, cr]
              simp
              omega
          · rw [if_neg hcr, ih b.length (by omega) b rfl s _ f hc' h0' (by omega)]
            have : (if c = lf ∨ (c = cr ∧ b.head? ≠ some lf) then 1 else 0) = 1 := by
              rw [if_pos]
              rcases hcl with h | h
              · refine Or.inr ⟨h, ?_⟩
                cases b with
                | nil => simp
                | cons d b =>
                  intro h2
                  injection h2 with h2
                  exact hcr ⟨h, h2⟩
              · exact Or.inl h
            simp only [lineEnds, this]
            congr 2; omega
        · rw [if_neg hcl, ih b.length (by omega) b rfl s _ f hc' h0' (by omega)]
          have : (if c = lf ∨ (c = cr ∧ b.head? ≠ some lf) then 1 else 0) = 0 := by
            rw [if_neg]
            rintro (h | h)
            · exact hcl (Or.inr h)
            · exact hcl (Or.inl h.1)
          simp only [lineEnds, this, Nat.zero_add]
      · rintro ⟨rfl, h⟩
        cases b with
        | nil => exact absurd h (by change (0x2A : UInt8) ≠ _; decide)
        | cons d b =>
          have hd : d = 0x2F := h
          subst hd
          have := hc [] (b ++ str "*/") rfl
          simp [str_close] at this

theorem toEol_line (b s : Str) (h1 : lf ∉ b) (h2 : cr ∉ b) (h0 : 0 ∉ b) (hs : ∀ c, s.head? = some c → c = lf ∨ c = cr) : toEol (b ++ s) = s := by
  induction b with
  | nil =>
    cases s with
    | nil => rfl
    | cons c s =>
      simp only [List.nil_append]
      unfold toEol
      rw [if_pos]
      rcases hs c rfl with rfl | rfl <;> decide
  | cons c b ih =>
    simp only [List.mem_cons, not_or] at h1 h2 h0
    simp only [List.cons_append]
    unfold toEol
    rw [if_neg, ih h1.2 h2.2 h0.2]
    unfold Lit.eol
    simp only [Bool.or_eq_true, decide_eq_true_eq, not_or]
    exact ⟨⟨fun h => h1.1 h.symm, fun h => h2.1 h.symm⟩, fun h => h0.1 h.symm⟩

/-- what `SkipSpace` does with a gap -/
theorem skip_gap {full : Bool} {s r : Str} {k : Nat} (h : Gap full s k r) : ∀ n, 0 ∉ s → skip s n = skip r (n + k) := by
  induction h with
  | nil r => intro n _; rfl
  | blank c s k r hc _ ih =>
    intro n h0
    rw [skip_blank c s n hc, ih n (fun h => h0 (List.mem_cons_of_mem _ h))]
  | newline e s k r _ he _ ih =>
    intro n h0
    have h0' : 0 ∉ s := fun h => h0 (List.mem_append_right _ h)
    have : skip (e ++ s) n = skip s (n + 1) := by
      rw [skip_eq]
      rcases he with rfl | rfl | ⟨rfl, he⟩
      · simp [lf, cr, blanks, newline]
      · simp [lf, cr, blanks, newline]
      · have h1 : peek s ≠ 0x0A := by
          cases s with
          | nil => decide
          | cons d s => intro h; exact he (congrArg some h)
        simp [lf, cr, blanks, newline, h1]
    rw [this, ih (n + 1) h0']
    congr 1; omega
  | line b s k r _ h1 h2 h3 _ ih =>
    intro n h0
    have h0' : 0 ∉ s := fun h => h0 (List.mem_append_right _ h)
    have hb : 0 ∉ b := fun h => h0 (List.mem_append_left _ (List.mem_append_right _ h))
    rw [← ih n h0', skip_eq, str_line]
    have := toEol_line b s h1 h2 hb h3
    simp [lf, cr, blanks, this]
  | block b s k r _ hc _ ih =>
    intro n h0
    have h0' : 0 ∉ s := fun h => h0 (List.mem_append_right _ h)
    have hb : 0 ∉ b := fun h => h0 (List.mem_append_left _ (List.mem_append_left _ (List.mem_append_right _ h)))
    rw [skip_eq, str_open, str_close]
    have := block_ok b s n ((b ++ [0x2A, 0x2F] ++ s).length + 1) hc hb (by omega)
    simp only [List.cons_append, List.nil_append, peek_cons, List.tail_cons, List.append_assoc] at this ⊢
    rw [this]
    simp [lf, cr, blanks]
    rw [ih _ h0']
    congr 1; omega

theorem gap_false {s r : Str} {k : Nat} (h : Gap false s k r) : k = 0 ∧ ∀ (z : Str) (n : Nat), skip (s ++ z) n = skip (r ++ z) n := by
  generalize hf : false = full at h
  revert hf
  induction h with
  | nil r => intro _; exact ⟨rfl, fun _ _ => rfl⟩
  | blank c s k r hc _ ih =>
    intro hf
    obtain ⟨h1, h2⟩ := ih hf
    refine ⟨h1, fun z n => ?_⟩
    rw [List.cons_append, skip_blank c _ n hc, h2]
  | newline e s k r h => intro hf; subst hf; cases h
  | line b s k r h => intro hf; subst hf; cases h
  | block b s k r h => intro hf; subst hf; cases h

/-! the other way round -/

theorem block_inv (f : Nat) : ∀ (s : Str) (n : Nat) (r : Str) (m : Nat), block true f s n = .ok (r, m) →
    ∃ b, s = b ++ [0x2A, 0x2F] ++ r ∧ Closed b ∧ m = n + lineEnds b := by
  induction f with
  | zero => intro s n r m h; cases h
  | succ f ih =>
    intro s n r m h
    cases s with
    | nil => cases h
    | cons c s =>
      rw [block_cons] at h
      split at h
      · cases h
      rename_i hc0
      by_cases hc : c = 0x2A ∧ peek s = 0x2F
      · rw [if_pos hc] at h
        obtain ⟨rfl, hp⟩ := hc
        cases s with
        | nil => exact absurd hp (by decide)
        | cons d s =>
          have hd : d = 0x2F := hp
          subst hd
          cases h
          refine ⟨[], rfl, ?_, rfl⟩
          intro u v e
          have := congrArg List.length e
          simp only [str_close, List.nil_append, List.length_append, List.length_cons, List.length_nil] at this
          exact List.length_eq_zero_iff.1 (by omega)
      · rw [if_neg hc] at h
        have key : ∀ b, s = b ++ [0x2A, 0x2F] ++ r → Closed b → Closed (c :: b) := by
          intro b hs hb u v e
          cases u with
          | nil =>
            exfalso
            rw [str_close] at e
            simp only [List.cons_append, List.nil_append] at e
            injection e with e1 e2
            refine hc ⟨e1, ?_⟩
            rw [hs]
            cases b with
            | nil => simp at e2
            | cons d b =>
              simp only [List.cons_append] at e2
              injection e2 with e2 _
          | cons x u =>
            simp only [List.cons_append] at e
            injection e with _ e
            exact hb u v (by rw [e])
        by_cases hcl : c = 0x0D ∨ c = 0x0A
        · rw [if_pos hcl] at h
          obtain ⟨b, hb, hcb, hm⟩ := ih _ _ _ _ h
          rw [newline_cons] at hb
          by_cases hcr : c = 0x0D ∧ peek s = 0x0A
          · rw [if_pos hcr] at hb
            obtain ⟨rfl, hp⟩ := hcr
            cases s with
            | nil => exact absurd hp (by decide)
            | cons d s =>
              have hd : d = 0x0A := hp
              subst hd
              simp only [List.tail_cons] at hb
              have hcb' : Closed (0x0A :: b) := by
                intro u v e
                cases u with
                | nil =>
                  exfalso
                  rw [str_close] at e
                  simp only [List.cons_append, List.nil_append] at e
                  injection e with e1 e2
                  exact absurd e1 (by decide)
                | cons x u =>
                  simp only [List.cons_append] at e
                  injection e with _ e
                  exact hcb u v (by rw [e])
              refine ⟨0x0D :: 0x0A :: b, by rw [hb]; rfl, key _ (by rw [hb]; rfl) hcb', ?_⟩
              rw [hm]
              simp only [lineEnds, lf, cr]
              simp
              omega
          · rw [if_neg hcr] at hb
            refine ⟨c :: b, by rw [hb]; rfl, key b hb hcb, ?_⟩
            have : (if c = lf ∨ (c = cr ∧ b.head? ≠ some lf) then 1 else 0) = 1 := by
              rw [if_pos]
              rcases hcl with h | h
              · refine Or.inr ⟨h, ?_⟩
                intro h2
                apply hcr
                refine ⟨h, ?_⟩
                rw [hb]
                cases b with
                | nil => cases h2
                | cons d b =>
                  injection h2 with h2
              · exact Or.inl h
            rw [hm]
            simp only [lineEnds, this]
            omega
        · rw [if_neg hcl] at h
          obtain ⟨b, hb, hcb, hm⟩ := ih _ _ _ _ h
          refine ⟨c :: b, by rw [hb]; rfl, key b hb hcb, ?_⟩
          have : (if c = lf ∨ (c = cr ∧ b.head? ≠ some lf) then 1 else 0) = 0 := by
            rw [if_neg]
            rintro (h | h)
            · exact hcl (Or.inr h)
            · exact hcl (Or.inl h.1)
          rw [hm]
          simp only [lineEnds, this]
          omega

theorem toEol_inv (s : Str) (h0 : 0 ∉ s) : ∃ b, s = b ++ toEol s ∧ lf ∉ b ∧ cr ∉ b ∧ ∀ c, (toEol s).head? = some c → c = lf ∨ c = cr := by
  induction s with
  | nil => exact ⟨[], rfl, by simp, by simp, by simp [toEol]⟩
  | cons c s ih =>
    simp only [List.mem_cons, not_or] at h0
    unfold toEol
    by_cases he : Lit.eol c = true
    · rw [if_pos he]
      refine ⟨[], rfl, by simp, by simp, ?_⟩
      intro d hd
      injection hd with hd
      subst hd
      unfold Lit.eol at he
      simp only [Bool.or_eq_true, decide_eq_true_eq] at he
      rcases he with (h | h) | h
      · exact Or.inl h
      · exact Or.inr h
      · exact absurd h.symm h0.1
    · rw [if_neg he]
      obtain ⟨b, h1, h2, h3, h4⟩ := ih h0.2
      refine ⟨c :: b, by rw [List.cons_append, ← h1], ?_, ?_, h4⟩
      · rintro (_ | _)
        · exact he (by decide)
        · contradiction
      · rintro (_ | _)
        · exact he (by decide)
        · contradiction

theorem skip_inv (s : Str) : ∀ (n : Nat) (r : Str) (m : Nat), 0 ∉ s → skip s n = .ok (r, m) → ∃ k, Gap true s k r ∧ m = n + k ∧ Stuck r ∧ 0 ∉ r := by
  induction hl : s.length using Nat.strongRecOn generalizing s with
  | ind len ih =>
    intro n r m h0 h
    cases s with
    | nil =>
      cases h
      exact ⟨0, .nil _, rfl, ⟨by decide, by decide, by decide, by decide⟩, h0⟩
    | cons c s =>
      have hc0 : c ≠ 0 := fun h => h0 (by rw [h]; exact List.mem_cons_self)
      have h0' : 0 ∉ s := fun h => h0 (List.mem_cons_of_mem _ h)
      simp only [List.length_cons] at hl
      rw [skip_cons, if_neg hc0] at h
      by_cases hb : c ∈ blanks
      · rw [if_pos hb] at h
        obtain ⟨k, h1, h2, h3⟩ := ih s.length (by omega) s rfl n r m h0' h
        exact ⟨k, .blank _ _ _ _ hb h1, h2, h3⟩
      · rw [if_neg hb] at h
        by_cases hn : c = cr ∨ c = lf
        · rw [if_pos hn] at h
          have hnl : ∃ e, (c :: s) = e ++ newline (c :: s) ∧ (e = [lf] ∨ e = [cr, lf] ∨ (e = [cr] ∧ (newline (c :: s)).head? ≠ some lf)) := by
            rw [newline_cons]
            by_cases hcr : c = 0x0D ∧ peek s = 0x0A
            · rw [if_pos hcr]
              obtain ⟨rfl, hp⟩ := hcr
              cases s with
              | nil => exact absurd hp (by decide)
              | cons d s =>
                have hd : d = 0x0A := hp
                subst hd
                exact ⟨[cr, lf], rfl, Or.inr (Or.inl rfl)⟩
            · rw [if_neg hcr]
              rcases hn with rfl | rfl
              · refine ⟨[cr], rfl, Or.inr (Or.inr ⟨rfl, ?_⟩)⟩
                intro h2
                apply hcr
                refine ⟨rfl, ?_⟩
                cases s with
                | nil => cases h2
                | cons d s => injection h2
              · exact ⟨[lf], rfl, Or.inl rfl⟩
          obtain ⟨e, he1, he2⟩ := hnl
          have hlen := newline_len (c :: s) (by simp)
          simp only [List.length_cons] at hlen
          have h0n : 0 ∉ newline (c :: s) := fun h => h0 (by rw [he1]; exact List.mem_append_right _ h)
          obtain ⟨k, h1, h2, h3⟩ := ih _ (by omega) (newline (c :: s)) rfl _ _ _ h0n h
          refine ⟨k + 1, ?_, by omega, h3⟩
          rw [he1]
          exact .newline _ _ _ _ rfl he2 h1
        · rw [if_neg hn] at h
          by_cases hl1 : c = 0x2F ∧ peek s = 0x2F
          · rw [if_pos hl1] at h
            obtain ⟨rfl, hp⟩ := hl1
            cases s with
            | nil => exact absurd hp (by decide)
            | cons d s =>
              have hd : d = 0x2F := hp
              subst hd
              simp only [List.tail_cons] at h
              have h0s : 0 ∉ s := fun h => h0' (List.mem_cons_of_mem _ h)
              obtain ⟨b, hb1, hb2, hb3, hb4⟩ := toEol_inv s h0s
              have hlen := toEol_len s
              simp only [List.length_cons] at hl
              have h0n : 0 ∉ toEol s := fun h => h0s (by rw [hb1]; exact List.mem_append_right _ h)
              obtain ⟨k, h1, h2, h3⟩ := ih _ (by omega) (toEol s) rfl _ _ _ h0n h
              refine ⟨k, ?_, h2, h3⟩
              have := Gap.line b (toEol s) k r rfl hb2 hb3 hb4 h1
              rw [List.append_assoc, ← hb1, str_line] at this
              exact this
          · rw [if_neg hl1] at h
            by_cases hl2 : c = 0x2F ∧ peek s = 0x2A
            · rw [if_pos hl2] at h
              obtain ⟨rfl, hp⟩ := hl2
              cases s with
              | nil => exact absurd hp (by decide)
              | cons d s =>
                have hd : d = 0x2A := hp
                subst hd
                simp only [List.tail_cons] at h
                cases hbk : block true (s.length + 1) s n with
                | error e => rw [hbk] at h; cases h
                | ok x =>
                  obtain ⟨q, m'⟩ := x
                  rw [hbk] at h
                  have hlen := block_len _ _ _ _ _ _ hbk
                  obtain ⟨b, hb1, hb2, hb3⟩ := block_inv _ _ _ _ _ hbk
                  have h0n : 0 ∉ q := fun h => h0' (List.mem_cons_of_mem _ (by rw [hb1]; exact List.mem_append_right _ h))
                  simp only [List.length_cons] at hl
                  obtain ⟨k, h1, h2, h3⟩ := ih _ (by omega) q rfl _ _ _ h0n h
                  refine ⟨lineEnds b + k, ?_, by omega, h3⟩
                  have := Gap.block b q k r rfl hb2 h1
                  rw [str_close, str_open, List.append_assoc, List.append_assoc, ← List.append_assoc b, ← hb1] at this
                  exact this
            · rw [if_neg hl2] at h
              cases h
              refine ⟨0, .nil _, rfl, ⟨hb, fun h => hn (Or.inl h), fun h => hn (Or.inr h), ?_⟩, h0⟩
              intro hs
              exact ⟨fun h => hl1 ⟨hs, h⟩, fun h => hl2 ⟨hs, h⟩⟩

end Smlr.Lex
