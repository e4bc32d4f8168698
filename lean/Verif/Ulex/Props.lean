import Verif.Ulex.Tokens
set_option autoImplicit false
/-! C59: the preprocessor's lexer. -/
namespace Smlr.Ulex

/-- the characters that `next_char` and `discard_char` give one after another -/
def chars (fl : Flags) : Nat → St → Option Str
  | 0, _ => none
  | n + 1, s =>
    match next fl s with
    | none => none
    | some (none, _) => some []
    | some (some c, s) => (chars fl n (discardChar s)).map (c :: ·)

/-- **C59**: ends of lines, trigraphs and spliced lines are replaced as in translation phases 1 and 2, in every text -/
theorem c59_chars (fl : Flags) (s : Str) : ∃ N, ∀ n ≥ N, chars fl n (start s) = some (phases fl.trig s) := by
  have key : ∀ (u : Str) (st : St), Inv fl st → text fl st = u → ∀ n > u.length, chars fl n st = some u := by
    intro u
    induction u with
    | nil =>
      intro st hi ht n hn
      obtain ⟨n, rfl⟩ : ∃ a, n = a + 1 := ⟨n - 1, by omega⟩
      obtain ⟨s', g1, -⟩ := next_spec fl st hi
      rw [chars, g1, ht]
      rfl
    | cons c u ih =>
      intro st hi ht n hn
      obtain ⟨n, rfl⟩ : ∃ a, n = a + 1 := ⟨n - 1, by omega⟩
      obtain ⟨s', g1, g2, g3, g4, -⟩ := next_spec fl st hi
      have hd := discard_spec fl s' g3 g4
      rw [chars, g1, ht, List.head?_cons]
      dsimp only
      rw [ih _ hd.2 (by rw [hd.1, g2, ht]; rfl) n (by rw [List.length_cons] at hn; omega)]
      rfl
  obtain ⟨hi, ht⟩ := start_inv fl s
  exact ⟨_, fun n hn => key _ _ hi ht n hn⟩

/-- **C59**: a text that C divides into preprocessing tokens, comments and white space is divided by the lexer in the same way, always the longest first.  What is missing: the texts in `Odd`, see below. -/
theorem c59_tokens_partial (fl : Flags) (s : Str) (ts : List (K × Str)) (h : Toks fl.cpp (fun w r => ¬ Odd w r) (phases fl.trig s) ts) (hb : fl.cset = false ∨ ∀ t ∈ ts, t.1 ≠ .BUNCH) :
    ∃ N, ∀ n ≥ N, ∀ m ≥ N, tokens fl n m (start s) = .ok ts := by
  obtain ⟨hi, ht⟩ := start_inv fl s
  obtain ⟨N, hN⟩ := tokens_rel fl _ ts h hb
  exact ⟨N, hN (start s) hi (.inl ⟨rfl, ht⟩)⟩

instance : DecidableEq (Except Err (List (K × Str)))
  | .ok a, .ok b => if h : a = b then .isTrue (by rw [h]) else .isFalse fun e => h (by injection e)
  | .error a, .error b => if h : a = b then .isTrue (by rw [h]) else .isFalse fun e => h (by injection e)
  | .ok _, .error _ => .isFalse nofun
  | .error _, .ok _ => .isFalse nofun

/-- the division that C wants: nothing is odd -/
abbrev Division (u : Str) (ts : List (K × Str)) : Prop := Toks true (fun _ _ => True) u ts

theorem number_all (w : Str) (h : PpNum w) : Division w [(.NUMBER, w)] := by
  have := Toks.cons (cpp := true) (P := fun _ _ => True) w .NUMBER [] [] ⟨.number _ h, by simp, fun _ _ _ h => by simpa using h.length_le⟩ trivial .nil
  simpa [kept] using this

/-- texts that are not divided as C wants it: `..5` is `.` and `.5` -/
theorem c59_dots : Division (str "..5") [(.DOT, []), (.NUMBER, str ".5")] ∧ tokens ⟨true, true, false⟩ 10 10 (start (str "..5")) = .ok [(.DOT, []), (.DOT, []), (.NUMBER, str "5")] := by
  refine ⟨?_, by decide +kernel⟩
  rw [show str ".5" = [0x2E, 0x35] by decide +kernel, show str "..5" = [0x2E] ++ [0x2E, 0x35] by decide +kernel]
  exact Toks.cons [0x2E] .DOT _ _ (longest_punct _ _ _ _ 0x2E (by decide +kernel) rfl (by decide) (fun _ d h => by injection h with h; subst h; decide +kernel) (by decide +kernel)) trivial
    (number_all _ (.dot _ (by decide +kernel)))

/-- `%:%=` is `%:` and `%=` -/
theorem c59_pct : Division (str "%:%=") [(.DIG_SHARP, []), (.ASPCT, [])] ∧ tokens ⟨true, true, false⟩ 10 10 (start (str "%:%=")) = .ok [(.DIG_SHARP, []), (.PCT, []), (.ASGN, [])] := by
  refine ⟨?_, by decide +kernel⟩
  rw [show str "%:%=" = [0x25, 0x3A] ++ ([0x25, 0x3D] ++ []) by decide +kernel]
  exact Toks.cons _ .DIG_SHARP _ _ (longest_punct _ _ _ _ 0x25 (by decide +kernel) rfl (by decide) (by decide) (by decide +kernel)) trivial
    (Toks.cons _ .ASPCT _ _ (longest_punct _ _ _ _ 0x25 (by decide +kernel) rfl (by decide) (by decide) (by decide +kernel)) trivial .nil)

/-- `1e.5` and `1ee+5` are numbers -/
theorem c59_number : (Division (str "1e.5") [(.NUMBER, str "1e.5")] ∧ tokens ⟨true, true, false⟩ 10 10 (start (str "1e.5")) = .ok [(.NUMBER, str "1e"), (.NUMBER, str ".5")]) ∧
    (Division (str "1ee+5") [(.NUMBER, str "1ee+5")] ∧ tokens ⟨true, true, false⟩ 10 10 (start (str "1ee+5")) = .ok [(.NUMBER, str "1ee"), (.PLUS, []), (.NUMBER, str "5")]) := by
  have d1 : (0x31 : UInt8) ∈ digits := by decide +kernel
  have d5 : (0x35 : UInt8) ∈ digits := by decide +kernel
  have le : (0x65 : UInt8) ∈ letters := by decide +kernel
  refine ⟨⟨number_all _ ?_, by decide +kernel⟩, number_all _ ?_, by decide +kernel⟩
  · rw [show str "1e.5" = [0x31] ++ [0x65] ++ [0x2E] ++ [0x35] by decide +kernel]
    exact .digits _ _ (.point _ (.letter _ _ (.digit _ d1) le)) d5
  · rw [show str "1ee+5" = [0x31] ++ [0x65] ++ [0x65, 0x2B] ++ [0x35] by decide +kernel]
    exact .digits _ _ (.sign _ _ _ (.letter _ _ (.digit _ d1) le) (by decide +kernel) (by decide +kernel)) d5

/-- spliced lines, a trigraph, both comments, longest tokens -/
example : phases true (str "a\\\r\nb ??=/*x*/ +++ ..//\r\n") = str "ab #/*x*/ +++ ..//\n" ∧
    tokens ⟨true, true, false⟩ 20 20 (start (str "a\\\r\nb ??=/*x*/ +++ ..//\r\n")) =
      .ok [(.NAME, str "ab"), (.NONE, []), (.SHARP, []), (.COMMENT, []), (.NONE, []), (.PPLUS, []), (.PLUS, []), (.NONE, []), (.DOT, []), (.DOT, []), (.COMMENT, []), (.NEWLINE, [])] := by
  decide +kernel

/-- a text with its division, nothing odd -/
example : Toks true (fun w r => ¬ Odd w r) (phases false (str "%:%%=..")) [(.DIG_SHARP, []), (.PCT, []), (.ASPCT, []), (.DOT, []), (.DOT, [])] := by
  rw [show phases false (str "%:%%=..") = [0x25, 0x3A] ++ ([0x25] ++ ([0x25, 0x3D] ++ ([0x2E] ++ ([0x2E] ++ [])))) by decide +kernel]
  have no : ∀ (w r : Str), (w, r) ∈ [([0x25, 0x3A], [0x25, 0x25, 0x3D, 0x2E, 0x2E]), ([0x25], [0x25, 0x3D, 0x2E, 0x2E]), ([0x25, 0x3D], [0x2E, 0x2E]), ([0x2E], [0x2E]), (([0x2E] : Str), ([] : Str))] → ¬ Odd w r := by
    intro w r hm ho
    cases ho with
    | dots d r _ => rw [str_dot] at hm; revert hm; simp
    | pct c r h => rw [str_pct] at hm; rcases h with rfl | rfl <;> (revert hm; simp)
    | number v w r e f hn _ _ =>
      obtain ⟨d, t, h | h⟩ := ppnum_head _ hn
      · rw [h.1] at hm
        have : d = 0x25 ∨ d = 0x2E := by
          simp only [List.mem_cons, Prod.mk.injEq, List.cons.injEq, List.not_mem_nil, or_false] at hm
          rcases hm with h | h | h | h | h
          all_goals first | exact .inl h.1.1 | exact .inr h.1.1
        rcases this with rfl | rfl <;> exact absurd h.2 (by decide +kernel)
      · rw [h.1] at hm
        simp at hm
    | comment r => rw [str_slash] at hm; revert hm; simp
    | quote q r _ => rw [str_L] at hm; revert hm; simp
    | ucn c w r _ _ => revert hm; simp
  have hd : ∀ d : UInt8, some (0x2E : UInt8) = some d → d ∉ digits := by intro d h; injection h with h; subst h; decide +kernel
  exact Toks.cons _ .DIG_SHARP _ _ (longest_punct _ _ _ _ 0x25 (by decide +kernel) rfl (by decide) (by decide) (by decide +kernel)) (no _ _ (by simp))
    (Toks.cons _ .PCT _ _ (longest_punct _ _ _ _ 0x25 (by decide +kernel) rfl (by decide) (by decide) (by decide +kernel)) (no _ _ (by simp))
    (Toks.cons _ .ASPCT _ _ (longest_punct _ _ _ _ 0x25 (by decide +kernel) rfl (by decide) (by decide) (by decide +kernel)) (no _ _ (by simp))
    (Toks.cons _ .DOT _ _ (longest_punct _ _ _ _ 0x2E (by decide +kernel) rfl (by decide) (fun _ d h => hd d h) (by decide +kernel)) (no _ _ (by simp))
    (Toks.cons _ .DOT _ _ (longest_punct _ _ _ _ 0x2E (by decide +kernel) rfl (by decide) (fun _ d h => by cases h) (by decide +kernel)) (no _ _ (by simp)) .nil))))

end Smlr.Ulex
