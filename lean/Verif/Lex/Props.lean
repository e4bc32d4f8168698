import Verif.Lex.Back
import Verif.Lex.Define
set_option autoImplicit false
/-! Properties C49: the tokens of a text; C50: the texts of macros. -/
namespace Smlr.Lex

open Lit (peek)

/-- **C49**, white space: `SkipSpace` skips the longest sequence of blanks, line ends and comments and counts the line ends; it rejects the text exactly
if a comment is not closed -/
theorem c49_space (s : Str) (h0 : 0 ∉ s) (n : Nat) (r : Str) (m : Nat) :
    skipSpace true (s.length + 1) s n = .ok (r, m) ↔
      ∃ k, Gap true s k r ∧ m = n + k ∧ (∀ k' r', Gap true r k' r' → r' = r) ∧ ¬ str "/*" <+: r := by
  constructor
  · intro h
    obtain ⟨k, h1, h2, h3, -⟩ := skip_inv s n r m h0 h
    refine ⟨k, h1, h2, fun k' r' h => (gap_stuck h3 h).1, ?_⟩
    rintro ⟨z, rfl⟩
    exact absurd rfl (h3.slash rfl).2
  · rintro ⟨k, h1, rfl, h3, h4⟩
    obtain ⟨g, hg⟩ := gap_suffix h1
    have h0r : 0 ∉ r := fun h => h0 (by rw [hg]; exact List.mem_append_right _ h)
    show skip s n = _
    rw [skip_gap h1 n h0]
    refine skip_stuck r _ ?_
    cases r with
    | nil => exact ⟨by decide, by decide, by decide, by decide⟩
    | cons c r =>
      have hne : ∀ r' : Str, r'.length ≤ r.length → r' ≠ c :: r := by
        intro r' h e
        rw [e, List.length_cons] at h
        omega
      refine ⟨?_, ?_, ?_, ?_⟩
      · intro hb
        exact hne _ (Nat.le_refl _) (h3 _ _ (.blank c r 0 r hb (.nil r)))
      · intro hc
        have hc : c = cr := hc
        subst hc
        by_cases hl : r.head? = some lf
        · obtain ⟨d, r', rfl⟩ : ∃ d r', r = d :: r' := by
            cases r with
            | nil => cases hl
            | cons d r' => exact ⟨d, r', rfl⟩
          injection hl with hl
          subst hl
          exact hne r' (by simp) (h3 _ _ (.newline [cr, lf] r' 0 r' rfl (Or.inr (Or.inl rfl)) (.nil r')))
        · exact hne _ (Nat.le_refl _) (h3 _ _ (.newline [cr] r 0 r rfl (Or.inr (Or.inr ⟨rfl, hl⟩)) (.nil r)))
      · intro hc
        have hc : c = lf := hc
        subst hc
        exact hne _ (Nat.le_refl _) (h3 _ _ (.newline [lf] r 0 r rfl (Or.inl rfl) (.nil r)))
      · intro hc
        have hc : c = 0x2F := hc
        subst hc
        refine ⟨?_, ?_⟩
        · intro hd
          cases r with
          | nil => exact absurd hd (by decide)
          | cons d r =>
            have hd : d = 0x2F := hd
            subst hd
            have h0' : 0 ∉ r := fun h => h0r (List.mem_cons_of_mem _ (List.mem_cons_of_mem _ h))
            obtain ⟨b, hb1, hb2, hb3, hb4⟩ := toEol_inv r h0'
            have := Gap.line b (toEol r) 0 (toEol r) rfl hb2 hb3 hb4 (.nil _)
            rw [List.append_assoc, ← hb1] at this
            have hlen := toEol_len r
            exact hne (toEol r) (by simp only [List.length_cons]; omega) (h3 _ _ this)
        · intro hd
          cases r with
          | nil => exact absurd hd (by decide)
          | cons d r =>
            have hd : d = 0x2A := hd
            subst hd
            exact h4 ⟨r, rfl⟩

-- a line end, a comment with a line end and asterisks in it, a comment up to the line end
example : skipSpace true 100 (str "\n /* * **\r\n/*/ // */\rx/y") 1 = .ok (str "x/y", 4) := by decide +kernel
example : skipSpace true 100 (str " /*/ x") 1 = .error .comment := by decide +kernel

/-- **C49**, punctuators: `GetTokenInner` takes the longest punctuator of C that the text begins with (a dot before a digit begins a number) -/
theorem c49_punct (s : Str) (t : Tk) (k : Nat) : oper s = some (t, k) ↔
    ∃ w r, s = w ++ r ∧ w.length = k ∧ (w, t) ∈ puncts ∧ (∀ p ∈ puncts, p.1 <+: w ++ r → p.1.length ≤ w.length) ∧
      (w = str "." → ∀ c, r.head? = some c → c ∉ digits) := oper_iff s t k

example : oper (str ">>=x") = some (.AssignRSh, 3) ∧ oper (str "..5") = some (.chr 0x2E, 1) ∧ oper (str "...5") = some (.Ellipsis, 3) := by decide +kernel

/-- **C49**: a text that the rules of C divide into tokens is read as exactly these tokens, each with its line; macros (whose texts do not lead back
to themselves), `__FILE__` and `__LINE__` are replaced -/
theorem c49_tokens (T : Cfg) (hW : T.W = 2 ∨ T.W = 4) (hw : T.wcs = 2 ∨ T.wcs = 4) (s : Str) (h0 : 0 ∉ s) (n : Nat) (ts : List (Token × Nat))
    (h : Lexes T (Num T) true s n ts) : ∃ N, ∀ f, N ≤ f → tokens T f s n = .ok ts := by
  obtain ⟨N, hN⟩ := lexes_run T hW hw (num_ok T hW) (fun s t v r z h hz => h.append hz) (num_suffix T) h (fun _ => h0) [] (Or.inl rfl)
  refine ⟨N + 1, fun f hf => ?_⟩
  have := hN (f - N - 1 + 1)
  rw [List.append_nil, show f - N - 1 + 1 + N = f by omega] at this
  rw [this]
  show Except.ok (ts ++ []) = _
  rw [List.append_nil]

/-- **C49**, the other direction: if the compiler accepts a text without macros, its tokens are those C sees, the number literals being those that
`GetNumber` takes: nothing else is skipped, and nothing else is accepted -/
theorem c49_only (T : Cfg) (hW : T.W = 2 ∨ T.W = 4) (hw : T.wcs = 2 ∨ T.wcs = 4) (s : Str) (h0 : 0 ∉ s) (hm : ∀ w, w <:+: s → Plain T w) (f n : Nat)
    (ts : List (Token × Nat)) (h : tokens T f s n = .ok ts) : Lexes T (GetNum T) true s n ts :=
  tokens_back T hW hw f s n ts h0 hm h

/-- a 32-bit target with the macros `N` and `M` -/
def exT : Cfg := { W := 4, wcs := 2, charSigned := true, wideSigned := false, file := str "a.c"
                   mac := fun w => if w = str "N" then some (str "M+") else if w = str "M" then some (str "x") else none }

theorem exT_plain (w : Str) (h : w ∉ [str "N", str "M", str "__FILE__", str "__LINE__"]) : Plain exT w := by
  simp only [List.mem_cons, List.not_mem_nil, or_false, not_or] at h
  intro n e he
  unfold Expands at he
  rw [if_neg h.2.2.1, if_neg h.2.2.2] at he
  change (if w = str "N" then some (str "M+") else if w = str "M" then some (str "x") else none) = some e at he
  rw [if_neg h.1, if_neg h.2.1] at he
  cases he

theorem exWord (w r : Str) (h1 : ∃ c ∈ letters, w.head? = some c) (h2 : ∀ c ∈ w, c ∈ letters ++ digits) (h3 : ∀ c ∈ r.head?.toList, c ∉ letters ++ digits)
    (h4 : w ≠ str "L") : Word (w ++ r) w r := by
  refine ⟨rfl, ?_, h2, ?_, fun h => absurd h h4⟩
  · obtain ⟨c, hc, hw⟩ := h1
    cases w with
    | nil => cases hw
    | cons d w =>
      injection hw with hw
      exact ⟨d, w, rfl, by rw [hw]; exact hc⟩
  · intro c hc
    exact h3 c (by rw [hc]; simp)

theorem exPunct (T : Cfg) (num : Str → Number.Tok → Nat → Str → Prop) (w : Str) (t : Tk) (r : Str) (h : oper (w ++ r) = some (t, w.length))
    (hs : w ≠ str "/") : Lexeme T num (w ++ r) (.op t) r := by
  obtain ⟨w', r', e, hk, hp, hm, hd⟩ := (c49_punct _ _ _).1 h
  have e1 : w' = w := by
    have := congrArg (List.take w.length) e
    rw [List.take_left, ← hk, List.take_left] at this
    exact this.symm
  subst e1
  have e2 : r' = r := List.append_cancel_left e.symm
  subst e2
  exact .punct _ _ _ hp hm hd (fun h => absurd h hs)

theorem exClosed : Closed (str " c ") := by
  intro u v e
  have hb : str " c " ++ str "*/" = [0x20, 0x63, 0x20, 0x2A, 0x2F] := by decide
  rw [hb, str_close] at e
  match u, e with
  | [], e => injection e with e _; exact absurd e (by decide)
  | [_], e => injection e with _ e; injection e with e _; exact absurd e (by decide)
  | [_, _], e => injection e with _ e; injection e with _ e; injection e with e _; exact absurd e (by decide)
  | [_, _, _], e =>
    have := congrArg List.length e
    simp only [List.length_append, List.length_cons, List.length_nil] at this
    exact List.length_eq_zero_iff.1 (by omega)
  | _ :: _ :: _ :: _ :: u, e =>
    have := congrArg List.length e
    simp only [List.length_append, List.length_cons, List.length_nil] at this
    omega

-- `N+++ /* c */ const y1` with the macros above: `x`, `+` from the macro, `++`, `+`, `y1`
theorem exLexes : Lexes exT (Num exT) true (str "N+++ /* c */\nconst y1") 1
    [(.ident (str "x"), 1), (.op (.chr 0x2B), 1), (.op .Inc, 1), (.op (.chr 0x2B), 1), (.ident (str "y1"), 2)] := by
  have hx : Lexes exT (Num exT) false (str "x") 1 [(.ident (str "x"), 1)] :=
    .token _ _ 0 (str "x") _ _ [] _ (.nil _)
      (.ident _ (str "x") [] (exWord (str "x") [] (by decide +kernel) (by decide +kernel) (by decide) (by decide)) (by decide)
        (by intro t ht; have : ∀ p ∈ keywords, p.1 ≠ str "x" := by decide +kernel
            exact absurd rfl (this _ ht)) (exT_plain _ (by decide)))
      (.done _ _ 0 _ (.nil _))
  have hM : Lexes exT (Num exT) false (str "M+") 1 [(.ident (str "x"), 1), (.op (.chr 0x2B), 1)] :=
    .macro _ _ 0 (str "M+") _ (str "M") (str "x") (str "+") _ _ (.nil _)
      (exWord (str "M") (str "+") (by decide +kernel) (by decide +kernel) (by decide +kernel) (by decide)) (by decide) (show Expands exT 1 (str "M") (str "x") by unfold Expands; decide) hx
      (.token _ _ 0 (str "+") _ _ [] _ (.nil _) (exPunct exT _ (str "+") (.chr 0x2B) [] (by decide) (by decide)) (.done _ _ 0 _ (.nil _)))
  refine .macro _ _ 0 _ _ (str "N") (str "M+") (str "+++ /* c */\nconst y1") _ _ (.nil _)
      (exWord (str "N") (str "+++ /* c */\nconst y1") (by decide +kernel) (by decide +kernel) (by decide +kernel) (by decide)) (by decide) (show Expands exT 1 (str "N") (str "M+") by unfold Expands; decide) hM ?_
  refine .token _ _ 0 _ _ _ (str "+ /* c */\nconst y1") _ (.nil _) (exPunct exT _ (str "++") .Inc _ (by decide +kernel) (by decide)) ?_
  refine .token _ _ 0 _ _ _ (str " /* c */\nconst y1") _ (.nil _) (exPunct exT _ (str "+") (.chr 0x2B) _ (by decide +kernel) (by decide)) ?_
  refine .drop _ _ 1 (str "const y1") _ (str "const") (str " y1") _ ?_
    (exWord (str "const") (str " y1") (by decide +kernel) (by decide +kernel) (by decide +kernel) (by decide)) (by decide) (exT_plain _ (by decide)) ?_
  · refine .blank _ _ _ _ (by decide) ?_
    refine Gap.block (str " c ") (str "\nconst y1") 1 _ rfl exClosed (.newline [lf] (str "const y1") 0 _ rfl (Or.inl rfl) (.nil _))
  · refine .token _ _ 0 (str "y1") _ _ [] _ (.blank _ _ _ _ (by decide) (.nil _)) ?_ (.done _ _ 0 _ (.nil _))
    refine .ident _ (str "y1") [] (exWord (str "y1") [] (by decide +kernel) (by decide +kernel) (by decide) (by decide)) (by decide) ?_ (exT_plain _ (by decide))
    intro t ht
    have : ∀ p ∈ keywords, p.1 ≠ str "y1" := by decide +kernel
    exact absurd rfl (this _ ht)

example : ∃ N, ∀ f, N ≤ f → tokens exT f (str "N+++ /* c */\nconst y1") 1 =
    .ok [(.ident (str "x"), 1), (.op (.chr 0x2B), 1), (.op .Inc, 1), (.op (.chr 0x2B), 1), (.ident (str "y1"), 2)] :=
  c49_tokens exT (Or.inr rfl) (Or.inl rfl) _ (by decide) 1 _ exLexes

-- `c49_only`: an accepted text
example : tokens exT 99 (str "if(0x1Fu>L'a').5e1;\"s\"") 7 = .ok [(.op .If, 7), (.op (.chr 0x28), 7), (.num .uint 31, 7),
    (.op (.chr 0x3E), 7), (.chr true 97, 7), (.op (.chr 0x29), 7), (.num .float 0x40A00000, 7), (.op (.chr 0x3B), 7), (.str false (str "s"), 7)] := by decide +kernel

/-- **C49** a preprocessing number is not always taken whole: C rejects `0xe+1` (a single preprocessing number, but no constant); the compiler takes it for
`0xe`, `+`, `1`.  (`1lf` is taken for `1l` and the name `f`) -/
theorem c49_defect : tokens exT 9 (str "0xe+1") 1 = .ok [(.num .int 14, 1), (.op (.chr 0x2B), 1), (.num .int 1, 1)] ∧
    (∀ ts, ¬ Lexes exT (Num exT) true (str "0xe+1") 1 ts) ∧
    tokens exT 9 (str "1lf") 1 = .ok [(.num .int 1, 1), (.ident (str "f"), 1)] := by
  refine ⟨by decide +kernel, ?_, by decide +kernel⟩
  intro ts h
  have hst : Stuck (str "0xe+1") := ⟨by decide, by decide, by decide, by decide⟩
  have hnw : ∀ w r, ¬ Word (str "0xe+1") w r := fun w r h => absurd h.peek (by decide)
  cases h with
  | done _ _ k _ hg => exact absurd (gap_stuck hst hg).1 (by decide)
  | drop _ _ k s' _ w r ts hg hx =>
    obtain ⟨rfl, -⟩ := gap_stuck hst hg
    exact hnw _ _ hx
  | «macro» _ _ k s' _ w e r ts ts' hg hx =>
    obtain ⟨rfl, -⟩ := gap_stuck hst hg
    exact hnw _ _ hx
  | token _ _ k s' _ t r ts hg hx =>
    obtain ⟨rfl, rfl⟩ := gap_stuck hst hg
    generalize he : str "0xe+1" = s at hx
    cases hx with
    | punct w t r h1 h2 h3 h4 =>
      obtain ⟨c, hc, hw⟩ := puncts_first _ h1
      cases w with
      | nil => cases hw
      | cons d w =>
        injection hw with hw
        have : (0x30 : UInt8) = d := by
          have := congrArg List.head? he
          injection this
        rw [← hw, ← this] at hc
        exact absurd hc (by decide)
    | keyword s w t r h1 => subst he; exact hnw _ _ h1
    | ident s w r h1 => subst he; exact hnw _ _ h1
    | num s t v r h1 =>
      subst he
      have hrun := (num_ok exT (Or.inr rfl)).run _ _ _ _ h1
      rw [show Number.getNumber true exT.W (str "0xe+1") = .ok (.int, 14, str "+1") by decide +kernel] at hrun
      injection hrun with hrun
      injection hrun with _ hrun
      injection hrun with _ hr
      generalize he : str "0xe+1" = s at h1
      have hend : ∀ w : Str, str "0xe+1" = w ++ r → NumEnd w r → False := by
        intro w hw hne
        rw [← hr] at hw hne
        have hw' : w = str "0xe" := by
          have : str "0xe+1" = str "0xe" ++ str "+1" := by decide
          exact List.append_cancel_right (hw.symm.trans this)
        rw [hw'] at hne
        exact hne.sign 0x2B (by decide) (Or.inl rfl) 0x65 (by decide) (by decide)
      cases h1 with
      | int text k ds suf u l t r hi hs hne ht => exact hend _ he hne
      | float ip dot fp ex e suf r v hf hs hne hl hx hv => exact hend _ he hne
    | char wide s vs r h1 h2 h3 =>
      have := congrArg List.head? he
      cases wide
      · exact absurd this (show ¬ some (0x30 : UInt8) = some 0x27 by decide)
      · exact absurd this (show ¬ some (0x30 : UInt8) = some 0x4C by decide)
    | string wide s vs r h1 h2 =>
      have := congrArg List.head? he
      cases wide
      · exact absurd this (show ¬ some (0x30 : UInt8) = some 0x22 by decide)
      · exact absurd this (show ¬ some (0x30 : UInt8) = some 0x4C by decide)

/-! ### C50 -/

/-- **C50**, full statement: the text stored for a macro has the tokens of the body of its `#define` line.  Here for bodies without quotes, and for bodies in
which blanks are single spaces and nothing looks like a comment (then with quotes, too).  For the others it is wrong: `c50_defect` -/
theorem c50_body_partial (T : Cfg) (hW : T.W = 2 ∨ T.W = 4) (hw : T.wcs = 2 ∨ T.wcs = 4) (b z : Str) (hb : InLine b) (hz : Eol z)
    (hg : ∀ k r, Gap true b k r → r = b) (hq : NoQuotes b ∨ Tidy b) (n : Nat) (ts : List (Token × Nat)) (h : Lexes T (Num T) true b n ts) :
    ∃ e, (∀ f, b.length < f → defineBody f (b ++ z) = .ok (e, z)) ∧ Lexes T (Num T) false e n ts := by
  rcases hq with hq | ht
  · obtain ⟨k, s', h1, h2, h3⟩ := lexes_gap hW hw h
    have := hg k s' h1
    subst this
    have hmain := (body_main T hW hw z hz s'.length s' n ts rfl hb hq h).1 h2
    obtain ⟨e, i1, i2, -⟩ := hmain (s'.length + 1) (by omega)
    refine ⟨e, ?_, i2⟩
    intro f hf
    exact defineBody_fuel i1 f hf
  · exact ⟨b, fun f hf => tidy_body z hz b f hf hb ht, lexes_tidy h rfl hb ht⟩

-- the hypotheses, for the body `x\t /* c */`
example : ∃ e, (∀ f, 10 < f → defineBody f (str "x\t /* c */" ++ str "\n;") = .ok (e, str "\n;")) ∧ Lexes exT (Num exT) false e 5 [(.ident (str "x"), 5)] := by
  refine c50_body_partial exT (Or.inr rfl) (Or.inl rfl) (str "x\t /* c */") (str "\n;") ⟨by decide, by decide, by decide⟩ ?_ ?_ (Or.inl ⟨by decide, by decide⟩) 5 _ ?_
  · intro c hc
    injection hc with hc
    exact Or.inl hc.symm
  · intro k r h
    exact (gap_stuck ⟨by decide, by decide, by decide, by decide⟩ h).1
  · refine .token _ _ 0 _ _ _ (str "\t /* c */") _ (.nil _) ?_ (.done _ _ 0 _ ?_)
    · refine .ident _ (str "x") _ (exWord (str "x") (str "\t /* c */") (by decide +kernel) (by decide +kernel) (by decide +kernel) (by decide)) (by decide) ?_ (exT_plain _ (by decide))
      intro t ht
      have : ∀ p ∈ keywords, p.1 ≠ str "x" := by decide +kernel
      exact absurd rfl (this _ ht)
    · refine .blank _ _ _ _ (by decide) (.blank _ _ _ _ (by decide) ?_)
      exact Gap.block (str " c ") [] 0 [] rfl exClosed (.nil _)

-- the line `#define A x	/* c */ +  1 // d`
example : defineBody 99 (str "x\t/* c */ +  1 // d\n#") = .ok (str "x + 1 ", str "\n#") := by decide +kernel
example : defineBody 99 (str "\"a b\" '/'\r\n") = .ok (str "\"a b\" '/'", str "\r\n") := by decide +kernel

/-- **C50** blanks and what looks like a comment within a literal are taken for white space: `"a  b"` is stored as `"a b"`; of `"ab//c"` only `"ab ` is stored, which
is no token -/
theorem c50_defect :
    (defineBody 99 (str "\"a  b\"") = .ok (str "\"a b\"", []) ∧ tokens exT 9 (str "\"a  b\"") 1 = .ok [(.str false (str "a  b"), 1)] ∧
      tokens exT 9 (str "\"a b\"") 1 = .ok [(.str false (str "a b"), 1)]) ∧
    defineBody 99 (str "\"ab//c\"") = .ok (str "\"ab ", []) ∧ tokens exT 9 (str "\"ab//c\"") 1 = .ok [(.str false (str "ab//c"), 1)] ∧
      tokens exT 9 (str "\"ab ") 1 = .error (.lit .chrStr) := by
  decide +kernel

/-- a macro `a` standing for `a` -/
def selfT : Cfg := { exT with mac := fun w => if w = str "a" then some (str "a") else none }

theorem self_loops (f : Nat) : ∀ k n, tokens selfT f (str "a" ++ List.replicate k 0x20) n = .error .fuel := by
  induction f with
  | zero => intro k n; rfl
  | succ f ih =>
    intro k n
    have hword : Word (str "a" ++ List.replicate k 0x20) (str "a") (List.replicate k 0x20) := by
      refine exWord _ _ (by decide +kernel) (by decide +kernel) ?_ (by decide)
      cases k with
      | zero => decide
      | succ k =>
        rw [List.replicate_succ]
        show ∀ c ∈ [(0x20 : UInt8)], _
        decide +kernel
    rw [(word_step selfT hword (by decide) f n).2.2, show expansion selfT n (str "a") = some (str "a") by unfold expansion; rw [if_neg (by decide), if_neg (by decide)]; rfl]
    exact ih (k + 1) n

/-- **C50** the name of a macro within its own text is replaced again: after `#define a a`, which in C leaves `a` alone, the compiler does not get past `a` -/
theorem c50_defect_self : ∀ f n, tokens selfT f (str "a") n = .error .fuel := fun f n => self_loops f 0 n

end Smlr.Lex
