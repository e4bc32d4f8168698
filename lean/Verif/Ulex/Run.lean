import Verif.Ulex.Chars
set_option autoImplicit false
/-! The automaton on texts: what `read_token` does with the characters that it is given. -/
namespace Smlr.Ulex

def nm (a : Act) (q : S) (name : Str) (c : Option UInt8) : Str :=
  if a.put then name ++ (if q = .NAME_BS then [0x5C] else []) ++ [c.getD 255] else name

/-- from a state, a name and a text to a token, what is pending, and the rest -/
inductive Runs (fl : Flags) : S → Str → Str → K × Str → Option K → Str → Prop
  | tok (q : S) (name u : Str) (a : Act) (pd : Option K) (pre : Str) (k : K) : (u = [] → q ≠ .START) → resolve fl (cppm q u.head?) = .ok (a, pd, pre) → a.to = .tok k →
      Runs fl q name u (result k (nm a q (pre ++ name) u.head?)) pd (if a.frz then u else u.tail)
  | st (q : S) (name u : Str) (a : Act) (pre : Str) (q' : S) (R : K × Str) (pd : Option K) (rest : Str) : (u = [] → q ≠ .START) → resolve fl (cppm q u.head?) = .ok (a, none, pre) → a.to = .st q' →
      Runs fl q' (nm a q (pre ++ name) u.head?) (if a.frz then u else u.tail) R pd rest → Runs fl q name u R pd rest

theorem loop_runs (fl : Flags) (q : S) (name u : Str) (R : K × Str) (pd : Option K) (rest : Str) (h : Runs fl q name u R pd rest) :
    ∃ N, ∀ s, Inv fl s → text fl s = u → ∀ n ≥ N, ∃ s', loop fl n q name s = .ok (some R, s') ∧ text fl s' = rest ∧ Inv fl s' ∧ s'.pending = if pd = none then s.pending else pd := by
  have hstep : ∀ (s : St) (p : Option K) (frz : Bool), Inv fl s → s.discard = false →
      text fl (if frz then { s with pending := p } else discardChar { s with pending := p }) = (if frz then text fl s else (text fl s).tail) ∧
      Inv fl (if frz then { s with pending := p } else discardChar { s with pending := p }) ∧ (if frz then { s with pending := p } else discardChar { s with pending := p }).pending = p := by
    intro s p frz hi hd
    have hi' : Inv fl { s with pending := p } := ⟨hi.ok, hi.eof⟩
    cases frz with
    | true => exact ⟨rfl, hi', rfl⟩
    | false =>
      have := discard_spec fl { s with pending := p } hi' hd
      exact ⟨this.1, this.2, rfl⟩
  induction h with
  | tok q name u a pd pre k h0 h1 h2 =>
    refine ⟨1, fun s hi hu n hn => ?_⟩
    obtain ⟨n, rfl⟩ : ∃ m, n = m + 1 := ⟨n - 1, by omega⟩
    obtain ⟨s', g1, g2, g3, g4, g5, g6⟩ := next_spec fl s hi
    rw [hu] at g1 g2 g6
    have hx := hstep s' (if pd = none then s'.pending else pd) a.frz g3 g4
    rw [loop, g1]
    dsimp only
    rw [if_neg, h1]
    · dsimp only
      rw [h2]
      dsimp only
      refine ⟨_, rfl, ?_, hx.2.1, ?_⟩
      · rw [hx.1, g2]
      · rw [hx.2.2, g5]
    · rintro ⟨h3, h4⟩
      exact h0 (List.head?_eq_none_iff.mp h3) h4
  | st q name u a pre q' R pd rest h0 h1 h2 h3 ih =>
    obtain ⟨N, ih⟩ := ih
    refine ⟨N + 1, fun s hi hu n hn => ?_⟩
    obtain ⟨n, rfl⟩ : ∃ m, n = m + 1 := ⟨n - 1, by omega⟩
    obtain ⟨s', g1, g2, g3, g4, g5, g6⟩ := next_spec fl s hi
    rw [hu] at g1 g2 g6
    have hx := hstep s' s'.pending a.frz g3 g4
    rw [g2] at hx
    obtain ⟨s'', k1, k2, k3, k4⟩ := ih _ hx.2.1 hx.1 n (by omega)
    rw [loop, g1]
    dsimp only
    rw [if_neg, h1]
    · dsimp only
      rw [h2]
      dsimp only
      refine ⟨s'', k1, k2, k3, ?_⟩
      rw [k4, hx.2.2, g5]
    · rintro ⟨h3, h4⟩
      exact h0 (List.head?_eq_none_iff.mp h3) h4

/-- states and tokens to which nothing special is done -/
def plain (a : Act) : Bool :=
  match a.to with
  | .tok _ => true
  | .st q => q ∉ [S.COMMENT5, .ILL, .BS, .ROGUE_BS, .DDOT, .DDSHARP, .BEHEAD, .DECAY, .TRUNC, .TRUNCC, .OUCH]

theorem resolve_plain (fl : Flags) (a : Act) (h : plain a = true) : resolve fl a = .ok (a, none, []) := by
  obtain ⟨p, f, t⟩ := a
  unfold resolve
  rw [if_neg]
  · cases t with
    | tok k => rfl
    | st q => cases q <;> first | rfl | exact absurd h (by simp [plain])
  · rintro ⟨h1, -⟩
    rw [h1] at h
    exact absurd h (by decide)

theorem Runs.go {fl : Flags} {q : S} {name : Str} {c : UInt8} {u : Str} {p : Bool} {q' : S} {R : K × Str} {pd : Option K} {rest : Str} (hq : q ≠ .NAME_BS)
    (h : cppm q (some c) = ⟨p, false, .st q'⟩) (hp : plain ⟨p, false, .st q'⟩ = true) (hr : Runs fl q' (if p then name ++ [c] else name) u R pd rest) : Runs fl q name (c :: u) R pd rest := by
  refine .st q name (c :: u) ⟨p, false, .st q'⟩ [] q' R pd rest (by simp) (by rw [List.head?_cons, h]; exact resolve_plain fl _ hp) rfl ?_
  have : nm ⟨p, false, .st q'⟩ q ([] ++ name) (some c) = if p then name ++ [c] else name := by
    simp [nm, hq]
  rw [List.head?_cons, this]
  exact hr

theorem Runs.stay {fl : Flags} {q : S} {name u : Str} {q' : S} {R : K × Str} {pd : Option K} {rest : Str} (hq : q ≠ .START)
    (h : cppm q u.head? = ⟨false, true, .st q'⟩) (hp : plain ⟨false, true, .st q'⟩ = true) (hr : Runs fl q' name u R pd rest) : Runs fl q name u R pd rest :=
  .st q name u ⟨false, true, .st q'⟩ [] q' R pd rest (fun _ => hq) (by rw [h]; exact resolve_plain fl _ hp) rfl hr

theorem Runs.fin {fl : Flags} {q : S} {name : Str} {c : UInt8} {u : Str} {p : Bool} {k : K} (hq : q ≠ .NAME_BS)
    (h : cppm q (some c) = ⟨p, false, .tok k⟩) : Runs fl q name (c :: u) (result k (if p then name ++ [c] else name)) none u := by
  have := Runs.tok (fl := fl) q name (c :: u) ⟨p, false, .tok k⟩ none [] k (by simp) (by rw [List.head?_cons, h]; exact resolve_plain fl _ rfl) rfl
  rw [List.head?_cons] at this
  have e : nm ⟨p, false, .tok k⟩ q ([] ++ name) (some c) = if p then name ++ [c] else name := by
    simp [nm, hq]
  rw [e] at this
  exact this

theorem Runs.frz {fl : Flags} {q : S} {name u : Str} {k : K} (hq : q ≠ .START) (h : cppm q u.head? = ⟨false, true, .tok k⟩) : Runs fl q name u (result k name) none u :=
  Runs.tok (fl := fl) q name u ⟨false, true, .tok k⟩ none [] k (fun _ => hq) (by rw [h]; exact resolve_plain fl _ rfl) rfl

theorem all8 (P : UInt8 → Prop) (h : ∀ n < 256, P (UInt8.ofNat n)) (c : UInt8) : P c := by
  have := h c.toNat c.toNat_lt
  rwa [UInt8.ofNat_toNat] at this

theorem letters_eq : letters = [65, 66, 67, 68, 69, 70, 71, 72, 73, 74, 75, 76, 77, 78, 79, 80, 81, 82, 83, 84, 85, 86, 87, 88, 89, 90, 97, 98, 99, 100, 101, 102, 103, 104, 105, 106, 107, 108, 109, 110, 111, 112, 113, 114, 115, 116, 117, 118, 119, 120, 121, 122, 95] := by decide +kernel

theorem digits_eq : digits = [48, 49, 50, 51, 52, 53, 54, 55, 56, 57] := by decide +kernel

theorem used_eq : used = [65, 66, 67, 68, 69, 70, 71, 72, 73, 74, 75, 76, 77, 78, 79, 80, 81, 82, 83, 84, 85, 86, 87, 88, 89, 90, 97, 98, 99, 100, 101, 102, 103, 104, 105, 106, 107, 108, 109, 110, 111, 112, 113, 114, 115, 116, 117, 118, 119, 120, 121, 122, 95, 48, 49, 50, 51, 52, 53, 54, 55, 56, 57, 32, 9, 11, 12, 10, 33, 34, 35, 37, 38, 39, 40, 41, 42, 43, 44, 45, 46, 47, 58, 59, 60, 61, 62, 63, 91, 92, 93, 94, 123, 124, 125, 126] := by decide +kernel

theorem signs_eq : str "+-" = [43, 45] := by decide +kernel

theorem exps_eq : str "eEpP" = [101, 69, 112, 80] := by decide +kernel

/-- at the end, or before a character that has a property -/
def Next (P : UInt8 → Prop) (r : Str) : Prop := ∀ c, r.head? = some c → P c

theorem Next.get {P : UInt8 → Prop} {r : Str} {q : S} {a : Act} (h : Next P r) (hn : cppm q none = a) (hc : ∀ c, P c → cppm q (some c) = a) : cppm q r.head? = a := by
  cases hr : r.head? with
  | none => exact hn
  | some c => exact hc c (h c hr)

/-! white space, ends of lines, comments -/

theorem space_start : ∀ c ∈ blanks, cppm .START (some c) = ⟨false, false, .st .SPACE⟩ := by decide +kernel

theorem space_go : ∀ c ∈ blanks, cppm .SPACE (some c) = ⟨false, false, .st .SPACE⟩ := by decide +kernel

theorem space_end (c : UInt8) : c ∉ blanks → cppm .SPACE (some c) = ⟨false, true, .tok .NONE⟩ := by
  revert c; exact all8 _ (by decide +kernel)

theorem runs_space' (fl : Flags) (w r : Str) (hw : ∀ c ∈ w, c ∈ blanks) (hr : Next (· ∉ blanks) r) : Runs fl .SPACE [] (w ++ r) (.NONE, []) none r := by
  induction w with
  | nil => exact Runs.frz (by decide) (hr.get (by decide +kernel) space_end)
  | cons c w ih =>
    exact Runs.go (by decide) (space_go c (hw c List.mem_cons_self)) (by decide) (ih fun d hd => hw d (List.mem_cons_of_mem _ hd))

theorem runs_space (fl : Flags) (w r : Str) (h0 : w ≠ []) (hw : ∀ c ∈ w, c ∈ blanks) (hr : Next (· ∉ blanks) r) : Runs fl .START [] (w ++ r) (.NONE, []) none r := by
  cases w with
  | nil => exact absurd rfl h0
  | cons c w =>
    exact Runs.go (by decide) (space_start c (hw c List.mem_cons_self)) (by decide) (runs_space' fl w r (fun d hd => hw d (List.mem_cons_of_mem _ hd)) hr)

theorem runs_newline (fl : Flags) (r : Str) : Runs fl .START [] (0x0A :: r) (.NEWLINE, []) none r :=
  Runs.fin (p := false) (by decide) (by decide +kernel)

theorem slash_start : cppm .START (some 0x2F) = ⟨false, false, .st .SLASH⟩ := by decide +kernel

theorem slash_star : cppm .SLASH (some 0x2A) = ⟨false, false, .st .COMMENT⟩ := by decide +kernel

theorem comment_go (c : UInt8) : c ≠ 0x2A → cppm .COMMENT (some c) = ⟨false, false, .st .COMMENT⟩ := by
  revert c; exact all8 _ (by decide +kernel)

theorem comment_star : cppm .COMMENT (some 0x2A) = ⟨false, false, .st .COMMENT2⟩ := by decide +kernel

theorem comment2_star : cppm .COMMENT2 (some 0x2A) = ⟨false, false, .st .COMMENT2⟩ := by decide +kernel

theorem comment2_end : cppm .COMMENT2 (some 0x2F) = ⟨false, false, .tok .COMMENT⟩ := by decide +kernel

theorem comment2_back (c : UInt8) : c ≠ 0x2A → c ≠ 0x2F → cppm .COMMENT2 (some c) = ⟨false, true, .st .COMMENT⟩ := by
  revert c; exact all8 _ (by decide +kernel)

/-- no early end -/
def Close (b : Str) : Prop := ∀ u v, b ++ str "*/" = u ++ str "*/" ++ v → v = []

theorem Close.tail {c : UInt8} {b : Str} (h : Close (c :: b)) : Close b := by
  intro u v hb
  exact h (c :: u) v (by rw [List.cons_append, hb]; rfl)

theorem star_slash : str "*/" = [0x2A, 0x2F] := by decide +kernel

theorem runs_comment (fl : Flags) (r : Str) : ∀ b, (Close b → Runs fl .COMMENT [] (b ++ [0x2A, 0x2F] ++ r) (.COMMENT, []) none r) ∧
    (Close (0x2A :: b) → Runs fl .COMMENT2 [] (b ++ [0x2A, 0x2F] ++ r) (.COMMENT, []) none r) := by
  intro b
  induction b with
  | nil =>
    have hend : Runs fl .COMMENT2 [] (0x2F :: r) (.COMMENT, []) none r := Runs.fin (by decide) comment2_end
    exact ⟨fun _ => Runs.go (by decide) comment_star (by decide) hend, fun _ => Runs.go (by decide) comment2_star (by decide) hend⟩
  | cons c b ih =>
    have h1 : Close (c :: b) → Runs fl .COMMENT [] (c :: b ++ [0x2A, 0x2F] ++ r) (.COMMENT, []) none r := by
      intro h
      by_cases hc : c = 0x2A
      · subst hc
        exact Runs.go (by decide) comment_star (by decide) (ih.2 h)
      · exact Runs.go (by decide) (comment_go c hc) (by decide) (ih.1 h.tail)
    refine ⟨h1, fun h => ?_⟩
    by_cases hc : c = 0x2A
    · subst hc
      exact Runs.go (by decide) comment2_star (by decide) (ih.2 h.tail)
    · by_cases hs : c = 0x2F
      · subst hs
        have := h [] (b ++ str "*/") (by rw [star_slash]; rfl)
        rw [star_slash] at this
        simp at this
      · exact Runs.stay (by decide) (comment2_back c hc hs) (by decide) (h1 h.tail)

theorem runs_block (fl : Flags) (b r : Str) (h : Close b) : Runs fl .START [] (str "/*" ++ b ++ str "*/" ++ r) (.COMMENT, []) none r := by
  have e : str "/*" ++ b ++ str "*/" ++ r = 0x2F :: 0x2A :: (b ++ [0x2A, 0x2F] ++ r) := by
    rw [star_slash, show str "/*" = [0x2F, 0x2A] by decide +kernel]; simp
  rw [e]
  exact Runs.go (by decide) slash_start (by decide) (Runs.go (by decide) slash_star (by decide) ((runs_comment fl r b).1 h))

theorem slash_slash : cppm .SLASH (some 0x2F) = ⟨false, false, .st .COMMENT5⟩ := by decide +kernel

theorem comment5_go (c : UInt8) : c ≠ 0x0A → cppm .COMMENT5 (some c) = ⟨false, false, .st .COMMENT5⟩ := by
  revert c; exact all8 _ (by decide +kernel)

theorem resolve_comment5 (fl : Flags) (h : fl.cpp = true) : resolve fl ⟨false, false, .st .COMMENT5⟩ = .ok (⟨false, false, .st .COMMENT5⟩, none, []) := by
  unfold resolve
  rw [if_neg (by simp [h])]

theorem go5 {fl : Flags} {q : S} {c : UInt8} {u : Str} {R : K × Str} {rest : Str} (h : fl.cpp = true) (hc : cppm q (some c) = ⟨false, false, .st .COMMENT5⟩)
    (hr : Runs fl .COMMENT5 [] u R none rest) : Runs fl q [] (c :: u) R none rest :=
  .st q [] (c :: u) ⟨false, false, .st .COMMENT5⟩ [] .COMMENT5 R none rest (by simp) (by rw [List.head?_cons, hc]; exact resolve_comment5 fl h) rfl hr

theorem runs_line (fl : Flags) (b r : Str) (hcpp : fl.cpp = true) (hb : 0x0A ∉ b) (hr : Next (· = 0x0A) r) : Runs fl .START [] (str "//" ++ b ++ r) (.COMMENT, []) none r := by
  rw [show str "//" = [0x2F, 0x2F] by decide +kernel]
  refine Runs.go (by decide) slash_start (by decide) (go5 hcpp slash_slash ?_)
  show Runs fl .COMMENT5 [] (b ++ r) (.COMMENT, []) none r
  induction b with
  | nil =>
    cases r with
    | nil => exact Runs.tok .COMMENT5 [] [] ⟨false, true, .tok .COMMENT⟩ none [] .COMMENT (by decide) (by rw [show cppm .COMMENT5 (List.head? []) = ⟨false, true, .st .DECAY⟩ by decide +kernel]; rfl) rfl
    | cons c r =>
      obtain rfl := hr c rfl
      exact Runs.frz (by decide) (show cppm .COMMENT5 (some 0x0A) = _ by decide +kernel)
  | cons c b ih =>
    exact go5 hcpp (comment5_go c fun h => hb (by rw [h]; exact List.mem_cons_self)) (ih fun h => hb (List.mem_cons_of_mem _ h))

/-! names -/

theorem name_start : ∀ c ∈ letters, c ≠ 0x4C → cppm .START (some c) = ⟨true, false, .st .NAME⟩ := by rw [letters_eq]; decide +kernel

theorem l_start : cppm .START (some 0x4C) = ⟨true, false, .st .LCHAR⟩ := by decide +kernel

theorem l_name (c : UInt8) : c ≠ 0x22 → c ≠ 0x27 → cppm .LCHAR (some c) = ⟨false, true, .st .NAME⟩ := by
  revert c; exact all8 _ (by decide +kernel)

theorem name_go : ∀ c ∈ letters ++ digits, cppm .NAME (some c) = ⟨true, false, .st .NAME⟩ := by rw [letters_eq, digits_eq]; decide +kernel

theorem name_end (c : UInt8) : c ∉ letters ++ digits ∧ c ≠ 0x5C → cppm .NAME (some c) = ⟨false, true, .tok .NAME⟩ := by
  rw [letters_eq, digits_eq]; revert c; exact all8 _ (by decide +kernel)

theorem runs_name' (fl : Flags) (w r : Str) (hw : ∀ c ∈ w, c ∈ letters ++ digits) (hr : Next (fun c => c ∉ letters ++ digits ∧ c ≠ 0x5C) r) :
    ∀ name, Runs fl .NAME name (w ++ r) (.NAME, name ++ w) none r := by
  induction w with
  | nil =>
    intro name
    rw [List.append_nil]
    exact Runs.frz (by decide) (hr.get (by decide +kernel) name_end)
  | cons c w ih =>
    intro name
    have := ih (fun d hd => hw d (List.mem_cons_of_mem _ hd)) (name ++ [c])
    rw [List.append_assoc] at this
    exact Runs.go (by decide) (name_go c (hw c List.mem_cons_self)) (by decide) this

theorem runs_name (fl : Flags) (c : UInt8) (w r : Str) (hc : c ∈ letters) (hw : ∀ d ∈ w, d ∈ letters ++ digits) (hr : Next (fun c => c ∉ letters ++ digits ∧ c ≠ 0x5C) r)
    (hl : c = 0x4C → w = [] → Next (fun c => c ≠ 0x22 ∧ c ≠ 0x27) r) : Runs fl .START [] (c :: w ++ r) (.NAME, c :: w) none r := by
  by_cases h : c = 0x4C
  · subst h
    refine Runs.go (by decide) l_start (by decide) (Runs.stay (by decide) ?_ (by decide) (runs_name' fl w r hw hr [0x4C]))
    cases w with
    | nil => exact (hl rfl rfl).get (by decide +kernel) fun c h => l_name c h.1 h.2
    | cons d w =>
      have : ∀ d ∈ letters ++ digits, d ≠ 0x22 ∧ d ≠ 0x27 := by decide +kernel
      have := this d (hw d List.mem_cons_self)
      exact l_name d this.1 this.2
  · exact Runs.go (by decide) (name_start c hc h) (by decide) (runs_name' fl w r hw hr [c])

/-! character constants and strings -/

theorem char_go (c : UInt8) : c ≠ 0x27 → c ≠ 0x5C → cppm .CHAR (some c) = ⟨true, false, .st .CHAR⟩ := by
  revert c; exact all8 _ (by decide +kernel)

theorem char2_go (c : UInt8) : cppm .CHAR2 (some c) = ⟨true, false, .st .CHAR⟩ := by
  revert c; exact all8 _ (by decide +kernel)

theorem string_go (c : UInt8) : c ≠ 0x22 → c ≠ 0x5C → c ≠ 0x0A → cppm .STRING (some c) = ⟨true, false, .st .STRING⟩ := by
  revert c; exact all8 _ (by decide +kernel)

theorem string2_go (c : UInt8) : cppm .STRING2 (some c) = ⟨true, false, .st .STRING⟩ := by
  revert c; exact all8 _ (by decide +kernel)

theorem runs_body (fl : Flags) (q : UInt8) (st st2 : S) (k : K) (hk : named k = true) (h1 : st ≠ .NAME_BS) (h2 : st2 ≠ .NAME_BS)
    (p1 : plain ⟨true, false, .st st⟩ = true) (p2 : plain ⟨true, false, .st st2⟩ = true)
    (hgo : ∀ c, c ≠ q → c ≠ 0x5C → c ≠ 0x0A → cppm st (some c) = ⟨true, false, .st st⟩) (hbs : cppm st (some 0x5C) = ⟨true, false, .st st2⟩)
    (hgo2 : ∀ c, cppm st2 (some c) = ⟨true, false, .st st⟩) (hend : cppm st (some q) = ⟨true, false, .tok k⟩) (b r : Str) (hb : Body q b) :
    ∀ name, Runs fl st name (b ++ q :: r) (k, name ++ b ++ [q]) none r := by
  induction hb with
  | nil =>
    intro name
    have := Runs.fin (fl := fl) (name := name) (u := r) h1 hend
    simp only [result, hk, if_true] at this
    simpa using this
  | plain c b a1 a2 a3 _ ih =>
    intro name
    have := ih (name ++ [c])
    rw [List.append_assoc name] at this
    exact Runs.go h1 (hgo c a1 a2 a3) p1 this
  | esc c b _ _ ih =>
    intro name
    have := ih (name ++ [0x5C] ++ [c])
    simp only [List.append_assoc, List.cons_append, List.nil_append] at this ⊢
    exact Runs.go h1 hbs p2 (Runs.go h2 (hgo2 c) p1 (by simpa using this))

theorem str_L : str "L" = [0x4C] := by decide +kernel

theorem runs_char (fl : Flags) (l b r : Str) (hl : l = [] ∨ l = str "L") (hb : Body 0x27 b) : Runs fl .START [] (l ++ 0x27 :: b ++ [0x27] ++ r) (.CHAR, l ++ 0x27 :: b ++ [0x27]) none r := by
  have h := runs_body fl 0x27 .CHAR .CHAR2 .CHAR rfl (by decide) (by decide) (by decide) (by decide) (fun c h1 h2 _ => char_go c h1 h2) (by decide +kernel) char2_go (by decide +kernel) b r hb
  rcases hl with rfl | rfl
  · have := h [0x27]
    simp only [List.append_assoc, List.cons_append, List.nil_append] at this ⊢
    exact Runs.go (by decide) (p := true) (q' := .CHAR) (by decide +kernel) (by decide) this
  · have := h [0x4C, 0x27]
    rw [str_L]
    simp only [List.append_assoc, List.cons_append, List.nil_append] at this ⊢
    exact Runs.go (by decide) l_start (by decide) (Runs.go (by decide) (p := true) (q' := .CHAR) (by decide +kernel) (by decide) this)

theorem runs_string (fl : Flags) (l b r : Str) (hl : l = [] ∨ l = str "L") (hb : Body 0x22 b) : Runs fl .START [] (l ++ 0x22 :: b ++ [0x22] ++ r) (.STRING, l ++ 0x22 :: b ++ [0x22]) none r := by
  have h := runs_body fl 0x22 .STRING .STRING2 .STRING rfl (by decide) (by decide) (by decide) (by decide) string_go (by decide +kernel) string2_go (by decide +kernel) b r hb
  rcases hl with rfl | rfl
  · have := h [0x22]
    simp only [List.append_assoc, List.cons_append, List.nil_append] at this ⊢
    exact Runs.go (by decide) (p := true) (q' := .STRING) (by decide +kernel) (by decide) this
  · have := h [0x4C, 0x22]
    rw [str_L]
    simp only [List.append_assoc, List.cons_append, List.nil_append] at this ⊢
    exact Runs.go (by decide) l_start (by decide) (Runs.go (by decide) (p := true) (q' := .STRING) (by decide +kernel) (by decide) this)

/-! other characters -/

theorem other_start (c : UInt8) : c ∉ used → cppm .START (some c) = ⟨false, false, .st .ILL⟩ := by
  rw [used_eq]; revert c; exact all8 _ (by decide +kernel)

theorem runs_other (fl : Flags) (c : UInt8) (r : Str) (h : c ∉ used) (hf : fl.cset = false) : Runs fl .START [] (c :: r) (.BUNCH, [c]) none r := by
  have := Runs.tok (fl := fl) .START [] (c :: r) ⟨true, false, .tok .BUNCH⟩ none [] .BUNCH (by simp) (by rw [List.head?_cons, other_start c h]; simp [resolve, hf]) rfl
  exact this

/-! numbers -/

def signs : Str := str "eEpP"

/-- one of the letters is followed by a point or another of them -/
def Pair (w : Str) : Prop := ∃ v e f t, w = v ++ e :: f :: t ∧ e ∈ str "eEpP" ∧ f ∈ str "eEpP."

theorem Pair.left {w : Str} (h : Pair w) (x : Str) : Pair (w ++ x) := by
  obtain ⟨v, e, f, t, rfl, h1, h2⟩ := h
  exact ⟨v, e, f, t ++ x, by simp, h1, h2⟩

/-- the letters after which a sign may follow -/
theorem num_start : ∀ d ∈ digits, cppm .START (some d) = ⟨true, false, .st .NUMBER⟩ := by rw [digits_eq]; decide +kernel

theorem dot_start : cppm .START (some 0x2E) = ⟨true, false, .st .DOT⟩ := by decide +kernel

theorem dot_num : ∀ d ∈ digits, cppm .DOT (some d) = ⟨true, false, .st .NUMBER⟩ := by rw [digits_eq]; decide +kernel

theorem num_digit : ∀ d ∈ digits, cppm .NUMBER (some d) = ⟨true, false, .st .NUMBER⟩ := by rw [digits_eq]; decide +kernel

theorem num2_digit : ∀ d ∈ digits, cppm .NUMBER2 (some d) = ⟨true, false, .st .NUMBER⟩ := by rw [digits_eq]; decide +kernel

theorem num_letter : ∀ d ∈ letters, d ∉ str "eEpP" → cppm .NUMBER (some d) = ⟨true, false, .st .NUMBER⟩ := by rw [letters_eq, exps_eq]; decide +kernel

theorem num_exp : ∀ d ∈ str "eEpP", cppm .NUMBER (some d) = ⟨true, false, .st .NUMBER2⟩ := by rw [exps_eq]; decide +kernel

theorem num2_letter : ∀ d ∈ letters, cppm .NUMBER2 (some d) = ⟨true, false, .st .NUMBER⟩ := by rw [letters_eq]; decide +kernel

theorem num2_sign : ∀ d ∈ str "+-", cppm .NUMBER2 (some d) = ⟨true, false, .st .NUMBER⟩ := by decide +kernel

theorem num_point : cppm .NUMBER (some 0x2E) = ⟨true, false, .st .NUMBER⟩ := by decide +kernel

theorem num_end (c : UInt8) : c ∉ letters ++ digits ∧ c ≠ 0x2E → cppm .NUMBER (some c) = ⟨false, true, .tok .NUMBER⟩ := by
  rw [letters_eq, digits_eq]; revert c; exact all8 _ (by decide +kernel)

theorem num2_end (c : UInt8) : c ∉ letters ++ digits ∧ c ∉ str "+-" → cppm .NUMBER2 (some c) = ⟨false, true, .tok .NUMBER⟩ := by
  rw [letters_eq, digits_eq, signs_eq]; revert c; exact all8 _ (by decide +kernel)

theorem walk_num (fl : Flags) (w : Str) (h : PpNum w) (hw : ¬ Pair w) :
    ∃ q, (q = .NUMBER ∨ q = .NUMBER2 ∧ ∃ v e, w = v ++ [e] ∧ e ∈ str "eEpP" ∧ PpNum v) ∧ ∀ u R pd rest, Runs fl q w u R pd rest → Runs fl .START [] (w ++ u) R pd rest := by
  induction h with
  | digit d hd => exact ⟨.NUMBER, .inl rfl, fun u R pd rest h => Runs.go (by decide) (num_start d hd) (by decide) h⟩
  | dot d hd => exact ⟨.NUMBER, .inl rfl, fun u R pd rest h => Runs.go (by decide) dot_start (by decide) (Runs.go (by decide) (dot_num d hd) (by decide) h)⟩
  | digits w d hn hd ih =>
    obtain ⟨q, hq, ih⟩ := ih fun h => hw (h.left _)
    refine ⟨.NUMBER, .inl rfl, fun u R pd rest h => ?_⟩
    rw [List.append_assoc]
    refine ih _ _ _ _ ?_
    rcases hq with rfl | ⟨rfl, -⟩
    · exact Runs.go (by decide) (num_digit d hd) (by decide) h
    · exact Runs.go (by decide) (num2_digit d hd) (by decide) h
  | letter w c hn hc ih =>
    obtain ⟨q, hq, ih⟩ := ih fun h => hw (h.left _)
    by_cases he : c ∈ str "eEpP"
    · rcases hq with rfl | ⟨rfl, v, e, rfl, hv, -⟩
      · refine ⟨.NUMBER2, .inr ⟨rfl, w, c, rfl, he, hn⟩, fun u R pd rest h => ?_⟩
        rw [List.append_assoc]
        exact ih _ _ _ _ (Runs.go (by decide) (num_exp c he) (by decide) h)
      · have : ∀ c ∈ str "eEpP", c ∈ str "eEpP." := by decide +kernel
        exact absurd ⟨v, e, c, [], by simp, hv, this c he⟩ hw
    · refine ⟨.NUMBER, .inl rfl, fun u R pd rest h => ?_⟩
      rw [List.append_assoc]
      refine ih _ _ _ _ ?_
      rcases hq with rfl | ⟨rfl, -⟩
      · exact Runs.go (by decide) (num_letter c hc he) (by decide) h
      · exact Runs.go (by decide) (num2_letter c hc) (by decide) h
  | sign w e s hn he hs ih =>
    obtain ⟨q, hq, ih⟩ := ih fun h => hw (h.left _)
    rcases hq with rfl | ⟨rfl, v, e', rfl, hv, -⟩
    · refine ⟨.NUMBER, .inl rfl, fun u R pd rest h => ?_⟩
      rw [List.append_assoc]
      refine ih _ _ _ _ (Runs.go (by decide) (num_exp e he) (by decide) (Runs.go (by decide) (num2_sign s hs) (by decide) ?_))
      simpa using h
    · have : ∀ c ∈ str "eEpP", c ∈ str "eEpP." := by decide +kernel
      exact absurd ⟨v, e', e, [s], by simp, hv, this e he⟩ hw
  | point w hn ih =>
    obtain ⟨q, hq, ih⟩ := ih fun h => hw (h.left _)
    rcases hq with rfl | ⟨rfl, v, e, rfl, hv, -⟩
    · refine ⟨.NUMBER, .inl rfl, fun u R pd rest h => ?_⟩
      rw [List.append_assoc]
      exact ih _ _ _ _ (Runs.go (by decide) num_point (by decide) h)
    · exact absurd ⟨v, e, 0x2E, [], by simp, hv, by decide +kernel⟩ hw

theorem runs_number (fl : Flags) (w r : Str) (h : PpNum w) (hw : ¬ Pair w) (hr : Next (fun c => c ∉ letters ++ digits ∧ c ≠ 0x2E) r)
    (hs : ∀ v e, w = v ++ [e] → e ∈ str "eEpP" → PpNum v → Next (· ∉ str "+-") r) : Runs fl .START [] (w ++ r) (.NUMBER, w) none r := by
  obtain ⟨q, hq, h⟩ := walk_num fl w h hw
  refine h _ _ _ _ ?_
  rcases hq with rfl | ⟨rfl, v, e, hv, he, hn⟩
  · exact Runs.frz (by decide) (hr.get (by decide +kernel) num_end)
  · refine Runs.frz (k := .NUMBER) (name := w) (by decide) (Next.get (P := fun c => c ∉ letters ++ digits ∧ c ∉ str "+-") ?_ (by decide +kernel) num2_end)
    exact fun c hc => ⟨(hr c hc).1, hs v e hv he hn c hc⟩

end Smlr.Ulex
