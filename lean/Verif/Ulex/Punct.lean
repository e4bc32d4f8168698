import Verif.Ulex.Run
set_option autoImplicit false
/-! Punctuators. -/
namespace Smlr.Ulex

/-- the state after some characters -/
def walk : S → Str → Option S
  | q, [] => some q
  | q, c :: w =>
    match cppm q (some c) with
    | ⟨_, false, .st q'⟩ => if plain ⟨false, false, .st q'⟩ = true ∧ q ≠ .NAME_BS then walk q' w else none
    | _ => none

theorem walk_runs (fl : Flags) (k : K) (pd : Option K) (rest u : Str) (q' : S) (h : ∀ name, Runs fl q' name u (k, []) pd rest) :
    ∀ (w : Str) (q : S), walk q w = some q' → ∀ name, Runs fl q name (w ++ u) (k, []) pd rest := by
  intro w
  induction w with
  | nil =>
    intro q hw name
    injection hw with hw
    rw [hw]
    exact h name
  | cons c w ih =>
    intro q hw name
    rw [walk] at hw
    cases ha : cppm q (some c) with
    | mk p f t =>
      rw [ha] at hw
      match f, t with
      | true, t => cases hw
      | false, .tok _ => cases hw
      | false, .st q'' =>
        dsimp only at hw
        split at hw
        · rename_i hc
          refine Runs.go hc.2 ha ?_ (ih q'' hw _)
          obtain ⟨hc, -⟩ := hc
          exact hc
        · cases hw

/-- the spellings -/
def spell : List (Str × K) := puncts.map fun p => (str p.1, p.2)

def bytes : List (Str × K) := [
  ([0x5B], .LBRK),
  ([0x5D], .RBRK),
  ([0x28], .LPAR),
  ([0x29], .RPAR),
  ([0x7B], .LBRA),
  ([0x7D], .RBRA),
  ([0x2E], .DOT),
  ([0x2D, 0x3E], .ARROW),
  ([0x2B, 0x2B], .PPLUS),
  ([0x2D, 0x2D], .MMINUS),
  ([0x26], .AND),
  ([0x2A], .STAR),
  ([0x2B], .PLUS),
  ([0x2D], .MINUS),
  ([0x7E], .NOT),
  ([0x21], .LNOT),
  ([0x2F], .SLASH),
  ([0x25], .PCT),
  ([0x3C, 0x3C], .LSH),
  ([0x3E, 0x3E], .RSH),
  ([0x3C], .LT),
  ([0x3E], .GT),
  ([0x3C, 0x3D], .LEQ),
  ([0x3E, 0x3D], .GEQ),
  ([0x3D, 0x3D], .SAME),
  ([0x21, 0x3D], .NEQ),
  ([0x5E], .CIRC),
  ([0x7C], .OR),
  ([0x26, 0x26], .LAND),
  ([0x7C, 0x7C], .LOR),
  ([0x3F], .QUEST),
  ([0x3A], .COLON),
  ([0x3B], .SEMIC),
  ([0x2E, 0x2E, 0x2E], .MDOTS),
  ([0x3D], .ASGN),
  ([0x2A, 0x3D], .ASSTAR),
  ([0x2F, 0x3D], .ASSLASH),
  ([0x25, 0x3D], .ASPCT),
  ([0x2B, 0x3D], .ASPLUS),
  ([0x2D, 0x3D], .ASMINUS),
  ([0x3C, 0x3C, 0x3D], .ASLSH),
  ([0x3E, 0x3E, 0x3D], .ASRSH),
  ([0x26, 0x3D], .ASAND),
  ([0x5E, 0x3D], .ASCIRC),
  ([0x7C, 0x3D], .ASOR),
  ([0x2C], .COMMA),
  ([0x23], .SHARP),
  ([0x23, 0x23], .DSHARP),
  ([0x3C, 0x3A], .DIG_LBRK),
  ([0x3A, 0x3E], .DIG_RBRK),
  ([0x3C, 0x25], .DIG_LBRA),
  ([0x25, 0x3E], .DIG_RBRA),
  ([0x25, 0x3A], .DIG_SHARP),
  ([0x25, 0x3A, 0x25, 0x3A], .DIG_DSHARP)]

theorem spell_eq : spell = bytes := by decide +kernel

theorem drop_last (w : Str) (c : UInt8) (h : w.getLast? = some c) : w = w.dropLast ++ [c] := by
  obtain ⟨v, rfl⟩ := List.getLast?_eq_some_iff.mp h
  rw [List.dropLast_concat]

/-- the last character ends the token -/
def direct (w : Str) (k : K) : Bool :=
  match walk .START w.dropLast, w.getLast? with
  | some q, some c => cppm q (some c) = ⟨false, false, .tok k⟩ && q ≠ .NAME_BS
  | _, _ => false

/-- characters that go on -/
def more : List (Str × UInt8) :=
  bytes.filterMap (fun p => if 2 ≤ p.1.length then p.1.getLast?.map fun c => (p.1.dropLast, c) else none) ++
    [([0x2F], 0x2A), ([0x2F], 0x2F), ([0x25, 0x3A], 0x25), ([0x2E], 0x2E)] ++ [0x30, 0x31, 0x32, 0x33, 0x34, 0x35, 0x36, 0x37, 0x38, 0x39].map fun d => ([0x2E], d)

/-- with the next character looked at -/
def looked (w : Str) (k : K) : Bool :=
  match walk .START w with
  | some q => cppm q none = ⟨false, true, .tok k⟩ && q ≠ .START && (List.range 256).all fun n => cppm q (some (UInt8.ofNat n)) = ⟨false, true, .tok k⟩ || more.contains (w, UInt8.ofNat n)
  | none => false

theorem table : bytes.all (fun p => !named p.2 && (direct p.1 p.2 || looked p.1 p.2)) = true := by decide +kernel

theorem punct_runs (fl : Flags) (w : Str) (k : K) (r : Str) (hp : (w, k) ∈ bytes) (hr : Next (fun c => (w, c) ∉ more) r) : Runs fl .START [] (w ++ r) (k, []) none r := by
  have h := List.all_eq_true.mp table (w, k) hp
  simp only [Bool.and_eq_true, Bool.or_eq_true, Bool.not_eq_true'] at h
  obtain ⟨hn, h⟩ := h
  have hres : ∀ name, result k name = (k, []) := fun name => by rw [result, hn]; rfl
  rcases h with h | h
  · unfold direct at h
    split at h
    · rename_i q c hq hc
      simp only [Bool.and_eq_true, decide_eq_true_eq] at h
      have hw : w = w.dropLast ++ [c] := by
        exact (drop_last w c hc)
      rw [hw, List.append_assoc]
      refine walk_runs fl k none r ([c] ++ r) q (fun name => ?_) _ _ hq []
      have := Runs.fin (fl := fl) (name := name) (u := r) h.2 h.1
      rw [hres] at this
      exact this
    · cases h
  · unfold looked at h
    split at h
    · rename_i q hq
      simp only [Bool.and_eq_true, decide_eq_true_eq, List.all_eq_true, List.mem_range] at h
      obtain ⟨⟨h1, h2⟩, h3⟩ := h
      refine walk_runs fl k none r r q (fun name => ?_) _ _ hq []
      have := Runs.frz (fl := fl) (name := name) (u := r) (k := k) h2 (hr.get h1 fun c hc => ?_)
      · rw [hres] at this
        exact this
      · have := h3 c.toNat c.toNat_lt
        rw [UInt8.ofNat_toNat] at this
        simp only [Bool.or_eq_true, decide_eq_true_eq, List.contains_iff_mem] at this
        rcases this with h | h
        · exact h
        · exact absurd h hc
    · cases h

theorem dot_dot : cppm .DOT (some 0x2E) = ⟨false, false, .st .DOT2⟩ := by decide +kernel

theorem dot2_end (c : UInt8) : c ≠ 0x2E → cppm .DOT2 (some c) = ⟨false, true, .st .DDOT⟩ := by
  revert c; exact all8 _ (by decide +kernel)

theorem runs_dots (fl : Flags) (r : Str) (h : Next (· ≠ 0x2E) r) : Runs fl .START [] (0x2E :: 0x2E :: r) (.DOT, []) (some .DOT) r := by
  refine Runs.go (by decide) dot_start (by decide) (Runs.go (by decide) dot_dot (by decide) ?_)
  exact Runs.tok (fl := fl) .DOT2 _ r ⟨false, true, .tok .DOT⟩ (some .DOT) [] .DOT (fun _ => by decide) (by rw [h.get (by decide +kernel) dot2_end]; rfl) rfl

theorem pct3_end (c : UInt8) : c ≠ 0x3A → cppm .PCT3 (some c) = ⟨false, true, .st .DDSHARP⟩ := by
  revert c; exact all8 _ (by decide +kernel)

theorem runs_pct (fl : Flags) (r : Str) (h : Next (· ≠ 0x3A) r) : Runs fl .START [] (0x25 :: 0x3A :: 0x25 :: r) (.DIG_SHARP, []) (some .PCT) r := by
  refine Runs.go (p := false) (q' := .PCT) (by decide) (by decide +kernel) (by decide) (Runs.go (p := false) (q' := .PCT2) (by decide) (by decide +kernel) (by decide)
    (Runs.go (p := false) (q' := .PCT3) (by decide) (by decide +kernel) (by decide) ?_))
  exact Runs.tok (fl := fl) .PCT3 _ r ⟨false, true, .tok .DIG_SHARP⟩ (some .PCT) [] .DIG_SHARP (fun _ => by decide) (by rw [h.get (by decide +kernel) pct3_end]; rfl) rfl

theorem runs_slash (fl : Flags) (r : Str) (h : fl.cpp = false) : Runs fl .START [] (0x2F :: 0x2F :: r) (.SLASH, []) none (0x2F :: r) := by
  refine Runs.go (by decide) slash_start (by decide) ?_
  exact Runs.tok (fl := fl) .SLASH _ (0x2F :: r) ⟨false, true, .tok .SLASH⟩ none [] .SLASH (fun _ => by decide) (by rw [List.head?_cons, slash_slash]; simp [resolve, h]) rfl

end Smlr.Ulex
