import Verif.Scan.Loop

set_option autoImplicit false
/-
C43: scanf reads what its directives say.
-/
namespace Smlr.Scan

open Spec

/-- C43.  For every well-formed format of white space, literal characters, `%%`, `%n` and
conversions other than the floating ones, and every input shorter than `INT_MAX`, `__doscan`
assigns, consumes and returns what the directives specify, except for `%%` and `%n` as
described at `Spec.Run`.  (The full statement has `Run W true`; see the two `_defect`
theorems for why it fails.) -/
theorem c43_scan_partial (W : Nat) (hW : W = 16 ∨ W = 32) (ds : List Dir) (hds : ∀ d ∈ ds, d.ok W)
    (inp : List Nat) (hb : ∀ c ∈ inp, c < 256) (hl : inp.length < 2 ^ (W - 1) - 1) :
    ∃ o, Run W false ds ⟨inp, 0, 0, []⟩ o ∧ doscan W (render ds) inp = o :=
  (loop_ok W (by omega) ds hds).1 _ ⟨inp, 0, 0, []⟩ ⟨inp, 0, 0, []⟩
    ⟨rfl, rfl, rfl, fun _ => rfl⟩ ⟨hb, hl⟩ (Nat.lt_succ_self _)

/-- C43, for formats without `%%` and `%n`: the outcome is the one the standard requires. -/
theorem c43_scan (W : Nat) (hW : W = 16 ∨ W = 32) (ds : List Dir) (hds : ∀ d ∈ ds, d.ok W)
    (hn : ∀ d ∈ ds, d ≠ .pct ∧ ∀ m, d ≠ .count m)
    (inp : List Nat) (hb : ∀ c ∈ inp, c < 256) (hl : inp.length < 2 ^ (W - 1) - 1) :
    Run W true ds ⟨inp, 0, 0, []⟩ (doscan W (render ds) inp) := by
  obtain ⟨o, h1, h2⟩ := c43_scan_partial W hW ds hds inp hb hl
  rw [h2]
  exact run_full h1 hn

/-- The specification leaves no choice: there is one outcome. -/
theorem c43_unique (W : Nat) (ds : List Dir) (sp : Sp) (o o' : Res) (h : Run W true ds sp o)
    (h' : Run W true ds sp o') : o = o' :=
  run_det h h'

/-- `"%d , %4x"` -/
def exDs : List Dir :=
  [.conv true [] .none .d, .space [32], .lit 44, .space [32], .conv true [52] .none .x]

/-- `" -12,0xFFz"`: two assignments, −12 and 0xFF, and `z` is left. -/
example : doscan 32 (render exDs) [32, 45, 49, 50, 44, 48, 120, 70, 70, 122] =
    .ret 2 [122] [.int 32 (2 ^ 32 - 12), .int 32 255] := by decide +kernel

example : (∀ d ∈ exDs, d.ok 32) ∧ (∀ d ∈ exDs, d ≠ .pct ∧ ∀ m, d ≠ .count m) := by
  constructor
  · intro d hd
    simp only [exDs, List.mem_cons, List.not_mem_nil, or_false] at hd
    rcases hd with rfl | rfl | rfl | rfl | rfl <;>
      simp [Dir.ok, Mod.ok, Conv.ok, Ctype.Spec.Space, Ctype.Spec.Digit, decVal]
  · intro d hd
    simp only [exDs, List.mem_cons, List.not_mem_nil, or_false] at hd
    rcases hd with rfl | rfl | rfl | rfl | rfl <;> simp

/-- `%n` after white space at the end of the input is one too many: `"%d %n"` on `"5"`
stores 2, though one character was read. -/
theorem c43_count_defect :
    doscan 32 (render [.conv true [] .none .d, .space [32], .count .none]) [53] =
      .ret 1 [] [.int 32 5, .count 32 2] ∧
    ¬ Run 32 true [.conv true [] .none .d, .space [32], .count .none] ⟨[53], 0, 0, []⟩
      (.ret 1 [] [.int 32 5, .count 32 2]) := by
  refine ⟨by decide +kernel, ?_⟩
  intro h
  -- the specified outcome is another one
  have hA : ∀ i : List Nat, (∀ c ∈ i.head?, ¬ Ctype.Spec.Space (c : Nat)) →
      Longest AllSpace none i [] := by
    intro i hi
    refine longest_of all_prefix (by simp) (by intro k h; cases h) (by simp [AllSpace]) ?_
    intro c hc _ hP
    obtain ⟨u, rfl⟩ := hc
    exact hi c (by simp) (hP c (by simp))
  have hL : Longest (Viable .d) none [53] [53] := by
    refine ⟨List.prefix_refl _, (by intro k h; cases h),
      ⟨[], 5, .pos (.d (by simp) (by intro c hc; exact ⟨5, by simp at hc; subst hc; decide, by omega⟩))⟩, ?_⟩
    intro p hp _ _
    exact hp.length_le
  have hS : Subject .d [53] ((5 : Nat) : Int) :=
    .pos (.d (by simp) (by intro c hc; exact ⟨5, by simp at hc; subst hc; decide, by omega⟩))
  have hgood : Run 32 true [.conv true [] .none .d, .space [32], .count .none] ⟨[53], 0, 0, []⟩
      (.ret 1 [] [.int 32 5, .count 32 1]) := by
    refine .conv (a := []) (hA _ (by simp [Ctype.Spec.Space])) (by simp)
      (.int (a := [53]) rfl hL hS) ?_
    refine .space (a := []) (hA _ (by simp [Sp.take, Sp.put])) ?_
    refine .count (v := 1) (fun _ => by simp [Sp.take, Sp.put, Mod.bits]) ?_
    exact .nil
  have := run_det h hgood
  simp at this

/-- `%%` does not skip white space, though the standard requires it of every conversion
specification except `%[`, `%c` and `%n`: `"%%"` on `" %"` reads nothing. -/
theorem c43_percent_defect :
    doscan 32 (render [.pct]) [32, 37] = .ret 0 [32, 37] [] ∧
    ¬ Run 32 true [.pct] ⟨[32, 37], 0, 0, []⟩ (.ret 0 [32, 37] []) := by
  refine ⟨by decide +kernel, ?_⟩
  intro h
  have hL : Longest AllSpace none [32, 37] [32] := by
    refine longest_of all_prefix ⟨[37], rfl⟩ (by intro k h; cases h)
      (by intro c hc; simp at hc; subst hc; exact Or.inl rfl) ?_
    intro c hc _ hP
    obtain ⟨u, hu⟩ := hc
    simp at hu
    have := hP c (by simp)
    rw [hu.1] at this
    simp [Ctype.Spec.Space] at this
  have hgood : Run 32 true [.pct] ⟨[32, 37], 0, 0, []⟩ (.ret 0 [] []) :=
    .pct (a := [32]) hL (.lit (r := []) rfl .nil)
  have := run_det h hgood
  simp at this

end Smlr.Scan
