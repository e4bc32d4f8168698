import Verif.Exit.Model
import Verif.Exit.Spec
set_option autoImplicit false
/-! C69: functions registered by `atexit`; C70: `strerror`. -/
namespace Smlr.Exit
open Spec

theorem register_ok (fs : List Fn) : ∀ s : St, s.fs.length ≤ 32 →
    (register s fs).1.fs = (fs.take (32 - s.fs.length)).reverse ++ s.fs ∧
    (register s fs).2 = (fs.take (32 - s.fs.length)).map (fun _ => 0) ++ (fs.drop (32 - s.fs.length)).map (fun _ => -1) ∧
    ((register s fs).1.iter = true ↔ s.iter = true ∨ (fs ≠ [] ∧ s.fs.length < 32)) := by
  induction fs with
  | nil => intro s _; simp [register]
  | cons f fs ih =>
    intro s hs
    unfold register atexit
    by_cases h : s.fs.length ≥ 32
    · rw [if_pos h]
      have hz : 32 - s.fs.length = 0 := by omega
      have := ih s hs
      rw [hz] at this
      simp only [this, hz, List.take_zero, List.reverse_nil, List.nil_append, List.map_nil, List.drop_zero, List.map_cons]
      refine ⟨trivial, trivial, ?_⟩
      have hlt : ¬ s.fs.length < 32 := by omega
      simp [hlt]
    · rw [if_neg h]
      have := ih { fs := f :: s.fs, iter := true } (by simp; omega)
      simp only [List.length_cons] at this
      obtain ⟨h1, h2, h3⟩ := this
      rw [show 32 - s.fs.length = (32 - (s.fs.length + 1)) + 1 by omega]
      refine ⟨?_, ?_, ?_⟩
      · simp only [h1, List.take_succ_cons, List.reverse_cons, List.append_assoc, List.singleton_append]
      · simp only [h2, List.take_succ_cons, List.drop_succ_cons, List.map_cons, List.cons_append]
      · simp only [h3, true_or, true_iff]
        exact Or.inr ⟨by simp, by omega⟩

theorem iterator_plain (fs : List Fn) : ∀ (k : Nat) (b : Bool), fs.length ≤ k → iterator (fun _ => []) k ⟨fs, b⟩ = some fs := by
  induction fs with
  | nil => intro k b _; cases k <;> simp [iterator]
  | cons f fs ih =>
    intro k b hk
    cases k with
    | zero => simp at hk
    | succ k =>
      simp only [iterator, register]
      rw [ih k b (by simpa using hk)]; rfl

/-- Of any number of registrations the first 32 succeed and the others fail; `exit` calls the former in the reverse order, each
as often as it was registered. -/
theorem c69_order (fs : List Fn) : ((register {} fs).2 = (fs.take 32).map (fun _ => 0) ++ (fs.drop 32).map (fun _ => -1)) ∧
    ∀ fuel, 32 ≤ fuel → exit (fun _ => []) fuel (register {} fs).1 = some (fs.take 32).reverse := by
  obtain ⟨h1, h2, h3⟩ := register_ok fs {} (by simp)
  refine ⟨h2, fun fuel hf => ?_⟩
  unfold exit exitInner
  have h1' : (register {} fs).1.fs = (fs.take 32).reverse := by simpa using h1
  by_cases hn : fs = []
  · subst hn; rfl
  · rw [h3.2 (Or.inr ⟨hn, by simp⟩)]
    rw [if_pos (by rfl)]
    have : (register {} fs).1 = ⟨(fs.take 32).reverse, (register {} fs).1.iter⟩ := by rw [← h1']
    rw [this]
    exact iterator_plain _ fuel _ (by rw [List.length_reverse, List.length_take]; omega)

theorem run_length {body : Fn → List Fn} {fs calls : List Fn} (h : Run body fs calls) : fs.length ≤ calls.length := by
  induction h with
  | nil => simp
  | cons f fs new rest _ _ _ ih => simp; omega

theorem iterator_run {body : Fn → List Fn} {fs calls : List Fn} (h : Run body fs calls) : ∀ (more after : List Fn) (k : Nat),
    (∀ b, iterator body k ⟨more, b⟩ = some after) → calls.length + more.length ≤ 32 →
    ∀ b, iterator body (k + calls.length) ⟨fs ++ more, b⟩ = some (calls ++ after) := by
  induction h with
  | nil => intro more after k hk _ b; simpa using hk b
  | cons f fs new rest hn hr ih1 ih2 =>
    intro more after k hk hl b
    simp only [List.length_cons, List.length_append] at hl
    have l1 := run_length hn
    have l2 := run_length hr
    rw [List.length_reverse] at l1
    have h2 := ih2 more after k hk (by omega)
    have h1 := ih1 (fs ++ more) (rest ++ after) (k + rest.length) h2 (by rw [List.length_append]; omega)
    rw [show k + (f :: (new ++ rest)).length = (k + rest.length + new.length) + 1 by simp; omega]
    simp only [List.cons_append, iterator]
    obtain ⟨g1, -, -⟩ := register_ok (body f) ⟨fs ++ more, b⟩ (by simp; omega)
    simp only at g1
    rw [List.take_of_length_le (by rw [List.length_append]; omega)] at g1
    have e : (register ⟨fs ++ more, b⟩ (body f)).1 = ⟨(body f).reverse ++ (fs ++ more), (register ⟨fs ++ more, b⟩ (body f)).1.iter⟩ := by
      rw [← g1]
    rw [e, h1]
    simp

/-- Functions that register functions while `exit` calls them: all are called, in the order asked for, as long as there are
no more than 32. -/
theorem c69_nested (body : Fn → List Fn) (fs calls : List Fn) (h : Run body fs.reverse calls) (hl : calls.length ≤ 32) (fuel : Nat)
    (hf : calls.length ≤ fuel) : exit body fuel (register {} fs).1 = some calls := by
  obtain ⟨h1, -, h3⟩ := register_ok fs {} (by simp)
  have hlen := run_length h
  rw [List.length_reverse] at hlen
  have h1' : (register {} fs).1.fs = fs.reverse := by
    rw [h1, List.take_of_length_le (by simp; omega)]; simp
  unfold exit exitInner
  by_cases hn : fs = []
  · subst hn; cases h; rfl
  · have e : (register {} fs).1 = ⟨fs.reverse, true⟩ := by rw [← h1', ← h3.2 (Or.inr ⟨hn, by simp⟩)]
    rw [e]
    have := iterator_run h [] [] (fuel - calls.length) (fun b => by cases fuel - calls.length <;> simp [iterator]) (by simpa using hl) true
    rw [show fuel - calls.length + calls.length = fuel by omega] at this
    simpa using this

/-- `_Exit` calls none of them -/
theorem c69_now (body : Fn → List Fn) (fuel : Nat) (fs : List Fn) : exitNow body fuel (register {} fs).1 = some [] := by
  simp [exitNow, exitInner]

theorem digit_char (d : Nat) (h : d < 10) : (UInt8.ofNat (0x30 + d)).toNat = 0x30 + d := by
  rw [UInt8.toNat_ofNat']; omega

theorem val_append (a : List UInt8) (c : UInt8) : val (a ++ [c]) = val a * 10 + (c.toNat - 0x30) := by
  unfold val; rw [List.foldl_append]; rfl

/-- digits of `e`, in front of what is there -/
theorem digits_ok (k : Nat) : ∀ (buf : Str) (e : Nat), e < 10 ^ k → 0 < k → buf.length + k ≤ 12 → ∀ j, k ≤ j →
    ∃ ds, digits j buf e = some (ds ++ buf) ∧ Decimal ds e ∧ ds.length ≤ k := by
  induction k with
  | zero => intro buf e _ h; omega
  | succ k ih =>
    intro buf e he _ hb j hj
    obtain ⟨j, rfl⟩ : ∃ i, j = i + 1 := ⟨j - 1, by omega⟩
    have hd := digit_char (e % 10) (by omega)
    rw [digits, if_neg (by omega)]
    simp only
    by_cases h0 : e / 10 = 0
    · rw [if_pos h0]
      refine ⟨[UInt8.ofNat (0x30 + e % 10)], rfl, ⟨by simp, ?_, by simp, ?_⟩, by simp⟩
      · intro c hc; simp only [List.mem_singleton] at hc; subst hc; rw [hd]; omega
      · unfold val; simp only [List.foldl_cons, List.foldl_nil]; rw [hd]; omega
    · rw [if_neg h0]
      have hk : 0 < k := by
        cases k with
        | zero => simp at he; omega
        | succ k => omega
      obtain ⟨ds, h1, h2, h3⟩ := ih (UInt8.ofNat (0x30 + e % 10) :: buf) (e / 10) (by rw [Nat.pow_succ] at he; omega) hk (by simp; omega) j (by omega)
      refine ⟨ds ++ [UInt8.ofNat (0x30 + e % 10)], by rw [h1]; simp, ⟨by simp, ?_, ?_, ?_⟩, by simp; omega⟩
      · intro c hc
        rcases List.mem_append.1 hc with x | x
        · exact h2.digit c x
        · simp only [List.mem_singleton] at x; subst x; rw [hd]; omega
      · intro _
        obtain ⟨c, r, hcr⟩ : ∃ c r, ds = c :: r := by
          cases hds : ds with
          | nil => exact absurd hds h2.ne
          | cons c r => exact ⟨c, r, rfl⟩
        subst hcr
        rw [List.cons_append, List.head?_cons]
        intro hc
        cases r with
        | nil =>
          have hv := h2.value
          cases hc
          unfold val at hv
          simp at hv
          omega
        | cons d r => exact h2.zero (by simp) hc
      · rw [val_append, h2.value, hd]; omega

/-- for every `int` the text is `Unknown error ` and the number in decimal, with its sign, ended by a 0; no buffer is overrun -/
theorem c70_strerror (w : Nat) (hw : w = 16 ∨ w = 32) (n : Int) (h1 : -2 ^ (w - 1) ≤ n) (h2 : n < 2 ^ (w - 1)) : ∃ ds, Decimal ds n.natAbs ∧
    strerror w n = some (bytes "Unknown error " ++ ((if n < 0 then [0x2D] else []) ++ ds ++ [0])) := by
  rw [show bytes "Unknown error " = unknown by decide]
  have he : (if n < 0 then ((-(n % 2 ^ w)) % 2 ^ w).toNat else n.toNat) = n.natAbs := by
    rcases hw with rfl | rfl <;> simp at h1 h2 <;> split <;> omega
  have hr : n.natAbs < 10 ^ 10 := by rcases hw with rfl | rfl <;> simp at h1 h2 <;> omega
  obtain ⟨ds, d1, d2, d3⟩ := digits_ok 10 [0] n.natAbs hr (by omega) (by simp) 13 (by omega)
  refine ⟨ds, d2, ?_⟩
  unfold strerror
  simp only [he, d1]
  by_cases hn : n < 0
  · rw [if_pos hn, if_neg (by simp; omega)]
    simp only
    rw [if_pos (by simp [unknown]; omega)]
    simp [hn]
  · rw [if_neg hn]
    simp only
    rw [if_pos (by simp [unknown]; omega)]
    simp [hn]

/-! ### examples -/

example : register {} [3, 5, 3] = (⟨[3, 5, 3], true⟩, [0, 0, 0]) ∧ exit (fun _ => []) 32 (register {} [7, 5, 3]).1 = some [3, 5, 7] := by decide +kernel

/-- 3 registers 8 and 9 while it runs -/
example : exit (fun f => if f = 3 then [8, 9] else []) 40 (register {} [5, 3]).1 = some [3, 9, 8, 5] := by decide +kernel

/-- its hypotheses hold for these -/
example : Run (fun f => if f = 3 then [8, 9] else []) [5, 3].reverse [3, 9, 8, 5] :=
  .cons 3 [5] [9, 8] [5] (.cons 9 [8] [] [8] .nil (.cons 8 [] [] [] .nil .nil)) (.cons 5 [] [] [] .nil .nil)

/-- of 40 registrations 8 fail -/
example : ((register {} (List.range 40)).2.filter (· = -1)).length = 8 := by decide +kernel

/-- `Unknown error -2147483648` -/
example : strerror 32 (-2 ^ 31) = some (bytes "Unknown error -2147483648" ++ [0]) := by decide +kernel

end Smlr.Exit
