import Verif.Scan.Sign

set_option autoImplicit false
/-
White space, words, scan sets, and the text of the format.
-/
namespace Smlr.Scan

open Smlr.Ctype Spec
open Smlr.Ctype.Spec (Space Digit)

theorem isspace_iff {c : Nat} (h : c < 256) : isspace (c : Int) ≠ 0 ↔ Space (c : Int) :=
  (c40_classes c (by omega) (by omega)).1

theorem isdigit_iff {c : Nat} (h : c < 256) : isdigit (c : Int) ≠ 0 ↔ Digit (c : Int) :=
  (c40_classes c (by omega) (by omega)).2.1

theorem digit_lt {c : Nat} (h : Digit (c : Int)) : c < 256 := by
  have := h.2; omega

theorem space_lt {c : Nat} (h : Space (c : Int)) : c < 256 := by
  rcases h with h | ⟨_, h⟩ <;> omega

/-! ### Longest prefixes -/

theorem longest_of {P : List Nat → Prop} {w : Option Nat} {inp a : List Nat}
    (hP : ∀ p q, q <+: p → P p → P q) (h1 : a <+: inp) (h2 : Fits w a.length) (h3 : P a)
    (h4 : ∀ c, a ++ [c] <+: inp → Fits w (a.length + 1) → ¬ P (a ++ [c])) :
    Longest P w inp a := by
  refine ⟨h1, h2, h3, fun p hp hf hPp => ?_⟩
  by_cases hl : p.length ≤ a.length
  · exact hl
  · exfalso
    have hap : a <+: p := List.prefix_of_prefix_length_le h1 hp (by omega)
    obtain ⟨t, rfl⟩ := hap
    match t with
    | [] => simp at hl
    | c :: t =>
      have hq : a ++ [c] <+: a ++ c :: t := ⟨t, by simp⟩
      refine h4 c (hq.trans hp) ?_ (hP _ _ hq hPp)
      intro k hk
      have := hf k hk
      simp only [List.length_append, List.length_cons] at this
      omega

theorem longest_unique {P : List Nat → Prop} {w : Option Nat} {inp a b : List Nat}
    (ha : Longest P w inp a) (hb : Longest P w inp b) : a = b := by
  have h1 := ha.2.2.2 b hb.1 hb.2.1 hb.2.2.1
  have h2 := hb.2.2.2 a ha.1 ha.2.1 ha.2.2.1
  obtain ⟨t, ht⟩ := List.prefix_of_prefix_length_le ha.1 hb.1 h2
  have : t = [] := by
    have := congrArg List.length ht
    simp only [List.length_append] at this
    exact List.length_eq_zero_iff.1 (by omega)
  rw [← ht, this, List.append_nil]

theorem all_prefix {Q : Nat → Prop} : ∀ p q : List Nat, q <+: p → (∀ c ∈ p, Q c) → ∀ c ∈ q, Q c :=
  fun _ _ h hp c hc => hp c (h.subset hc)

/-- White space skipped. -/
theorem skip_split : ∀ inp : List Nat, (∀ c ∈ inp, c < 256) →
    ∃ a, inp = a ++ skipSpace inp ∧ AllSpace a ∧
      ∀ c r, skipSpace inp = c :: r → ¬ Space (c : Int)
  | [], _ => ⟨[], rfl, by simp [AllSpace], by simp [skipSpace]⟩
  | c :: t, hb => by
    have hc : c < 256 := hb c (by simp)
    unfold skipSpace
    by_cases h : isspace (c : Int) ≠ 0
    · rw [if_pos h]
      obtain ⟨a, h1, h2, h3⟩ := skip_split t (fun x hx => hb x (by simp [hx]))
      refine ⟨c :: a, ?_, ?_, h3⟩
      · rw [List.cons_append, ← h1]
      · intro x hx
        rcases List.mem_cons.1 hx with rfl | hx
        · exact (isspace_iff hc).1 h
        · exact h2 x hx
    · rw [if_neg h]
      refine ⟨[], rfl, by simp [AllSpace], ?_⟩
      intro x r he
      simp only [List.cons.injEq] at he
      rw [← he.1]
      exact fun hs => h ((isspace_iff hc).2 hs)

theorem skip_longest (inp : List Nat) (hb : ∀ c ∈ inp, c < 256) :
    ∃ a, Longest AllSpace none inp a ∧ skipSpace inp = inp.drop a.length ∧
      inp.length - (skipSpace inp).length = a.length := by
  obtain ⟨a, h1, h2, h3⟩ := skip_split inp hb
  have e : inp.drop a.length = skipSpace inp := by
    conv => lhs; rw [h1]
    simp
  refine ⟨a, longest_of all_prefix ⟨_, h1.symm⟩ (by intro k h; cases h) h2 ?_, e.symm, ?_⟩
  · intro c hc _ hP
    obtain ⟨u, hu⟩ := hc
    rw [h1, List.append_assoc] at hu
    have hu' := List.append_cancel_left hu
    exact h3 c u (by simpa using hu'.symm) (hP c (by simp))
  · have := congrArg List.length h1
    simp only [List.length_append] at this
    omega

/-! ### Runs of characters -/

theorem takeWord_split : ∀ (w : Nat) (inp : List Nat), (∀ c ∈ inp, c < 256) →
    inp = (takeWord w inp).1 ++ (takeWord w inp).2 ∧ (takeWord w inp).1.length ≤ w ∧
    NoSpace (takeWord w inp).1 ∧
    ∀ c r, (takeWord w inp).2 = c :: r → (takeWord w inp).1.length < w → Space (c : Int)
  | 0, inp, _ => by simp [takeWord, NoSpace]
  | w + 1, [], _ => by simp [takeWord, NoSpace]
  | w + 1, c :: t, hb => by
    have hc : c < 256 := hb c (by simp)
    unfold takeWord
    by_cases h : isspace (c : Int) ≠ 0
    · rw [if_pos h]
      refine ⟨rfl, by simp, by simp [NoSpace], ?_⟩
      intro x r he _
      simp only [List.cons.injEq] at he
      rw [← he.1]; exact (isspace_iff hc).1 h
    · rw [if_neg h]
      obtain ⟨h1, h2, h3, h4⟩ := takeWord_split w t (fun x hx => hb x (by simp [hx]))
      refine ⟨?_, ?_, ?_, ?_⟩
      · simp only [List.cons_append]; rw [← h1]
      · simpa using h2
      · intro x hx
        rcases List.mem_cons.1 hx with rfl | hx
        · exact fun hs => h ((isspace_iff hc).2 hs)
        · exact h3 x hx
      · intro x r he hl
        exact h4 x r he (by simpa using hl)

theorem takeSet_split (set : List Nat) (ex : Bool) : ∀ (w : Nat) (inp : List Nat),
    inp = (takeSet set ex w inp).1 ++ (takeSet set ex w inp).2 ∧ (takeSet set ex w inp).1.length ≤ w ∧
    (∀ c ∈ (takeSet set ex w inp).1, inSet set c ≠ ex) ∧
    ∀ c r, (takeSet set ex w inp).2 = c :: r → (takeSet set ex w inp).1.length < w → inSet set c = ex
  | 0, inp => by simp [takeSet]
  | w + 1, [] => by simp [takeSet]
  | w + 1, c :: t => by
    unfold takeSet
    by_cases h : inSet set c = ex
    · rw [if_pos h]
      refine ⟨rfl, by simp, by simp, ?_⟩
      intro x r he _
      simp only [List.cons.injEq] at he
      rw [← he.1]; exact h
    · rw [if_neg h]
      obtain ⟨h1, h2, h3, h4⟩ := takeSet_split set ex w t
      refine ⟨?_, ?_, ?_, ?_⟩
      · simp only [List.cons_append]; rw [← h1]
      · simpa using h2
      · intro x hx
        rcases List.mem_cons.1 hx with rfl | hx
        · exact h
        · exact h3 x hx
      · intro x r he hl
        exact h4 x r he (by simpa using hl)

/-! ### Scan sets -/

theorem and7 (c : Nat) : c &&& 7 = c % 8 := by
  have := Nat.and_two_pow_sub_one_eq_mod c 3
  simpa using this

theorem inSet_bit (set : List Nat) (c : Nat) :
    inSet set c = (set.getD (c / 8) 0).testBit (c % 8) := by
  unfold inSet
  rw [Nat.shiftRight_eq_div_pow, and7, Nat.one_shiftLeft]
  show ((set.getD (c / 8) 0 &&& 2 ^ (c % 8)) != 0) = _
  generalize set.getD (c / 8) 0 = a
  generalize c % 8 = i
  cases h : a.testBit i with
  | true =>
    have : (a &&& 2 ^ i).testBit i = true := by rw [Nat.testBit_and, h, Nat.testBit_two_pow]; simp
    have : a &&& 2 ^ i ≠ 0 := by
      intro h0; rw [h0, Nat.zero_testBit] at this; cases this
    simpa using this
  | false =>
    have : a &&& 2 ^ i = 0 := by
      apply Nat.eq_of_testBit_eq
      intro j
      rw [Nat.testBit_and, Nat.testBit_two_pow, Nat.zero_testBit]
      by_cases hj : i = j
      · subst hj; rw [h]; simp
      · simp [hj]
    simp [this]

theorem setAdd_get (set : List Nat) (c : Nat) (hs : set.length = 32) (hc : c < 256) (x : Nat) :
    inSet (setAdd set c) x = (inSet set x || decide (x = c)) := by
  rw [inSet_bit, inSet_bit]
  unfold setAdd
  rw [Nat.shiftRight_eq_div_pow, and7, Nat.one_shiftLeft]
  show ((set.set (c / 8) _).getD (x / 8) 0).testBit (x % 8) = _
  have hlt : c / 8 < set.length := by omega
  rw [List.getD_eq_getElem?_getD, List.getElem?_set]
  by_cases h : c / 8 = x / 8
  · rw [if_pos h, if_pos hlt]
    simp only [Option.getD_some]
    rw [Nat.testBit_or, Nat.testBit_two_pow]
    show ((set.getD (c / 8) 0).testBit (x % 8) || _) = _
    rw [h]
    congr 1
    apply decide_eq_decide.2
    omega
  · rw [if_neg h]
    rw [← List.getD_eq_getElem?_getD]
    have : ¬ x = c := fun e => h (by rw [e])
    simp [this]

theorem setAdd_length (set : List Nat) (c : Nat) : (setAdd set c).length = set.length := by
  simp [setAdd]

/-- Reading the set out of the format gives exactly its characters. -/
theorem readSet_ok : ∀ (cs : List Nat) (idx : Nat) (set rest : List Nat),
    (∀ c ∈ cs, c < 256) → (idx = 0 → cs ≠ []) → 93 ∉ (if idx = 0 then cs.tail else cs) →
    set.length = 32 →
    ∃ set', readSet (cs ++ 93 :: rest) idx set = some (set', rest) ∧
      ∀ x, inSet set' x = (inSet set x || decide (x ∈ cs))
  | [], idx, set, rest, _, h0, _, hs => by
    have : idx ≠ 0 := fun h => h0 h rfl
    refine ⟨set, ?_, by simp⟩
    simp [readSet, this]
  | c :: cs, idx, set, rest, hb, h0, h93, hs => by
    have hc : c < 256 := hb c (by simp)
    have hn : ¬ (c = 93 ∧ idx ≠ 0) := by
      rintro ⟨rfl, h⟩
      rw [if_neg h] at h93; simp at h93
    obtain ⟨set', h1, h2⟩ := readSet_ok cs (idx + 1) (setAdd set c) rest
      (fun x hx => hb x (by simp [hx])) (by omega)
      (by
        rw [if_neg (by omega)]
        by_cases hi : idx = 0
        · rw [if_pos hi] at h93; simpa using h93
        · rw [if_neg hi] at h93; simp at h93; exact h93.2)
      (by rw [setAdd_length]; exact hs)
    refine ⟨set', ?_, ?_⟩
    · rw [List.cons_append, readSet, if_neg hn, h1]
    · intro x
      rw [h2, setAdd_get set c hs hc]
      cases inSet set x <;> by_cases h : x = c <;> by_cases h' : x ∈ cs <;> simp [h, h']

theorem inSet_empty (x : Nat) : inSet (List.replicate 32 0) x = false := by
  rw [inSet_bit, List.getD_eq_getElem?_getD, List.getElem?_replicate]
  by_cases h : x / 8 < 32
  · rw [if_pos h]; simp
  · rw [if_neg h]; simp

/-! ### The field width -/

theorem decVal_le : ∀ (ds : List Nat) (acc : Nat),
    acc ≤ ds.foldl (fun a c => a * 10 + (c - 48)) acc
  | [], acc => Nat.le_refl _
  | c :: ds, acc => by
    simp only [List.foldl_cons]
    exact Nat.le_trans (by omega) (decVal_le ds _)

theorem widthLoop_ok (W : Nat) (ds : List Nat) : ∀ (acc c c' : Nat) (f : List Nat),
    (∀ x ∈ ds, Digit (x : Int)) → isdigit (c' : Int) = 0 →
    ds.foldl (fun a c => a * 10 + (c - 48)) (acc * 10 + (c - 48)) ≠ 0 →
    ds.foldl (fun a c => a * 10 + (c - 48)) (acc * 10 + (c - 48)) < 2 ^ (W - 1) →
    widthLoop W acc c (ds ++ c' :: f) =
      .ok (some (ds.foldl (fun a c => a * 10 + (c - 48)) (acc * 10 + (c - 48)))) c' f := by
  induction ds with
  | nil =>
    intro acc c c' f _ hc' h0 hw
    simp only [List.foldl_nil] at h0 hw ⊢
    rw [List.nil_append, widthLoop]
    simp only [hc', ne_eq, not_true_eq_false, if_false]
    rw [if_neg (Nat.not_le.2 hw), if_neg h0]
  | cons d ds ih =>
    intro acc c c' f hd hc' h0 hw
    simp only [List.foldl_cons] at h0 hw ⊢
    have hle := decVal_le ds ((acc * 10 + (c - 48)) * 10 + (d - 48))
    have hdd : Digit (d : Int) := hd d (by simp)
    rw [List.cons_append, widthLoop]
    have : isdigit (d : Int) ≠ 0 := (isdigit_iff (digit_lt hdd)).2 hdd
    have hlt : acc * 10 + (c - 48) < 2 ^ (W - 1) :=
      Nat.lt_of_le_of_lt (Nat.le_trans (by omega) hle) hw
    rw [if_neg (Nat.not_le.2 hlt), if_pos this]
    exact ih _ d c' f (fun x hx => hd x (by simp [hx])) hc' h0 hw

/-- The field width of a well-formed specification is read. -/
theorem width_ok (W : Nat) (width : List Nat) (c' : Nat) (f : List Nat)
    (hw : width ≠ [] → (∀ c ∈ width, Digit (c : Nat)) ∧ 0 < decVal width ∧ decVal width < 2 ^ (W - 1))
    (hc' : isdigit (c' : Int) = 0) :
    ∃ c g, width ++ c' :: f = c :: g ∧
      (width = [] → c = c') ∧ (width ≠ [] → Digit (c : Int)) ∧
      (if isdigit (c : Int) ≠ 0 then widthLoop W 0 c g else .ok none c g) = .ok (widthOf width) c' f := by
  match width with
  | [] =>
    refine ⟨c', f, rfl, fun _ => rfl, by simp, ?_⟩
    rw [if_neg (by simp [hc'])]
    simp [widthOf]
  | d :: ds =>
    obtain ⟨h1, h2, h3⟩ := hw (by simp)
    have hdd : Digit (d : Int) := h1 d (by simp)
    refine ⟨d, ds ++ c' :: f, rfl, by simp, fun _ => hdd, ?_⟩
    rw [if_pos ((isdigit_iff (digit_lt hdd)).2 hdd)]
    have e : decVal (d :: ds) = ds.foldl (fun a c => a * 10 + (c - 48)) (0 * 10 + (d - 48)) := rfl
    rw [e] at h2 h3
    rw [widthLoop_ok W ds 0 d c' f (fun x hx => h1 x (by simp [hx])) hc' (by omega) h3]
    simp [widthOf, e]

/-! ### The rest of the specification -/

/-- The conversion character passed to `convert`. -/
def ccode : Conv → Nat
  | .d => 100 | .u => 117 | .i => 105 | .o => 111 | .x => 120 | .X => 120
  | .p => 112 | .c => 99 | .s => 115 | .set _ _ => 91

/-- What follows the conversion character. -/
def crest : Conv → List Nat
  | .set neg cs => (if neg then [94] else []) ++ cs ++ [93]
  | _ => []

def mcode : Mod → Nat
  | .none => 0 | .hh => 72 | .h => 104 | .l => 108 | .L => 76 | .j => 106 | .z => 122 | .t => 116

theorem specTail_conv (W : Nat) (assign : Bool) (width : Option Nat) (m : Mod) (k : Conv)
    (hm : m.ok W) (rest : List Nat) (s : St) :
    ∃ c f, m.text ++ (k.text ++ rest) = c :: f ∧ isdigit (c : Int) = 0 ∧ c ≠ 42 ∧ c ≠ 37 ∧
      specTail W assign width c f s =
        convert W assign width (mcode m) (ccode k) (crest k ++ rest) s := by
  have d : ∀ c : Nat, c ∈ [104, 108, 76, 106, 122, 116, 100, 117, 105, 111, 120, 88, 112, 99, 115, 91] →
      isdigit (c : Int) = 0 ∧ c ≠ 42 ∧ c ≠ 37 := by decide +kernel
  cases m <;> cases k <;>
    (refine ⟨_, _, rfl, (d _ (by decide)).1, (d _ (by decide)).2.1, (d _ (by decide)).2.2, ?_⟩
     simp only [Mod.ok] at hm
     simp [specTail, lmod, ccode, crest, mcode, hm, Conv.text, Mod.text])

theorem specTail_count (W : Nat) (assign : Bool) (width : Option Nat) (m : Mod)
    (hm : m.ok W) (rest : List Nat) (s : St) :
    ∃ c f, m.text ++ 110 :: rest = c :: f ∧ isdigit (c : Int) = 0 ∧ c ≠ 42 ∧ c ≠ 37 ∧
      specTail W assign width c f s = .inl (countStore W (mcode m) s, rest) := by
  have d : ∀ c : Nat, c ∈ [104, 108, 76, 106, 122, 116, 110] →
      isdigit (c : Int) = 0 ∧ c ≠ 42 ∧ c ≠ 37 := by decide +kernel
  cases m <;>
    (refine ⟨_, _, rfl, (d _ (by decide)).1, (d _ (by decide)).2.1, (d _ (by decide)).2.2, ?_⟩
     simp only [Mod.ok] at hm
     simp [specTail, lmod, mcode, hm])

theorem spec_conv (W : Nat) (assign : Bool) (width : List Nat) (m : Mod) (k : Conv)
    (hok : (Dir.conv assign width m k).ok W) (rest : List Nat) (s : St) :
    spec W ((if assign then [] else [42]) ++ width ++ m.text ++ k.text ++ rest) s =
      convert W assign (widthOf width) (mcode m) (ccode k) (crest k ++ rest) s ∧
    ((if assign then [] else [42]) ++ width ++ m.text ++ k.text ++ rest).head? ≠ some 37 := by
  obtain ⟨hw, hm, _⟩ := hok
  obtain ⟨c', f', he, hd, h42, h37, ht⟩ := specTail_conv W assign (widthOf width) m k hm rest s
  obtain ⟨c, g, he2, hc1, hc2, hwd⟩ := width_ok W width c' f' hw hd
  have hc42 : c ≠ 42 ∧ c ≠ 37 := by
    by_cases hwn : width = []
    · rw [hc1 hwn]; exact ⟨h42, h37⟩
    · have := hc2 hwn
      have h := this.1
      omega
  have e : (if assign then [] else [42]) ++ width ++ m.text ++ k.text ++ rest =
      (if assign then [] else [42]) ++ c :: g := by
    rw [← he2, ← he]
    simp only [List.append_assoc]
  rw [e]
  cases assign with
  | true =>
    refine ⟨?_, by simp [hc42.2]⟩
    simp only [if_true, List.nil_append, spec]
    rw [if_neg hc42.1]
    simp only
    rw [hwd]
    exact ht
  | false =>
    refine ⟨?_, by simp⟩
    simp only [Bool.false_eq_true, if_false, List.cons_append, List.nil_append, spec, if_true]
    rw [hwd]
    exact ht

theorem spec_count (W : Nat) (m : Mod) (hm : m.ok W) (rest : List Nat) (s : St) :
    spec W (m.text ++ [110] ++ rest) s = .inl (countStore W (mcode m) s, rest) ∧
    (m.text ++ [110] ++ rest).head? ≠ some 37 := by
  obtain ⟨c, f, he, hd, h42, h37, ht⟩ := specTail_count W true none m hm rest s
  have e : m.text ++ [110] ++ rest = c :: f := by rw [← he]; simp
  rw [e]
  refine ⟨?_, by simp [h37]⟩
  simp only [spec]
  rw [if_neg h42]
  simp only
  rw [if_neg (by simp [hd])]
  exact ht

end Smlr.Scan
