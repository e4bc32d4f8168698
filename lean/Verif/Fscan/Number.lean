import Verif.Fscan.Lemmas
set_option autoImplicit false
namespace Smlr.Fscan
open Smlr.Number
open Smlr.Strtof

/-! ### the parts of a number -/

/-- zeros and the digits after them -/
theorem zeros_split (s : Str) (hs : AllDigits s) : ∃ z s', s = List.replicate z 0x30 ++ s' ∧ s'.head? ≠ some 0x30 ∧ AllDigits s' ∧ s'.map digitVal = significant s := by
  induction s with
  | nil => exact ⟨0, [], rfl, by simp, hs, rfl⟩
  | cons c s ih =>
    have hc := (isDigit_iff c).2 (hs c (by simp))
    by_cases h : c = 0x30
    · obtain ⟨z, s', h1, h2, h3, h4⟩ := ih fun x hx => hs x (by simp [hx])
      refine ⟨z + 1, s', by rw [List.replicate_succ, List.cons_append, ← h1, h], h2, h3, ?_⟩
      rw [h4]
      unfold significant
      rw [List.map_cons, List.dropWhile_cons_of_pos (by simpa using (digit_zero hc).2 h)]
    · refine ⟨0, c :: s, rfl, by simpa using h, hs, ?_⟩
      unfold significant
      rw [List.map_cons, List.dropWhile_cons_of_neg]
      simpa using fun h0 => h ((digit_zero hc).1 h0)

/-- the character at hand, if any, is not a digit -/
def Stops (t : Str) (w : Nat) : Prop := ∀ c, (if 0 < w then t.head? else none) = some c → isDigit c = false

theorem stops_zero {t : Str} {w : Nat} (h : Stops t w) : (if 0 < w then t.head? else none) ≠ some 0x30 := by
  intro hc
  have := h _ hc
  revert this; decide

theorem look_append {s t : Str} {w : Nat} (hne : s ≠ []) : (if 0 < w then (s ++ t).head? else none) = some 0x30 → s.head? = some 0x30 := by
  intro h
  cases s with
  | nil => exact absurd rfl hne
  | cons c s =>
    split at h
    · simpa using h
    · cases h

/-- what is known of the integral part -/
def gotInt (ip : Str) : Nat := if ip = [] then 0 else if significant ip = [] then 1 else 2

theorem int_phase (ip T : Str) (neg : Bool) (w ch : Nat) (hip : AllDigits ip) (hw : ip.length ≤ w) (hT : Stops T (w - ip.length)) :
    Reach (ip.length + 1) ⟨{ st := .leading, neg := neg }, ip ++ T, w, ch⟩
      ⟨{ st := .int, neg := neg, gotint := gotInt ip, ds := (significant ip).take maxDigits, m := (((significant ip).length - maxDigits : Nat) : Int) },
        T, w - ip.length, ch + ip.length⟩ := by
  obtain ⟨z, s', h1, h2, h3, h4⟩ := zeros_split ip hip
  have hlen : ip.length = z + s'.length := by rw [h1]; simp
  have hsl : (significant ip).length = s'.length := by rw [← h4, List.length_map]
  have a := lead_zeros z { st := .leading, neg := neg } (s' ++ T) w ch rfl (by omega)
  have b := lead_int { st := .leading, neg := neg, gotint := if z = 0 then 0 else 1 } (s' ++ T) (w - z) (ch + z) rfl (by
    intro hc
    by_cases hs : s' = []
    · subst hs
      refine stops_zero (w := w - z) (t := T) ?_ hc
      rw [hlen] at hT
      exact hT
    · exact h2 (look_append hs hc))
  have c := int_digits s' h3 { st := .int, neg := neg, gotint := if z = 0 then 0 else 1 } T (w - z) (ch + z) rfl (by omega)
  have := (a.trans b (Nat.le_refl _)).trans c (Nat.le_refl _)
  rw [← List.append_assoc, ← h1] at this
  have hsi := scanInt_ok s' [] h3 (by intro c hc; cases hc) [] 0 (by simp)
  rw [List.append_nil] at hsi
  simp only [hsi, List.nil_append, List.length_nil, Nat.zero_add, Int.zero_add] at this
  rw [show w - z - s'.length = w - ip.length by omega, show ch + z + s'.length = ch + ip.length by omega, h4, ← hsl] at this
  have hg : gotInt ip = if s' = [] then (if z = 0 then 0 else 1) else 2 := by
    unfold gotInt
    have e1 : significant ip = [] ↔ s' = [] := by rw [← h4, List.map_eq_nil_iff]
    have e2 : ip = [] ↔ z = 0 ∧ s' = [] := by
      rw [← List.length_eq_zero_iff, hlen, ← List.length_eq_zero_iff]; omega
    by_cases hs : s' = []
    · by_cases hz : z = 0
      · rw [if_pos (e2.2 ⟨hz, hs⟩), if_pos hs, if_pos hz]
      · rw [if_neg (by rw [e2]; tauto), if_pos (e1.2 hs), if_pos hs, if_neg hz]
    · rw [if_neg (by rw [e2]; tauto), if_neg (by rw [e1]; exact hs), if_neg hs]
  rw [hg]
  obtain ⟨n, hn, H⟩ := this
  exact ⟨n, by omega, H⟩

theorem gotInt_two (ip : Str) : gotInt ip = 2 ↔ significant ip ≠ [] := by
  unfold gotInt
  by_cases h : ip = []
  · subst h; simp [significant]
  · rw [if_neg h]
    by_cases h2 : significant ip = []
    · simp [h2]
    · simp [h2]

/-- after the mantissa -/
structure Mant (ip fp : Str) (dot neg : Bool) (q : Q) : Prop where
  st : q.st = if dot then .frct else .int
  got : (q.gotint ≠ 0 ∨ q.gotfrct ≠ 0) ↔ (ip ≠ [] ∨ fp ≠ [])
  int : dot = false → (q.gotint ≠ 0 ↔ ip ≠ [])
  hneg : q.neg = neg
  word : q.word = none
  eneg : q.eneg = false
  eexp : q.eexp = 0
  ds : q.ds = kept ip fp
  m : q.m = keptExp ip fp

theorem gotInt_zero (ip : Str) : gotInt ip ≠ 0 ↔ ip ≠ [] := by
  unfold gotInt
  by_cases h : ip = []
  · simp [h]
  · rw [if_neg h]
    by_cases h2 : significant ip = [] <;> simp [h, h2]

theorem mant_phase (ip fp T : Str) (dot neg : Bool) (w ch : Nat) (hip : AllDigits ip) (hfp : AllDigits fp) (hnd : dot = false → fp = [])
    (hw : (ip ++ fracText dot fp).length ≤ w) (hT : Stops T (w - (ip ++ fracText dot fp).length)) :
    ∃ q, Mant ip fp dot neg q ∧ Reach ((ip ++ fracText dot fp).length + 2) ⟨{ st := .leading, neg := neg }, ip ++ (fracText dot fp ++ T), w, ch⟩
      ⟨q, T, w - (ip ++ fracText dot fp).length, ch + (ip ++ fracText dot fp).length⟩ := by
  cases dot with
  | false =>
    have hf := hnd rfl
    subst hf
    simp only [fracText, Bool.false_eq_true, if_false, List.append_nil, List.nil_append] at hw hT ⊢
    have a := int_phase ip T neg w ch hip hw hT
    refine ⟨_, ?_, a.mono (by omega)⟩
    refine ⟨rfl, ?_, ?_, rfl, rfl, rfl, rfl, ?_, ?_⟩
    · simp [gotInt_zero]
    · intro _; exact gotInt_zero ip
    · unfold kept; rw [List.append_nil]
    · unfold keptExp; simp
  | true =>
    simp only [fracText, if_true, List.length_append, List.length_cons] at hw hT ⊢
    have a := int_phase ip (0x2E :: (fp ++ T)) neg w ch hip (by omega) (by
      intro c hc
      split at hc
      · cases hc; rfl
      · cases hc)
    by_cases hsi : significant ip = []
    · have b : Reach 1 ⟨{ st := .int, neg := neg, gotint := gotInt ip, ds := (significant ip).take maxDigits, m := (((significant ip).length - maxDigits : Nat) : Int) }, 0x2E :: (fp ++ T), w - ip.length, ch + ip.length⟩
          ⟨{ st := .frctLeading, neg := neg, gotint := gotInt ip, ds := (significant ip).take maxDigits, m := (((significant ip).length - maxDigits : Nat) : Int) }, fp ++ T, w - ip.length - 1, ch + ip.length + 1⟩ := by
        apply reach_eat (by omega)
        unfold Fscan.trans
        simp only
        rw [if_neg (by decide), if_pos trivial, if_neg (by rw [gotInt_two]; simpa using hsi)]
      obtain ⟨z, s', h1, h2, h3, h4⟩ := zeros_split fp hfp
      have hlen : fp.length = z + s'.length := by rw [h1]; simp
      have c := frct_zeros z { st := .frctLeading, neg := neg, gotint := gotInt ip, ds := (significant ip).take maxDigits, m := (((significant ip).length - maxDigits : Nat) : Int) }
        (s' ++ T) (w - ip.length - 1) (ch + ip.length + 1) rfl (by omega)
      have d := frct_int { st := .frctLeading, neg := neg, gotint := gotInt ip, ds := (significant ip).take maxDigits, gotfrct := if z = 0 then 0 else 1, m := (((significant ip).length - maxDigits : Nat) : Int) - z }
        (s' ++ T) (w - ip.length - 1 - z) (ch + ip.length + 1 + z) rfl (by
          intro hc
          by_cases hs : s' = []
          · subst hs
            refine stops_zero (w := w - ip.length - 1 - z) (t := T) ?_ hc
            rw [show w - ip.length - 1 - z = w - (ip.length + (fp.length + 1)) by simp at hlen; omega]
            exact hT
          · exact h2 (look_append hs hc))
      have e := frct_digits s' h3 { st := .frct, neg := neg, gotint := gotInt ip, ds := (significant ip).take maxDigits, gotfrct := if z = 0 then 0 else 1, m := (((significant ip).length - maxDigits : Nat) : Int) - z }
        T (w - ip.length - 1 - z) (ch + ip.length + 1 + z) rfl (by omega)
      have := (((a.trans b (Nat.le_refl _)).trans (by rw [h1, List.append_assoc]; exact c) (Nat.le_refl _)).trans d (Nat.le_refl _)).trans e (Nat.le_refl _)
      have hsf := scanFrac_ok s' [] h3 (by intro c hc; cases hc) ((significant ip).take maxDigits) ((((significant ip).length - maxDigits : Nat) : Int) - z) (by rw [List.length_take]; omega)
      rw [List.append_nil] at hsf
      simp only [hsf] at this
      rw [show w - ip.length - 1 - z - s'.length = w - (ip.length + (fp.length + 1)) by omega,
        show ch + ip.length + 1 + z + s'.length = ch + (ip.length + (fp.length + 1)) by omega] at this
      refine ⟨_, ?_, this.mono (by omega)⟩
      refine ⟨rfl, ?_, by simp, rfl, rfl, rfl, rfl, ?_, ?_⟩
      · have e2 : fp = [] ↔ z = 0 ∧ s' = [] := by
          rw [← List.length_eq_zero_iff, hlen, ← List.length_eq_zero_iff]; omega
        show (gotInt ip ≠ 0 ∨ (if s' = [] then (if z = 0 then 0 else 1) else 2) ≠ 0) ↔ _
        rw [gotInt_zero, ne_eq (a := fp), e2]
        by_cases hs : s' = [] <;> by_cases hz : z = 0 <;> simp [hs, hz]
      · show ((significant ip).take maxDigits ++ s'.map digitVal).take maxDigits = _
        unfold kept
        rw [h4, hsi]
        unfold significant
        rw [List.map_append, dropWhile_append_map]
        unfold significant at hsi
        rw [if_pos hsi]; rfl
      · show (((significant ip).length - maxDigits : Nat) : Int) - z - s'.length = _
        unfold keptExp
        omega
    · have b : Reach 1 ⟨{ st := .int, neg := neg, gotint := gotInt ip, ds := (significant ip).take maxDigits, m := (((significant ip).length - maxDigits : Nat) : Int) }, 0x2E :: (fp ++ T), w - ip.length, ch + ip.length⟩
          ⟨{ st := .frct, neg := neg, gotint := gotInt ip, ds := (significant ip).take maxDigits, m := (((significant ip).length - maxDigits : Nat) : Int) }, fp ++ T, w - ip.length - 1, ch + ip.length + 1⟩ := by
        apply reach_eat (by omega)
        unfold Fscan.trans
        simp only
        rw [if_neg (by decide), if_pos trivial, if_pos (by rw [gotInt_two]; simpa using hsi)]
      have e := frct_digits fp hfp { st := .frct, neg := neg, gotint := gotInt ip, ds := (significant ip).take maxDigits, m := (((significant ip).length - maxDigits : Nat) : Int) }
        T (w - ip.length - 1) (ch + ip.length + 1) rfl (by omega)
      have := (a.trans b (Nat.le_refl _)).trans e (Nat.le_refl _)
      have hsf := scanFrac_ok fp [] hfp (by intro c hc; cases hc) ((significant ip).take maxDigits) (((significant ip).length - maxDigits : Nat) : Int) (by rw [List.length_take]; omega)
      rw [List.append_nil] at hsf
      simp only [hsf] at this
      rw [show w - ip.length - 1 - fp.length = w - (ip.length + (fp.length + 1)) by omega,
        show ch + ip.length + 1 + fp.length = ch + (ip.length + (fp.length + 1)) by omega] at this
      refine ⟨_, ?_, this.mono (by omega)⟩
      refine ⟨rfl, ?_, by simp, rfl, rfl, rfl, rfl, ?_, ?_⟩
      · have : ip ≠ [] := by rintro rfl; exact hsi rfl
        have g := (gotInt_zero ip).2 this
        exact ⟨fun _ => Or.inl this, fun _ => Or.inl g⟩
      · show ((significant ip).take maxDigits ++ fp.map digitVal).take maxDigits = _
        unfold kept
        have : significant (ip ++ fp) = significant ip ++ fp.map digitVal := by
          unfold significant
          rw [List.map_append, dropWhile_append_map]
          unfold significant at hsi
          rw [if_neg hsi]
        rw [this, List.take_append, List.take_append, List.take_take, Nat.min_self, List.length_take]
        congr 1
        by_cases hm : maxDigits ≤ (significant ip).length
        · rw [Nat.min_eq_left hm, Nat.sub_self, show maxDigits - (significant ip).length = 0 by omega]
        · rw [Nat.min_eq_right (by omega)]
      · rfl

theorem upper_e (c : UInt8) : upper c = 0x45 ↔ (c = 0x65 ∨ c = 0x45) := by
  revert c; exact Strtol.allBytes (by decide +kernel)

theorem exp_not (c : UInt8) (h : c = 0x65 ∨ c = 0x45) : isDigit c = false ∧ c ≠ 0x2E := by
  rcases h with rfl | rfl <;> decide

theorem upper_digit' (c : UInt8) (h : IsDigit c ∨ c = 0x2E) : c ≠ 0x2B ∧ c ≠ 0x2D := by
  revert c; exact Strtol.allBytes (by unfold IsDigit; decide +kernel)

/-- a mantissa with digits -/
def Ready (q : Q) : Prop := (q.st = .int ∧ q.gotint ≠ 0) ∨ (q.st = .frct ∧ (q.gotint ≠ 0 ∨ q.gotfrct ≠ 0))

theorem exp_phase (q : Q) (x : UInt8) (sg s T : Str) (neg : Bool) (w ch : Nat) (hq : Ready q) (hx : x = 0x65 ∨ x = 0x45) (hsg : Sign sg neg) (hs : AllDigits s)
    (h0 : q.eneg = false) (h1 : q.eexp = 0) (hw : 1 + sg.length + s.length ≤ w)
    (ht : sg = [] → s = [] → ∀ c, (if 0 < w - 1 then T.head? else none) = some c → c ≠ 0x2B ∧ c ≠ 0x2D) :
    Reach (2 + s.length) ⟨q, x :: (sg ++ (s ++ T)), w, ch⟩
      ⟨{ q with st := .expDigit, gotexp := if s = [] then 1 else 2, eneg := neg, eexp := min (posVal 10 (s.map digitVal)) (2 ^ 31 - 1) },
        T, w - (1 + sg.length + s.length), ch + (1 + sg.length + s.length)⟩ := by
  have a : Reach 1 ⟨q, x :: (sg ++ (s ++ T)), w, ch⟩ ⟨{ q with gotexp := 1, st := .expSign }, sg ++ (s ++ T), w - 1, ch + 1⟩ := by
    apply reach_eat (by omega)
    have hn := exp_not x hx
    have hu : isUp x 0x45 = true := by rw [isUp_iff, upper_e]; exact hx
    unfold Fscan.trans
    rcases hq with ⟨h, g⟩ | ⟨h, g⟩
    · rw [h]
      simp only
      rw [if_neg (by rw [hn.1]; decide), if_neg hn.2, if_pos ⟨hu, g⟩]
    · rw [h]
      simp only
      rw [if_neg (by rw [hn.1]; decide), if_pos ⟨hu, g⟩]
  have b : Reach 1 ⟨{ q with gotexp := 1, st := .expSign }, sg ++ (s ++ T), w - 1, ch + 1⟩
      ⟨{ q with gotexp := 1, st := .expDigit, eneg := neg }, s ++ T, w - 1 - sg.length, ch + 1 + sg.length⟩ := by
    cases hsg with
    | plus => exact reach_eat (by simp at hw; omega) rfl
    | minus => exact reach_eat (by simp at hw; omega) rfl
    | none =>
      apply reach_keep
      · intro c hc
        have hc' : c ≠ 0x2B ∧ c ≠ 0x2D := by
          cases s with
          | nil => exact ht rfl rfl c hc
          | cons d s =>
            unfold Cfg.look at hc
            simp only at hc
            split at hc
            · cases hc
              exact (upper_digit' c (Or.inl (hs c (by simp))))
            · cases hc
        unfold Fscan.trans
        simp only
        rw [if_neg (by tauto), ← h0]
      · intro b; rfl
      · intro b; exact Or.inl ⟨_, rfl⟩
  have c := exp_digits s hs { q with gotexp := 1, st := .expDigit, eneg := neg } T (w - 1 - sg.length) (ch + 1 + sg.length) 0 rfl (by omega) (by simp [h1])
  have := (a.trans b (Nat.le_refl _)).trans c (Nat.le_refl _)
  rw [show w - 1 - sg.length - s.length = w - (1 + sg.length + s.length) by omega,
    show ch + 1 + sg.length + s.length = ch + (1 + sg.length + s.length) by omega] at this
  exact this

/-! ### conversion with large exponents -/

theorem convert_high (ds : List Nat) (m e e' : Int) (h : 38 < e + m) (h' : 38 < e' + m) (hl : ds.length ≤ 112) : convert ds m e = convert ds m e' := by
  obtain ⟨ds', k, h1, h2⟩ := dropTrailing_ok ds m
  unfold convert
  simp only [h1]
  by_cases hnil : ds' = []
  · rw [if_pos hnil]
    simp only
    rw [d2f_null [0] _ ⟨rfl, rfl⟩, d2f_null [0] _ ⟨rfl, rfl⟩]
  · rw [if_neg hnil]
    simp only
    have hl' : ds'.length ≤ 112 := by rw [h2] at hl; simp at hl; omega
    have hp : 0 < ds'.length := by cases ds' with | nil => exact absurd rfl hnil | cons d ds' => simp
    rw [d2f_total ds' _ _ hp hl', d2f_total ds' _ _ hp hl', d2f_high ds' _ (e' + (m + k)) (by omega) (by omega) hp]

theorem convert_low (ds : List Nat) (m e e' : Int) (h : e + m < -320) (h' : e' + m < -320) (hl : ds.length ≤ 112) : convert ds m e = convert ds m e' := by
  obtain ⟨ds', k, h1, h2⟩ := dropTrailing_ok ds m
  unfold convert
  simp only [h1]
  by_cases hnil : ds' = []
  · rw [if_pos hnil]
    simp only
    rw [d2f_null [0] _ ⟨rfl, rfl⟩, d2f_null [0] _ ⟨rfl, rfl⟩]
  · rw [if_neg hnil]
    simp only
    have hl' : ds'.length + k ≤ 112 := by rw [h2] at hl; simpa using hl
    have hp : 0 < ds'.length := by cases ds' with | nil => exact absurd rfl hnil | cons d ds' => simp
    rw [d2f_total ds' _ _ hp (by omega), d2f_total ds' _ _ hp (by omega), d2f_low ds' _ (e' + (m + k)) (by omega) (by omega) (by omega)]

/-- the exponent may be cut off at 2^31 - 1 -/
theorem convert_cap (ds : List Nat) (m : Int) (n : Nat) (neg : Bool) (hl : ds.length ≤ 112) (hm : m ≤ 2 ^ 31 - 400) (hm' : -(2 ^ 31 - 100) ≤ m) :
    convert ds m (if neg then -((min n (2 ^ 31 - 1) : Nat) : Int) else (min n (2 ^ 31 - 1) : Nat)) = convert ds m (if neg then -(n : Int) else n) := by
  by_cases h : n ≤ 2 ^ 31 - 1
  · rw [Nat.min_eq_left h]
  · rw [Nat.min_eq_right (by omega)]
    cases neg with
    | false => exact convert_high ds m _ _ (by simp; omega) (by simp; omega) hl
    | true => exact convert_low ds m _ _ (by simp; omega) (by simp; omega) hl

end Smlr.Fscan
