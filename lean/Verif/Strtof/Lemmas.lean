import Verif.Strtof.Model
import Verif.Strtof.Spec
import Verif.Number.Flt
import Verif.Strtol.Lemmas
set_option autoImplicit false
namespace Smlr.Strtof
open Smlr.Number
open Smlr.Strtol (skipSpace sign cur)

/-! ### blanks, signs, words -/

theorem blank_iff (c : UInt8) : Strtol.Spec.isWs c = true ↔ Blank c := by
  revert c; exact Strtol.allBytes (by unfold Blank; decide +kernel)

theorem upper_iff (c p : UInt8) : Ctype.toupper (c.toNat : Int) = (p.toNat : Int) ↔ upper c = p := by
  have h : ∀ c : UInt8, Ctype.toupper (c.toNat : Int) = ((upper c).toNat : Int) := by
    apply Strtol.allBytes; decide +kernel
  rw [h, Int.natCast_inj, UInt8.toNat_inj]

theorem lead_ok (ws sg t : Str) (neg : Bool) (hw : ∀ c ∈ ws, Blank c) (hs : Sign sg neg)
    (ht : sg = [] → ∀ c, t.head? = some c → ¬ Blank c ∧ c ≠ 0x2B ∧ c ≠ 0x2D) : sign (skipSpace (ws ++ sg ++ t)) = (neg, t) := by
  have h1 : skipSpace (ws ++ (sg ++ t)) = sg ++ t := by
    rw [Strtol.skipSpace_eq]
    induction ws with
    | nil =>
      rw [List.nil_append]
      cases hs with
      | none =>
        cases t with
        | nil => rfl
        | cons c t =>
          have := (ht rfl c rfl).1
          rw [← blank_iff] at this
          rw [List.nil_append, List.dropWhile_cons_of_neg this]
      | plus => rfl
      | minus => rfl
    | cons c ws ih =>
      have h := (blank_iff c).2 (hw c (by simp))
      rw [List.cons_append, List.dropWhile_cons_of_pos h]
      exact ih fun x hx => hw x (by simp [hx])
  rw [List.append_assoc, h1, Strtol.sign_eq]
  cases hs with
  | plus => rfl
  | minus => rfl
  | none =>
    cases t with
    | nil => rfl
    | cons c t =>
      obtain ⟨-, h2, h3⟩ := ht rfl c rfl
      unfold Strtol.Spec.splitSign
      split
      · rename_i h; cases h; exact absurd rfl h3
      · rename_i h; cases h; exact absurd rfl h2
      · rfl

theorem matches_iff (p s : Str) : matches_ s p = true ↔ Word (s.take p.length) p := by
  unfold Word
  induction p generalizing s with
  | nil => cases s <;> simp [matches_]
  | cons a p ih =>
    cases s with
    | nil => simp [matches_]
    | cons c s =>
      simp only [matches_, List.length_cons, List.take_succ_cons, List.map_cons, List.cons.injEq]
      by_cases h : Ctype.toupper (c.toNat : Int) = (a.toNat : Int)
      · rw [if_neg (by simpa using h), ih]
        exact ⟨fun x => ⟨(upper_iff c a).1 h, x⟩, fun x => x.2⟩
      · rw [if_pos h]
        constructor
        · intro x; cases x
        · intro x; exact absurd ((upper_iff c a).2 x.1) h

theorem matches_append (w p r : Str) (h : Word w p) : matches_ (w ++ r) p = true := by
  have hl : w.length = p.length := by rw [← h, List.length_map]
  rw [matches_iff, ← hl, List.take_left' rfl]
  exact h

theorem matches_head (a : UInt8) (p s : Str) (h : ∀ c, s.head? = some c → upper c ≠ a) : matches_ s (a :: p) = false := by
  cases s with
  | nil => rfl
  | cons c s =>
    have := h c rfl
    unfold matches_
    rw [if_pos (fun x => this ((upper_iff c a).1 x))]

/-! ### exponents -/

theorem cur_cons (c : UInt8) (s : Str) (n : Nat) (h : n < 256) : cur (c :: s) = n ↔ c = UInt8.ofNat n := Strtol.toNat_eq_iff c n h

theorem scanExp_none (s : Str) (h : NoDigit s) : scanExp true s 0 0 = .ok (0, 0, s) := by
  cases s with
  | nil => rfl
  | cons c s => unfold scanExp; rw [if_neg (by rw [h c rfl]; simp)]

theorem exponent_digits (s t : Str) (hne : s ≠ []) (hs : AllDigits s) (ht : NoDigit t) (hb : posVal 10 (s.map digitVal) ≤ 2 ^ 31 - 1) :
    ∃ cnt, cnt ≠ 0 ∧ scanExp true (s ++ t) 0 0 = .ok (posVal 10 (s.map digitVal), cnt, t) := by
  rw [scanExp_ok s t hs ht 0 0 (by decide), ext_zero, if_pos hb]
  refine ⟨0 + s.length, ?_, rfl⟩
  have : s.length ≠ 0 := by simpa using hne
  omega

theorem exponent_ok (ex rest : Str) (e : Int) (h : ExpText ex e) (hd : NoDigit rest) (hb : e.natAbs ≤ 2 ^ 31 - 1)
    (hx : ex = [] → ¬ ∃ ex' e r, ex' ≠ [] ∧ ExpText ex' e ∧ rest = ex' ++ r) : exponent (ex ++ rest) = some (e, rest) := by
  cases h with
  | none =>
    rw [List.nil_append]
    cases rest with
    | nil => rfl
    | cons c s =>
      unfold exponent
      by_cases hc : c = 0x45 ∨ c = 0x65
      · have hc' : c = 0x65 ∨ c = 0x45 := hc.symm
        simp only
        rw [if_pos hc]
        have key : ∀ (sg s1 : Str), (sg = [] ∨ sg = [0x2B] ∨ sg = [0x2D]) → s = sg ++ s1 → NoDigit s1 := by
          intro sg s1 hsg hs d hd1
          cases hdg : isDigit d with
          | false => rfl
          | true =>
            exfalso
            apply hx rfl
            have hI := (isDigit_iff d).1 hdg
            cases s1 with
            | nil => cases hd1
            | cons d' s2 =>
              cases hd1
              have hall : AllDigits [d] := by intro x hx; rw [List.mem_singleton] at hx; rw [hx]; exact hI
              rcases hsg with rfl | rfl | rfl
              · exact ⟨[c, d], _, s2, by simp, .plain c [d] hc' (by simp) hall, by rw [hs]; rfl⟩
              · exact ⟨[c, 0x2B, d], _, s2, by simp, .plus c [d] hc' (by simp) hall, by rw [hs]; rfl⟩
              · exact ⟨[c, 0x2D, d], _, s2, by simp, .minus c [d] hc' (by simp) hall, by rw [hs]; rfl⟩
        cases s with
        | nil => rfl
        | cons a s =>
          by_cases h1 : a = 0x2D
          · subst h1
            have hn := key [0x2D] s (by simp) rfl
            rw [if_pos (show cur (0x2D :: s) = 0x2D from rfl)]
            simp only [List.tail_cons, scanExp_none s hn]
            rfl
          · by_cases h2 : a = 0x2B
            · subst h2
              have hn := key [0x2B] s (by simp) rfl
              rw [if_neg (by rw [cur_cons _ _ _ (by decide)]; exact h1), if_pos (show cur (0x2B :: s) = 0x2B from rfl)]
              simp only [List.tail_cons, scanExp_none s hn]
              rfl
            · have hn := key [] (a :: s) (by simp) rfl
              rw [if_neg (by rw [cur_cons _ _ _ (by decide)]; exact h1), if_neg (by rw [cur_cons _ _ _ (by decide)]; exact h2)]
              simp only [scanExp_none (a :: s) hn]
              rfl
      · simp only; rw [if_neg hc]
  | plain x s hx' hne hs =>
    obtain ⟨cnt, h1, h2⟩ := exponent_digits s rest hne hs hd (by simpa using hb)
    cases s with
    | nil => exact absurd rfl hne
    | cons d s =>
      have hdd := hs d (by simp)
      have n1 : d ≠ 0x2D := by rintro rfl; revert hdd; unfold IsDigit; decide
      have n2 : d ≠ 0x2B := by rintro rfl; revert hdd; unfold IsDigit; decide
      rw [List.cons_append] at h2
      simp only [List.cons_append, exponent]
      rw [if_pos hx'.symm, if_neg (by rw [cur_cons _ _ _ (by decide)]; exact n1), if_neg (by rw [cur_cons _ _ _ (by decide)]; exact n2)]
      simp only [h2]
      rw [if_neg h1]; rfl
  | plus x s hx' hne hs =>
    obtain ⟨cnt, h1, h2⟩ := exponent_digits s rest hne hs hd (by simpa using hb)
    simp only [List.cons_append, exponent]
    rw [if_pos hx'.symm, if_neg (by rw [cur_cons _ _ _ (by decide)]; decide), if_pos (by rw [cur_cons _ _ _ (by decide)]; decide)]
    simp only [List.tail_cons, h2]
    rw [if_neg h1]; rfl
  | minus x s hx' hne hs =>
    obtain ⟨cnt, h1, h2⟩ := exponent_digits s rest hne hs hd (by simpa using hb)
    simp only [List.cons_append, exponent]
    rw [if_pos hx'.symm, if_pos (by rw [cur_cons _ _ _ (by decide)]; decide)]
    simp only [List.tail_cons, h2]
    rw [if_neg h1]; rfl

/-! ### conversion -/

theorem d2f_up (ds : List Nat) (x : Int) (hx : 38 < x) (h : 0 < ds.length) (h0 : ¬ (ds.length = 1 ∧ ds.headD 0 = 0)) : d2f ds x = .ok 0x7F800000 := by
  unfold d2f
  simp only
  rw [if_neg h0, if_neg (by omega), if_pos (by omega)]

theorem d2f_down (ds : List Nat) (x : Int) (hx : x < -200) (h : ds.length ≤ 112) (h0 : ¬ (ds.length = 1 ∧ ds.headD 0 = 0)) : d2f ds x = .ok 0 := by
  unfold d2f
  simp only
  rw [if_neg h0, if_pos (by omega)]

theorem d2f_null (ds : List Nat) (x : Int) (h0 : ds.length = 1 ∧ ds.headD 0 = 0) : d2f ds x = .ok 0 := by
  unfold d2f
  simp only
  rw [if_pos h0]

theorem d2f_high (ds : List Nat) (x y : Int) (hx : 38 < x) (hy : 38 < y) (h : 0 < ds.length) : d2f ds x = d2f ds y := by
  by_cases h0 : ds.length = 1 ∧ ds.headD 0 = 0
  · rw [d2f_null ds x h0, d2f_null ds y h0]
  · rw [d2f_up ds x hx h h0, d2f_up ds y hy h h0]

theorem d2f_low (ds : List Nat) (x y : Int) (hx : x < -200) (hy : y < -200) (h : ds.length ≤ 112) : d2f ds x = d2f ds y := by
  by_cases h0 : ds.length = 1 ∧ ds.headD 0 = 0
  · rw [d2f_null ds x h0, d2f_null ds y h0]
  · rw [d2f_down ds x hx h h0, d2f_down ds y hy h h0]

theorem d2f_total (ds : List Nat) (m e : Int) (h0 : 0 < ds.length) (h : ds.length ≤ 112) : d2f ds (total m e) = d2f ds (e + m) := by
  unfold total
  by_cases h1 : m ≥ 0 ∧ e > 2 ^ 31 - 1 - m
  · rw [if_pos h1]; exact d2f_high ds _ _ (by decide) (by omega) h0
  · rw [if_neg h1]
    by_cases h2 : m < 0 ∧ e < -2 ^ 31 - m
    · rw [if_pos h2]; exact d2f_low ds _ _ (by decide) (by omega) h
    · rw [if_neg h2, Int.add_comm]

theorem convert_ok (ds : List Nat) (hd : ∀ d ∈ ds, d ≤ 9) (hl : ds.length ≤ maxDigits) (h0 : ds.head? ≠ some 0) (m e : Int) :
    ∃ r, convert ds m e = some r ∧ RoundedDec (posVal 10 ds) (e + m) r := by
  obtain ⟨ds', k, h1, h2⟩ := dropTrailing_ok ds m
  unfold convert
  simp only [h1]
  by_cases hnil : ds' = []
  · rw [if_pos hnil]
    simp only
    have hz : posVal 10 ds = 0 := by
      rw [h2, posVal_zeros, hnil]; simp [posVal]
    obtain ⟨r, hr1, hr2⟩ := d2f_ok [0] (by simp) (by simp) (Or.inr rfl) (total 0 e)
    refine ⟨r, by rw [hr1]; rfl, ?_⟩
    rw [hz]
    have : posVal 10 [0] = 0 := rfl
    rw [this] at hr2
    exact roundedDec_zero _ _ r hr2
  · rw [if_neg hnil]
    simp only
    have hl' : ds'.length ≤ 112 := by rw [h2] at hl; simp [maxDigits] at hl; omega
    rw [d2f_total ds' _ _ (by cases ds' with | nil => exact absurd rfl hnil | cons d ds' => simp) hl']
    obtain ⟨r, hr1, hr2⟩ := d2f_ok ds' (fun d h => hd d (by rw [h2]; simp [h])) hl'
      (by
        left
        cases ds' with
        | nil => exact absurd rfl hnil
        | cons d ds' => rw [h2] at h0; simpa using h0) (e + (m + k))
    refine ⟨r, by rw [hr1]; rfl, ?_⟩
    rw [h2, posVal_zeros]
    apply roundedDec_shift
    rw [show e + m + (k : Int) = e + (m + k) by omega]
    exact hr2

/-! ### numbers -/

theorem fraction_eq (s : Str) (ds : List Nat) (m : Int) : ∃ g,
    fraction s ds m = ((scanFracPart s ds m).1, (scanFracPart s ds m).2.1, g, (scanFracPart s ds m).2.2.2) := by
  cases s with
  | nil => exact ⟨_, rfl⟩
  | cons c s =>
    unfold fraction scanFracPart
    by_cases hc : c = 0x2E
    · simp only [if_pos hc]; exact ⟨_, rfl⟩
    · simp only [if_neg hc]; exact ⟨_, rfl⟩

theorem fraction_some (fp t : Str) (hfp : AllDigits fp) (ht : NoDigit t) (hne : fp ≠ []) (ds : List Nat) (m : Int) (hl : ds.length ≤ maxDigits) :
    (fraction (0x2E :: (fp ++ t)) ds m).2.2.1 = true := by
  have hp : 0 < fp.length := by cases fp with | nil => exact absurd rfl hne | cons a b => simp
  unfold fraction
  simp only [if_true]
  by_cases h : ds = []
  · obtain ⟨f', g1, g2, g3, g4⟩ := skipZeros_ok fp t hfp ht
    rw [if_pos h, g1]
    simp only
    rw [scanFrac_ok f' t g2 ht ds _ hl]
    simp only [decide_eq_true_eq, List.length_append]
    omega
  · rw [if_neg h]
    simp only
    rw [scanFrac_ok fp t hfp ht ds _ hl]
    simp only [decide_eq_true_eq, List.length_append]
    omega

theorem kept_facts (ip fp : Str) (hip : AllDigits ip) (hfp : AllDigits fp) :
    (∀ d ∈ kept ip fp, d ≤ 9) ∧ (kept ip fp).length ≤ maxDigits ∧ (kept ip fp).head? ≠ some 0 := by
  refine ⟨?_, by unfold kept; rw [List.length_take]; omega, ?_⟩
  · intro d hd
    have h1 := List.mem_of_mem_take hd
    unfold significant at h1
    have h2 := (List.dropWhile_sublist (· = 0)).mem h1
    obtain ⟨c, hc, rfl⟩ := List.mem_map.1 h2
    apply digit_le
    rw [isDigit_iff]
    rcases List.mem_append.1 hc with hc | hc
    · exact hip c hc
    · exact hfp c hc
  · unfold kept significant
    rw [List.head?_take, if_neg (by decide)]
    exact head_dropWhile _

theorem ends_noDigit {dot : Bool} {ex rest : Str} (h : Ends dot ex rest) : NoDigit rest := by
  intro c hc
  cases hd : isDigit c with
  | false => rfl
  | true => exact absurd ((isDigit_iff c).1 hd) (h.digit c hc)

theorem number_ok (ip fp ex rest : Str) (dot : Bool) (e : Int) (hf : Decimal ip dot fp ex e) (hr : Ends dot ex rest) (hb : e.natAbs ≤ 2 ^ 31 - 1) :
    ∃ r, number (ip ++ fracText dot fp ++ ex ++ rest) = .some r rest ∧ RoundedDec (posVal 10 (kept ip fp)) (e + keptExp ip fp) r := by
  obtain ⟨hip, hfp, hsome, nodot, hex⟩ := hf
  have hnd := ends_noDigit hr
  have hnd2 := noDigit_exp hex hnd
  have hdot : dot = false → ∀ ds m, scanFracPart (ex ++ rest) ds m = (ds, m, false, ex ++ rest) := by
    intro hd ds m
    by_cases hne : ex = []
    · subst hne
      rw [List.nil_append]
      cases hrest : rest with
      | nil => rfl
      | cons c t =>
        have := hr.dot hd rfl
        rw [hrest] at this
        unfold scanFracPart
        simp only
        rw [if_neg (fun h => this (by rw [h]; rfl))]
    · exact noDot_exp hex hne ds m
  have hscan := scan_frac ip fp (ex ++ rest) hip hfp hnd2 dot nodot hdot
  have hnd1 : NoDigit (fracText dot fp ++ (ex ++ rest)) := by
    unfold fracText
    cases dot with
    | false => simpa using hnd2
    | true => intro c hc; cases hc; rfl
  obtain ⟨s', h1, h2, h3, h4⟩ := skipZeros_ok ip (fracText dot fp ++ (ex ++ rest)) hip hnd1
  have h5 := scanInt_ok s' _ h2 hnd1 [] 0 (by simp)
  rw [List.append_assoc, List.append_assoc]
  rw [h1] at hscan
  simp only [h5] at hscan
  unfold number
  rw [h1]
  simp only [h5]
  have hlen : ((([] : List Nat) ++ s'.map digitVal).take maxDigits).length ≤ maxDigits := by rw [List.length_take]; omega
  have hpos : ip ≠ [] → ip.length - s'.length ≠ 0 ∨ (([] : List Nat) ++ s'.map digitVal).take maxDigits ≠ [] := by
    intro hne
    have : 0 < ip.length := by cases ip with | nil => exact absurd rfl hne | cons a b => simp
    by_cases hs : s' = []
    · left; rw [hs]; simp only [List.length_nil]; omega
    · right
      cases s' with
      | nil => exact absurd rfl hs
      | cons a s' => simp [maxDigits]
  generalize (([] : List Nat) ++ s'.map digitVal).take maxDigits = ds0 at *
  generalize (0 : Int) + (((([] : List Nat).length + s'.length - maxDigits : Nat)) : Int) = m0 at *
  obtain ⟨g, hg⟩ := fraction_eq (fracText dot fp ++ (ex ++ rest)) ds0 m0
  rw [hscan] at hg
  simp only at hg
  have hgot : (decide (ip.length - s'.length ≠ 0 ∨ ds0 ≠ []) || g) = true := by
    rcases hsome with hne | hne
    · rw [decide_eq_true (hpos hne)]; rfl
    · have hd : dot = true := by
        cases dot with
        | true => rfl
        | false => exact absurd (nodot rfl) hne
      subst hd
      have := fraction_some fp (ex ++ rest) hfp hnd2 hne ds0 m0 hlen
      have e1 : fracText true fp ++ (ex ++ rest) = 0x2E :: (fp ++ (ex ++ rest)) := rfl
      rw [e1] at hg
      rw [hg] at this
      simp only at this
      rw [this, Bool.or_true]
  rw [hg]
  simp only [hgot, Bool.not_true, Bool.false_eq_true, if_false]
  rw [exponent_ok ex rest e hex hnd hb hr.exp]
  obtain ⟨k1, k2, k3⟩ := kept_facts ip fp hip hfp
  obtain ⟨r, r1, r2⟩ := convert_ok (kept ip fp) k1 k2 k3 (keptExp ip fp) e
  simp only [r1]
  exact ⟨r, rfl, r2⟩

theorem number_none (t : Str) (h : Nothing t) : number t = .none := by
  have hz : skipZeros t = (0, t) := by
    cases t with
    | nil => rfl
    | cons c t =>
      unfold skipZeros
      rw [if_neg (by rintro rfl; exact h.digit 0x30 rfl (by unfold IsDigit; decide))]
  have hnd : NoDigit t := by
    intro c hc
    cases hd : isDigit c with
    | false => rfl
    | true => exact absurd ((isDigit_iff c).1 hd) (h.digit c hc)
  have hi : scanInt t [] 0 = ([], 0, t) := by
    cases t with
    | nil => rfl
    | cons c t => unfold scanInt; rw [if_neg (by rw [hnd c rfl]; simp)]
  have hfr : (fraction t [] 0).2.2.1 = false := by
    cases t with
    | nil => rfl
    | cons c t =>
      by_cases hc : c = 0x2E
      · subst hc
        have hn : NoDigit t := by
          intro d hd
          cases t with
          | nil => cases hd
          | cons d' t =>
            cases hd
            cases hdd : isDigit d with
            | false => rfl
            | true => exact absurd ((isDigit_iff d).1 hdd) (h.dot d t rfl)
        have g1 : skipZeros t = (0, t) := by
          cases t with
          | nil => rfl
          | cons d t =>
            unfold skipZeros
            rw [if_neg (by rintro rfl; exact absurd (hn 0x30 rfl) (by decide))]
        have g2 := scanFrac_ok [] t (by intro x hx; cases hx) hn [] (0 - ((0 : Nat) : Int)) (by simp)
        rw [List.nil_append] at g2
        unfold fraction
        simp only [if_true, g1, g2]
        simp
      · unfold fraction
        simp only
        rw [if_neg hc]
  unfold number
  rw [hz]
  simp only [hi]
  generalize fraction t [] 0 = x at *
  obtain ⟨a, b, c, d⟩ := x
  simp only at hfr
  subst hfr
  simp

theorem takeWhile_digits (t : Str) : AllDigits (t.takeWhile isDigit) := by
  induction t with
  | nil => intro c hc; cases hc
  | cons a t ih =>
    by_cases h : isDigit a = true
    · rw [List.takeWhile_cons_of_pos h]
      intro c hc
      rcases List.mem_cons.1 hc with rfl | hc
      · exact (isDigit_iff c).1 h
      · exact ih c hc
    · rw [List.takeWhile_cons_of_neg h]
      intro c hc; cases hc

theorem dropWhile_digits (t : Str) : NoDigit (t.dropWhile isDigit) := by
  intro c hc
  have := List.head?_dropWhile_not isDigit t
  rw [hc] at this
  simpa using this

/-- the digits of any text, and what follows them -/
theorem split_digits (t : Str) : ∃ ip fp r dot, t = ip ++ (fracText dot fp ++ r) ∧ AllDigits ip ∧ AllDigits fp ∧ NoDigit r ∧ (dot = false → fp = []) ∧
    (dot = false → ∀ ds m, scanFracPart r ds m = (ds, m, false, r)) := by
  have h := List.takeWhile_append_dropWhile (p := isDigit) (l := t)
  have h1 := takeWhile_digits t
  have h2 := dropWhile_digits t
  generalize t.takeWhile isDigit = ip at *
  generalize t.dropWhile isDigit = u at *
  by_cases hc : u.head? = some 0x2E
  · cases u with
    | nil => cases hc
    | cons c u =>
      cases hc
      refine ⟨ip, u.takeWhile isDigit, u.dropWhile isDigit, true, ?_, h1, takeWhile_digits u, dropWhile_digits u, (fun x => by cases x), (fun x => by cases x)⟩
      rw [← h]
      simp only [fracText, if_true, List.cons_append]
      rw [List.takeWhile_append_dropWhile]
  · refine ⟨ip, [], u, false, h.symm, h1, (fun c hc => by cases hc), h2, fun _ => rfl, fun _ ds m => ?_⟩
    cases u with
    | nil => rfl
    | cons c u =>
      unfold scanFracPart
      simp only
      rw [if_neg (fun x => hc (by rw [x]; rfl))]

theorem number_safe (t : Str) : number t ≠ .overrun := by
  obtain ⟨ip, fp, r, dot, rfl, hip, hfp, hr, hnd, hdot⟩ := split_digits t
  have hscan := scan_frac ip fp r hip hfp hr dot hnd hdot
  unfold number
  obtain ⟨z, s1, h1⟩ : ∃ a b, skipZeros (ip ++ (fracText dot fp ++ r)) = (a, b) := ⟨_, _, rfl⟩
  rw [h1] at hscan ⊢
  simp only at hscan ⊢
  obtain ⟨ds0, m0, s0, h0⟩ : ∃ a b c, scanInt s1 [] 0 = (a, b, c) := ⟨_, _, _, rfl⟩
  rw [h0] at hscan ⊢
  simp only at hscan ⊢
  obtain ⟨g, hg⟩ := fraction_eq s0 ds0 m0
  rw [hscan] at hg
  simp only at hg
  rw [hg]
  simp only
  split
  · simp
  · cases exponent r with
    | none => simp
    | some x =>
      obtain ⟨k1, k2, k3⟩ := kept_facts ip fp hip hfp
      obtain ⟨v, v1, -⟩ := convert_ok (kept ip fp) k1 k2 k3 (keptExp ip fp) x.1
      simp only [v1]
      simp

end Smlr.Strtof
