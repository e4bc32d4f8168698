import Verif.Number.Lit
set_option autoImplicit false
namespace Smlr.Number

/-! ### the same rational number in two ways -/

theorem natAbs_scale (num f den c : Nat) : ((num * c : Nat) : Int) - f * ((den * c : Nat) : Int) = ((num : Int) - f * den) * c := by
  push_cast; ring

theorem rounded_scale (num den c r : Nat) (hc : 0 < c) : Rounded (num * c) (den * c) r ↔ Rounded num den r := by
  have e : ∀ s, (((num * c : Nat) : Int) - fval s * ((den * c : Nat) : Int)).natAbs = ((num : Int) - fval s * den).natAbs * c := by
    intro s; rw [natAbs_scale, Int.natAbs_mul, Int.natAbs_natCast]
  have o : (2 ^ 25 - 1) * 2 ^ 252 * (den * c) ≤ num * c ↔ (2 ^ 25 - 1) * 2 ^ 252 * den ≤ num := by
    rw [← Nat.mul_assoc]; exact Nat.mul_le_mul_right_iff hc
  constructor
  · rintro ⟨h1, h2, h3, h4⟩
    refine ⟨h1.trans o, h2, fun hr s hs => ?_, fun hr s hs hn ht => ?_⟩
    · have := h3 hr s hs
      rw [e, e] at this
      exact Nat.le_of_mul_le_mul_right this hc
    · exact h4 hr s hs hn (by rw [e, e, ht])
  · rintro ⟨h1, h2, h3, h4⟩
    refine ⟨h1.trans o.symm, h2, fun hr s hs => ?_, fun hr s hs hn ht => ?_⟩
    · rw [e, e]; exact Nat.mul_le_mul_right _ (h3 hr s hs)
    · rw [e, e] at ht
      exact h4 hr s hs hn (Nat.eq_of_mul_eq_mul_right hc ht)

theorem rounded_cross (n1 d1 n2 d2 r : Nat) (h1 : 0 < d1) (h2 : 0 < d2) (h : n1 * d2 = n2 * d1) (hr : Rounded n1 d1 r) : Rounded n2 d2 r := by
  rw [← rounded_scale n1 d1 d2 r h2, h, Nat.mul_comm d1 d2, rounded_scale n2 d2 d1 r h1] at hr
  exact hr

theorem pow_split (x : Int) (z : Nat) : 10 ^ (x + z).toNat * 10 ^ (-x).toNat = 10 ^ z * 10 ^ x.toNat * 10 ^ (-(x + z)).toNat := by
  rw [← Nat.pow_add, ← Nat.pow_add, ← Nat.pow_add]
  congr 1; omega

theorem roundedDec_shift (m z : Nat) (x : Int) (r : Nat) (h : RoundedDec m (x + z) r) : RoundedDec (m * 10 ^ z) x r := by
  unfold RoundedDec at *
  refine rounded_cross _ _ _ _ r (Nat.pow_pos (by decide)) (Nat.pow_pos (by decide)) ?_ h
  have := pow_split x z
  calc m * 10 ^ (x + z).toNat * 2 ^ 149 * 10 ^ (-x).toNat
      = m * 2 ^ 149 * (10 ^ (x + z).toNat * 10 ^ (-x).toNat) := by ring
    _ = m * 2 ^ 149 * (10 ^ z * 10 ^ x.toNat * 10 ^ (-(x + z)).toNat) := by rw [this]
    _ = _ := by ring

theorem roundedDec_zero (x y : Int) (r : Nat) (h : RoundedDec 0 x r) : RoundedDec 0 y r := by
  unfold RoundedDec at *
  refine rounded_cross _ _ _ _ r (Nat.pow_pos (by decide)) (Nat.pow_pos (by decide)) ?_ h
  simp

/-! ### trailing zeroes -/

theorem posVal_zeros (ds : List Nat) (k : Nat) : posVal 10 (ds ++ List.replicate k 0) = posVal 10 ds * 10 ^ k := by
  induction k with
  | zero => simp
  | succ k ih =>
    rw [List.replicate_succ', ← List.append_assoc]
    have : posVal 10 (ds ++ List.replicate k 0 ++ [0]) = posVal 10 (ds ++ List.replicate k 0) * 10 := by
      simp [posVal, List.foldl_append]
    rw [this, ih, Nat.pow_succ, Nat.mul_assoc]

theorem takeWhile_zeros (l : List Nat) : l.takeWhile (· = 0) = List.replicate (l.takeWhile (· = 0)).length 0 := by
  rw [List.eq_replicate_iff]
  refine ⟨rfl, fun x hx => ?_⟩
  induction l with
  | nil => simp at hx
  | cons a l ih =>
    by_cases h : a = 0
    · rw [List.takeWhile_cons_of_pos (by simpa using h)] at hx
      rcases List.mem_cons.1 hx with rfl | hx
      · exact h
      · exact ih hx
    · rw [List.takeWhile_cons_of_neg (by simpa using h)] at hx
      simp at hx

theorem dropTrailing_ok (ds : List Nat) (m : Int) : ∃ ds' k, dropTrailing ds m = (ds', m + (k : Nat)) ∧ ds = ds' ++ List.replicate k 0 := by
  unfold dropTrailing
  refine ⟨_, _, rfl, ?_⟩
  obtain ⟨k, hk⟩ : ∃ k, k = (ds.reverse.takeWhile (· = 0)).length := ⟨_, rfl⟩
  have h := List.takeWhile_append_dropWhile (p := (· = 0)) (l := ds.reverse)
  rw [takeWhile_zeros, ← hk] at h
  have h2 := congrArg List.reverse h
  rw [List.reverse_append, List.reverse_reverse, List.reverse_replicate] at h2
  rw [← hk]
  have hlen : ds.length - k = ((ds.reverse.dropWhile (· = 0)).reverse).length := by
    have := congrArg List.length h2
    rw [List.length_append, List.length_replicate] at this
    omega
  rw [hlen]
  have tk : ∀ (D : List Nat), D ++ List.replicate k 0 = ds → ds.take D.length = D := by
    intro D h; rw [← h]; exact List.take_left' rfl
  rw [tk _ h2]
  exact h2.symm

/-! ### exponent -/

def NotFL (t : Str) : Prop := ∀ c, t.head? = some c → ¬ (c = 0x66 ∨ c = 0x46 ∨ c = 0x6C ∨ c = 0x4C)

theorem scanExpPart_ok (ex : Str) (e : Int) (h : ExpText ex e) (t : Str) (ht : NoDigit t) (he : ex = [] → ∀ c, t.head? = some c → c ≠ 0x65 ∧ c ≠ 0x45) :
    (∃ cnt, scanExpPart true (ex ++ t) = .ok (e, cnt, t) ∧ (cnt = 0 ↔ ex = [])) ∨
    (scanExpPart true (ex ++ t) = .error .tooBig ∧ 2 ^ 31 - 1 < e.natAbs) := by
  have key : ∀ s, s ≠ [] → AllDigits s →
      (∃ cnt, cnt ≠ 0 ∧ scanExp true (s ++ t) 0 0 = .ok (posVal 10 (s.map digitVal), cnt, t)) ∨
      (scanExp true (s ++ t) 0 0 = .error .tooBig ∧ 2 ^ 31 - 1 < posVal 10 (s.map digitVal)) := by
    intro s hne hs
    rw [scanExp_ok s t hs ht 0 0 (by decide), ext_zero]
    by_cases hv : posVal 10 (s.map digitVal) ≤ 2 ^ 31 - 1
    · left
      rw [if_pos hv]
      refine ⟨0 + s.length, ?_, rfl⟩
      have : s.length ≠ 0 := by simpa using hne
      omega
    · right
      rw [if_neg hv]
      exact ⟨rfl, by omega⟩
  cases h with
  | none =>
    left
    refine ⟨0, ?_, by simp⟩
    cases t with
    | nil => rfl
    | cons c t =>
      have := he rfl c rfl
      simp only [List.nil_append, scanExpPart]
      rw [if_neg (by tauto)]
  | plain x s hx hne hs =>
    cases s with
    | nil => exact absurd rfl hne
    | cons d s =>
      have hd := hs d (by simp)
      have h1 : d ≠ 0x2D := by rintro rfl; revert hd; unfold IsDigit; decide
      have h2 : d ≠ 0x2B := by rintro rfl; revert hd; unfold IsDigit; decide
      simp only [List.cons_append, scanExpPart]
      rw [if_pos hx, if_neg h1, if_neg h2]
      rcases key (d :: s) hne hs with ⟨cnt, hc, hk⟩ | ⟨hk, hv⟩
      · rw [List.cons_append] at hk
        left; rw [hk]; simp only
        rw [if_neg hc]
        exact ⟨cnt, rfl, by simp [hc]⟩
      · rw [List.cons_append] at hk
        right; rw [hk]
        exact ⟨rfl, by rw [Int.natAbs_natCast]; exact hv⟩
  | plus x s hx hne hs =>
    simp only [List.cons_append, scanExpPart]
    rw [if_pos hx, if_neg (by decide), if_pos trivial]
    rcases key s hne hs with ⟨cnt, hc, hk⟩ | ⟨hk, hv⟩
    · left; simp only [hk]
      rw [if_neg hc]
      exact ⟨cnt, rfl, by simp [hc]⟩
    · right; simp only [hk]
      exact ⟨trivial, by rw [Int.natAbs_natCast]; exact hv⟩
  | minus x s hx hne hs =>
    simp only [List.cons_append, scanExpPart]
    rw [if_pos hx, if_pos trivial]
    rcases key s hne hs with ⟨cnt, hc, hk⟩ | ⟨hk, hv⟩
    · left; simp only [hk]
      rw [if_neg hc]
      exact ⟨cnt, rfl, by simp [hc]⟩
    · right; simp only [hk]
      exact ⟨trivial, by rw [Int.natAbs_neg, Int.natAbs_natCast]; exact hv⟩

/-! ### the end of a float -/

theorem dropSuffix (suf rest : Str) (h : FloatSuffix suf) (hr : suf = [] → NotFL rest) :
    dropFL (suf ++ rest) = rest := by
  unfold dropFL
  rcases h with rfl | ⟨c, rfl, hc⟩
  · cases rest with
    | nil => rfl
    | cons c t =>
      have := hr rfl c rfl
      simp only [List.nil_append]
      rw [if_neg this]
  · simp only [List.cons_append, List.nil_append]
    rw [if_pos hc]

theorem endFloat_ok (ds : List Nat) (hd : ∀ d ∈ ds, d ≤ 9) (hl : ds.length ≤ maxDigits) (h0 : ds.head? ≠ some 0) (m e : Int)
    (suf rest : Str) (hs : FloatSuffix suf) (hr : suf = [] → NotFL rest) :
    (∃ r, endFloat true ds m e (suf ++ rest) = .ok (.float, r, rest) ∧ RoundedDec (posVal 10 ds) (e + m) r) ∨
    (endFloat true ds m e (suf ++ rest) = .error .tooBig ∧ ((2 ^ 31 : Int) - 1 < e + m + ds.length ∨ (2 ^ 31 : Int) - 1 < e ∨ (m < 0 ∧ e + m < -2 ^ 31))) := by
  obtain ⟨ds', k, h1, h2⟩ := dropTrailing_ok ds m
  unfold endFloat
  rw [dropSuffix suf rest hs hr]
  simp only [h1]
  by_cases hnil : ds' = []
  · rw [if_pos hnil]
    simp only
    have hz : posVal 10 ds = 0 := by
      rw [h2, posVal_zeros, hnil]; simp [posVal]
    by_cases ho : ((0 : Int) ≥ 0 ∧ e > 2 ^ 31 - 1 - 0) ∨ ((0 : Int) < 0 ∧ e ≤ -2 ^ 31 - (0 + 1))
    · right
      rw [if_pos ho]
      refine ⟨by simp, Or.inr (Or.inl ?_)⟩
      omega
    · rw [if_neg ho]
      obtain ⟨r, hr1, hr2⟩ := d2f_ok [0] (by simp) (by simp) (Or.inr rfl) (e + 0)
      left
      refine ⟨r, by simp only [hr1, if_true], ?_⟩
      rw [hz]
      have : posVal 10 [0] = 0 := rfl
      rw [this] at hr2
      exact roundedDec_zero _ _ r hr2
  · rw [if_neg hnil]
    simp only
    by_cases ho : (m + (k : Int) ≥ 0 ∧ e > 2 ^ 31 - 1 - (m + k)) ∨ (m + (k : Int) < 0 ∧ e ≤ -2 ^ 31 - (m + k + 1))
    · right
      rw [if_pos ho]
      have hk : k ≤ ds.length := by rw [h2]; simp
      refine ⟨by simp, ?_⟩
      omega
    · rw [if_neg ho]
      obtain ⟨r, hr1, hr2⟩ := d2f_ok ds' (fun d h => hd d (by rw [h2]; simp [h])) (by rw [h2] at hl; simp [maxDigits] at hl; omega)
        (by
          left
          cases ds' with
          | nil => exact absurd rfl hnil
          | cons d ds' => rw [h2] at h0; simpa using h0) (e + (m + k))
      left
      refine ⟨r, by simp only [hr1, if_true], ?_⟩
      rw [h2, posVal_zeros]
      apply roundedDec_shift
      rw [show e + m + (k : Int) = e + (m + k) by omega]
      exact hr2

theorem afterFloat_noDigit {ex suf rest : Str} (h : AfterFloat ex suf rest) (hs : FloatSuffix suf) : NoDigit (suf ++ rest) := by
  rcases hs with rfl | ⟨c, rfl, hc⟩
  · intro c hc
    have := (h rfl c hc).1
    cases hd : isDigit c with
    | false => rfl
    | true => exact absurd ((isDigit_iff c).1 hd) this
  · intro x hx; cases hx; rcases hc with rfl | rfl | rfl | rfl <;> rfl

theorem afterFloat_noExp {ex suf rest : Str} (h : AfterFloat ex suf rest) (hs : FloatSuffix suf) :
    ex = [] → ∀ c, (suf ++ rest).head? = some c → c ≠ 0x65 ∧ c ≠ 0x45 := by
  intro he
  rcases hs with rfl | ⟨c, rfl, hc⟩
  · intro c hc; exact (h rfl c hc).2.2 he
  · intro x hx; cases hx; rcases hc with rfl | rfl | rfl | rfl <;> decide

theorem noDigit_exp {ex t : Str} {e : Int} (h : ExpText ex e) (ht : NoDigit t) : NoDigit (ex ++ t) := by
  cases h with
  | none => exact ht
  | plain x s hx _ _ => intro c hc; cases hc; rcases hx with rfl | rfl <;> rfl
  | plus x s hx _ _ => intro c hc; cases hc; rcases hx with rfl | rfl <;> rfl
  | minus x s hx _ _ => intro c hc; cases hc; rcases hx with rfl | rfl <;> rfl

theorem noDot_exp {ex t : Str} {e : Int} (h : ExpText ex e) (hne : ex ≠ []) (ds m) : scanFracPart (ex ++ t) ds m = (ds, m, false, ex ++ t) := by
  have : ∃ x s, ex = x :: s ∧ (x = 0x65 ∨ x = 0x45) := by
    cases h with
    | none => exact absurd rfl hne
    | plain x s hx _ _ => exact ⟨_, _, rfl, hx⟩
    | plus x s hx _ _ => exact ⟨_, _, rfl, hx⟩
    | minus x s hx _ _ => exact ⟨_, _, rfl, hx⟩
  obtain ⟨x, s, rfl, hx⟩ := this
  simp only [List.cons_append, scanFracPart]
  rw [if_neg (by rcases hx with rfl | rfl <;> decide)]

theorem hexPrefix_none (ip t : Str) (hip : AllDigits ip) (ht : ∀ c, t.head? = some c → ¬ (c = 0x78 ∨ c = 0x58)) (h0 : ip = [] → t.head? ≠ some 0x30) :
    hexPrefix (ip ++ t) = none := by
  have hd : ∀ c, IsDigit c → ¬ (c = 0x78 ∨ c = 0x58) := by
    intro c hc
    rintro (rfl | rfl) <;> revert hc <;> unfold IsDigit <;> decide
  cases ip with
  | nil =>
    cases t with
    | nil => rfl
    | cons c t =>
      have : c ≠ 0x30 := by intro h; exact h0 rfl (by rw [h]; rfl)
      cases t with
      | nil => rfl
      | cons d t => simp only [List.nil_append, hexPrefix]; rw [if_neg (by tauto)]
  | cons a ip =>
    cases ip with
    | nil =>
      cases t with
      | nil => rfl
      | cons c t =>
        have := ht c rfl
        simp only [List.nil_append, List.cons_append, hexPrefix]; rw [if_neg (by tauto)]
    | cons b ip =>
      have := hd b (hip b (by simp))
      simp only [List.cons_append, hexPrefix]; rw [if_neg (by tauto)]

theorem dropWhile_append_map (a b : List Nat) : (a ++ b).dropWhile (· = 0) =
    if a.dropWhile (· = 0) = [] then b.dropWhile (· = 0) else a.dropWhile (· = 0) ++ b := by
  induction a with
  | nil => simp
  | cons x a ih =>
    by_cases h : x = 0
    · rw [List.cons_append, List.dropWhile_cons_of_pos (by simpa using h), ih, List.dropWhile_cons_of_pos (by simpa using h)]
    · rw [List.cons_append, List.dropWhile_cons_of_neg (by simpa using h), List.dropWhile_cons_of_neg (by simpa using h)]
      simp

theorem head_dropWhile (l : List Nat) : (l.dropWhile (· = 0)).head? ≠ some 0 := by
  intro hh
  have := List.head?_dropWhile_not (· = 0) l
  rw [hh] at this; simp at this

/-- the digits kept of a literal, and the exponent that goes with them -/
def kept (ip fp : Str) : List Nat := (significant (ip ++ fp)).take maxDigits

def keptExp (ip fp : Str) : Int := (((significant ip).length - maxDigits : Nat) : Int) - fp.length

theorem scan_frac (ip fp t : Str) (hip : AllDigits ip) (hfp : AllDigits fp) (ht : NoDigit t) (dot : Bool) (hnd : dot = false → fp = [])
    (hdot : dot = false → ∀ ds m, scanFracPart t ds m = (ds, m, false, t)) :
    (let (ds, m, s) := scanInt (skipZeros (ip ++ (fracText dot fp ++ t))).2 [] 0
     scanFracPart s ds m) = (kept ip fp, keptExp ip fp, dot, t) := by
  have hnd1 : NoDigit (fracText dot fp ++ t) := by
    unfold fracText
    cases dot with
    | false => simpa using ht
    | true => intro c hc; cases hc; rfl
  obtain ⟨s', h1, h2, h3, h4⟩ := skipZeros_ok ip (fracText dot fp ++ t) hip hnd1
  rw [h1]
  simp only
  rw [scanInt_ok s' _ h2 hnd1 [] 0 (by simp)]
  simp only [List.nil_append, List.length_nil, Nat.zero_add, Int.zero_add]
  have hsig : s'.map digitVal = significant ip := h4
  have hlen : s'.length = (significant ip).length := by rw [← hsig, List.length_map]
  rw [hsig, hlen]
  cases dot with
  | false =>
    have hf := hnd rfl
    subst hf
    simp only [fracText, Bool.false_eq_true, if_false, List.nil_append]
    rw [hdot rfl]
    unfold kept keptExp
    simp
  | true =>
    simp only [fracText, if_true, List.cons_append, scanFracPart]
    by_cases he : significant ip = []
    · rw [he]
      simp only [List.take_nil, List.length_nil, if_true]
      obtain ⟨f', g1, g2, g3, g4⟩ := skipZeros_ok fp t hfp ht
      rw [g1]
      simp only
      rw [scanFrac_ok f' t g2 ht [] _ (by simp)]
      have hk : kept ip fp = (f'.map digitVal).take maxDigits := by
        unfold kept significant
        rw [List.map_append, dropWhile_append_map]
        unfold significant at he
        rw [if_pos he, g4]
      have hx : keptExp ip fp = ((0 - maxDigits : Nat) : Int) - ((fp.length - f'.length : Nat) : Int) - f'.length := by
        unfold keptExp; rw [he, List.length_nil]; omega
      rw [hk, hx, List.nil_append]
    · have hne : (significant ip).take maxDigits ≠ [] := by
        intro h
        have := congrArg List.length h
        rw [List.length_take] at this
        have : (significant ip).length ≠ 0 := by simpa using he
        simp only [List.length_nil, maxDigits] at *; omega
      simp only [if_neg hne]
      rw [scanFrac_ok fp t hfp ht _ _ (by rw [List.length_take]; omega)]
      have hk : kept ip fp = ((significant ip).take maxDigits ++ fp.map digitVal).take maxDigits := by
        unfold kept
        have : significant (ip ++ fp) = significant ip ++ fp.map digitVal := by
          unfold significant
          rw [List.map_append, dropWhile_append_map]
          unfold significant at he
          rw [if_neg he]
        rw [this]
        rw [List.take_append, List.take_append, List.take_take, Nat.min_self]
        congr 1
        by_cases hl : (significant ip).length ≤ maxDigits
        · rw [List.take_of_length_le hl]
        · rw [List.length_take, show maxDigits - (significant ip).length = maxDigits - min maxDigits (significant ip).length by omega]
      have hx : keptExp ip fp = (((significant ip).length - maxDigits : Nat) : Int) - ((0 : Nat) : Int) - fp.length := by
        unfold keptExp; omega
      rw [hk, hx]

theorem significant_len (s : Str) : (significant s).length ≤ s.length := by
  have := (List.dropWhile_sublist (l := s.map digitVal) (· = 0)).length_le
  rw [List.length_map] at this
  exact this

theorem significant_append_len (a b : Str) : (significant (a ++ b)).length ≤ (significant a).length + b.length := by
  unfold significant
  rw [List.map_append, dropWhile_append_map]
  have h1 := (List.dropWhile_sublist (l := b.map digitVal) (· = 0)).length_le
  rw [List.length_map] at h1
  split
  · omega
  · rw [List.length_append, List.length_map]

theorem getNumber_float (word : Nat) (ip fp ex suf rest : Str) (dot : Bool) (e : Int) (hf : FloatText ip dot fp ex e) (hs : FloatSuffix suf)
    (hr : AfterFloat ex suf rest) :
    (∃ r, getNumber true word (ip ++ fracText dot fp ++ ex ++ suf ++ rest) = .ok (.float, r, rest) ∧
      RoundedDec (posVal 10 (kept ip fp)) (e + keptExp ip fp) r) ∨
    (getNumber true word (ip ++ fracText dot fp ++ ex ++ suf ++ rest) = .error .tooBig ∧ 2 ^ 31 - 1 < e.natAbs + ip.length + fp.length) := by
  obtain ⟨hip, hfp, hsome, nodot, hex, hfl⟩ := hf
  have hnd := afterFloat_noDigit hr hs
  have hnd2 := noDigit_exp hex hnd
  have hdot : dot = false → ∀ ds m, scanFracPart (ex ++ (suf ++ rest)) ds m = (ds, m, false, ex ++ (suf ++ rest)) := by
    intro hd ds m
    rcases hfl with h | h
    · rw [hd] at h; cases h
    · exact noDot_exp hex h ds m
  have hscan := scan_frac ip fp (ex ++ (suf ++ rest)) hip hfp hnd2 dot nodot hdot
  have hpre : hexPrefix (ip ++ (fracText dot fp ++ (ex ++ (suf ++ rest)))) = none := by
    apply hexPrefix_none ip _ hip
    · intro c hc
      cases dot with
      | true => simp only [fracText, if_true, List.cons_append] at hc; cases hc; decide
      | false =>
        have hne : ex ≠ [] := by simpa using hfl
        simp only [fracText, Bool.false_eq_true, if_false, List.nil_append] at hc
        cases hex with
        | none => exact absurd rfl hne
        | plain x s hx _ _ => cases hc; rcases hx with rfl | rfl <;> decide
        | plus x s hx _ _ => cases hc; rcases hx with rfl | rfl <;> decide
        | minus x s hx _ _ => cases hc; rcases hx with rfl | rfl <;> decide
    · intro hi
      cases dot with
      | true => simp [fracText]
      | false => exact absurd (nodot rfl) (by simpa [hi] using hsome)
  have hkd : ∀ d ∈ kept ip fp, d ≤ 9 := by
    intro d hd
    have h1 := List.mem_of_mem_take hd
    unfold significant at h1
    have h2 := (List.dropWhile_sublist (· = 0)).mem h1
    obtain ⟨c, hc, rfl⟩ := List.mem_map.1 h2
    apply digit_le
    rw [isDigit_iff]
    rcases List.mem_append.1 hc with hc | hc
    · exact hip c hc
    · exact hfp c hc
  have hkl : (kept ip fp).length ≤ maxDigits := by unfold kept; rw [List.length_take]; omega
  have hk0 : (kept ip fp).head? ≠ some 0 := by
    unfold kept significant
    rw [List.head?_take, if_neg (by decide)]
    exact head_dropWhile _
  have hklen : (kept ip fp).length ≤ maxDigits ∧ (kept ip fp).length ≤ (significant (ip ++ fp)).length := by
    unfold kept; rw [List.length_take]; omega
  have hsl := significant_append_len ip fp
  have hsi := significant_len ip
  rw [List.append_assoc, List.append_assoc, List.append_assoc]
  unfold getNumber
  rw [hpre]
  simp only
  unfold decimal
  obtain ⟨ds0, m0, s0, h0⟩ : ∃ a b c, scanInt (skipZeros (ip ++ (fracText dot fp ++ (ex ++ (suf ++ rest))))).2 [] 0 = (a, b, c) := ⟨_, _, _, rfl⟩
  rw [h0] at hscan ⊢
  simp only at hscan ⊢
  rw [hscan]
  simp only
  rcases scanExpPart_ok ex e hex (suf ++ rest) hnd (afterFloat_noExp hr hs) with ⟨cnt, hx, hcnt⟩ | ⟨hx, hbig⟩
  · rw [hx]
    simp only
    have hif : dot = true ∨ cnt ≠ 0 := by
      rcases hfl with h | h
      · exact Or.inl h
      · exact Or.inr (fun h0 => h (hcnt.1 h0))
    rw [if_pos hif]
    rcases endFloat_ok (kept ip fp) hkd hkl hk0 (keptExp ip fp) e suf rest hs (fun h c hc => (hr h c hc).2.1) with h | ⟨h, hb⟩
    · exact Or.inl h
    · refine Or.inr ⟨h, ?_⟩
      unfold keptExp maxDigits at *
      omega
  · rw [hx]
    exact Or.inr ⟨rfl, by omega⟩

theorem significant_prefix (a b : Str) : (significant a).length ≤ (significant (a ++ b)).length := by
  unfold significant
  rw [List.map_append, dropWhile_append_map]
  split
  · rename_i h; rw [h]; simp
  · rw [List.length_append]; omega

theorem octal_bad (word : Nat) (hw : word = 2 ∨ word = 4) (s : Str) (hs : AllDigits s) (h8 : ∃ c ∈ s, 8 ≤ digitVal c)
    (rest : Str) (hr : ∀ c, rest.head? = some c → ¬ Continues c) : ∃ e, getNumber true word (0x30 :: s ++ rest) = .error e := by
  have ha := afterInt [] false false .none rest hr
  rw [List.nil_append] at ha
  have hall : AllDigits (0x30 :: s) := by
    intro x hx
    rcases List.mem_cons.1 hx with rfl | hx
    · unfold IsDigit; decide
    · exact hs x hx
  have hx : hexPrefix (0x30 :: s ++ rest) = none :=
    hexPrefix_none (0x30 :: s) rest hall (fun c hc => by have := ha c hc; tauto) (fun h => by simp at h)
  have hl : (decide ((0x30 :: s ++ rest).head? = some 0x30)) = true := by simp
  unfold getNumber
  rw [hx]
  simp only [hl]
  obtain ⟨s', h1, h2, h3, h4⟩ := skipZeros_ok (0x30 :: s) rest hall ha.noDigit
  unfold decimal
  rw [h1]
  simp only
  rw [scanInt_ok s' _ h2 ha.noDigit [] 0 (by simp)]
  simp only [ha.frac, ha.exp]
  rw [if_neg (by simp)]
  simp only [List.nil_append, if_true]
  have hbad : ∃ d ∈ s'.map digitVal, 8 ≤ d := by
    rw [h4]
    obtain ⟨c, hc, h8⟩ := h8
    have : digitVal c ∈ (0x30 :: s).map digitVal := List.mem_map.2 ⟨c, by simp [hc], rfl⟩
    rw [← List.takeWhile_append_dropWhile (p := (· = 0)) (l := (0x30 :: s).map digitVal), List.mem_append] at this
    rcases this with h | h
    · rw [takeWhile_zeros] at h
      have := (List.mem_replicate.1 h).2
      omega
    · exact ⟨_, h, h8⟩
  have hhead : (s'.map digitVal).head? ≠ some 0 := by rw [h4]; exact head_dropWhile _
  generalize s'.map digitVal = ds at *
  by_cases hb : ∃ d ∈ ds.take maxDigits, 8 ≤ d
  · obtain ⟨e, he⟩ := intVal_bad _ hb 0
    rw [he]; exact ⟨_, rfl⟩
  · have hlt : ∀ d ∈ ds.take maxDigits, d < 8 := fun d hd => by
      apply Nat.lt_of_not_le; intro h; exact hb ⟨d, hd, h⟩
    have hlen : maxDigits < ds.length := by
      apply Nat.lt_of_not_le; intro h
      rw [List.take_of_length_le h] at hb; exact hb hbad
    rw [intVal_ok 8 (Or.inl rfl) _ hlt 0 (by decide), ext_zero]
    have := (take_big 8 (Or.inl rfl) ds hhead hlen).1
    rw [if_neg (by omega)]
    exact ⟨_, rfl⟩

end Smlr.Number
