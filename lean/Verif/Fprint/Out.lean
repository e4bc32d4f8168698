import Verif.Fprint.Scient

set_option autoImplicit false
/- the text printed -/
namespace Smlr.Fprint
open Spec

/-! ### trailing zeroes -/

theorem stripLoop_ok (b : List Nat) (i0 : Nat) (F : List Nat) : (∀ i, i < F.length → b.getD (i0 + 1 + i) 0 = F.getD i 0) →
    stripLoop b i0 F.length = (F.rdropWhile (· = 48)).length := by
  induction F using List.reverseRecOn with
  | nil => intro _; rfl
  | append_singleton l a ih =>
    intro h
    have ha : b.getD (i0 + l.length + 1) 0 = a := by
      have h1 := h l.length (by simp)
      rw [getD_append_ge _ _ _ (Nat.le_refl _), Nat.sub_self] at h1
      rw [show i0 + l.length + 1 = i0 + 1 + l.length by omega, h1]; rfl
    rw [List.length_append, List.length_singleton, stripLoop, ha, List.rdropWhile_concat]
    by_cases h48 : a = 48
    · rw [if_pos h48, if_pos (by simpa using h48)]
      apply ih
      intro i hi
      rw [h i (by simp; omega), getD_append_lt _ _ _ hi]
    · rw [if_neg h48, if_neg (by simpa using h48), List.length_append, List.length_singleton]

theorem rdrop_zeroes (l : List Nat) (k : Nat) : (l ++ List.replicate k 48).rdropWhile (· = 48) = l.rdropWhile (· = 48) := by
  induction k with
  | zero => simp
  | succ k ih =>
    rw [List.replicate_succ', ← List.append_assoc, List.rdropWhile_concat, if_pos (by simp), ih]

theorem strip_ok {p : Parts} {I F : List Nat} (h : Shows p I F) (hi : 1 ≤ p.icnt) :
    Shows (strip false p) I (F.rdropWhile (· = 48)) ∧ (strip false p).fz = 0 ∧ (strip false p).exp = p.exp ∧
      (strip false p).icnt = p.icnt ∧ (strip false p).fcnt ≤ p.fcnt ∧
      (strip false p).dot = if F.rdropWhile (· = 48) = [] then false else p.dot := by
  have hF : ∀ i, i < F.length → p.buf.getD ((if p.buf.getD 0 0 = 48 then 1 else 0) + p.icnt - 1 + 1 + i) 0 = F.getD i 0 := by
    intro i hi2
    have h1 : (ds p.buf).getD (p.icnt + i) 0 = F.getD i 0 := by
      rw [← getD_take _ (p.icnt + p.fcnt) _ (by rw [h.fcnt]; omega), h.txt, getD_append_ge _ _ _ (by rw [h.icnt]; omega), ← h.icnt,
        Nat.add_sub_cancel_left]
    rw [← h1, ds, getD_drop]
    congr 1
    omega
  have h1 := stripLoop_ok p.buf _ F hF
  rw [← h.fcnt] at h1
  have hle : (F.rdropWhile (· = 48)).length ≤ F.length := (List.rdropWhile_prefix _ F).length_le
  unfold strip
  rw [if_neg (by simp)]
  dsimp only
  rw [h1]
  refine ⟨⟨?_, h.icnt, rfl, h.iz, ?_⟩, rfl, rfl, rfl, ?_, ?_⟩
  · have := h.len
    have := h.fcnt
    show p.icnt + (F.rdropWhile (· = 48)).length ≤ (ds p.buf).length
    omega
  · show (ds p.buf).take (p.icnt + (F.rdropWhile (· = 48)).length) = _
    have h2 := congrArg (List.take (p.icnt + (F.rdropWhile (· = 48)).length)) h.txt
    rw [List.take_take, Nat.min_eq_left (by have := h.fcnt; omega)] at h2
    rw [h2, h.icnt, List.take_length_add_append, ← List.prefix_iff_eq_take.1 (List.rdropWhile_prefix _ F)]
  · show (F.rdropWhile (· = 48)).length ≤ p.fcnt
    rw [h.fcnt]; exact hle
  · by_cases h0 : F.rdropWhile (· = 48) = []
    · rw [h0]; rfl
    · rw [if_neg h0, if_neg (by rwa [List.length_eq_zero_iff])]

/-! ### output -/

/-- the text of the parts -/
def txt (p : Parts) (I F : List Nat) : List Nat :=
  I ++ (if p.dot then [46] else []) ++ F ++ List.replicate p.fz 48 ++ p.exp

theorem output_ok (f : Field) (zero : Bool) (sgn : Nat) (s : List Nat) (hs : s = if sgn ≠ 0 then [sgn] else []) (W : Int)
    (hW : f.width = W.toNat) (p : Parts) (I F : List Nat) (h : Shows p I F) (hlen : s.length + (txt p I F).length < 2 ^ 31) :
    output f.left sgn (zero && !f.left) W p = some (place f zero s (txt p I F)) := by
  have hl : (if sgn ≠ 0 then 1 else 0) + p.icnt + p.iz + (if p.dot then 1 else 0) + p.fcnt + p.fz + p.exp.length =
      s.length + (txt p I F).length := by
    rw [hs, h.iz, h.icnt, h.fcnt, txt]
    by_cases h1 : sgn ≠ 0 <;> by_cases h2 : p.dot = true <;> simp [h1, h2] <;> omega
  have hI : (ds p.buf).take p.icnt = I := by
    have h2 := congrArg (List.take p.icnt) h.txt
    rw [List.take_take, Nat.min_eq_left (by omega), h.icnt, List.take_left] at h2
    rw [h.icnt]; exact h2
  have hF : ((ds p.buf).drop p.icnt).take p.fcnt = F := by
    have h2 := congrArg (List.drop p.icnt) h.txt
    rw [List.drop_take, Nat.add_sub_cancel_left, h.icnt, List.drop_left] at h2
    rw [h.icnt]; exact h2
  unfold output
  rw [hl, int, if_pos hlen, Option.bind_some]
  show (if p.icnt + p.fcnt ≤ (ds p.buf).length then some ((if !f.left && !(zero && !f.left) then _ else []) ++ _ ++ _ ++
    (ds p.buf).take p.icnt ++ _ ++ _ ++ ((ds p.buf).drop p.icnt).take p.fcnt ++ _ ++ _ ++ _) else none) = _
  rw [if_pos h.len, hI, hF, h.iz]
  have hp : (W - (s.length + (txt p I F).length : Nat)).toNat = f.width - (s.length + (txt p I F).length) := by omega
  rw [hp, ← hs]
  congr 1
  unfold place txt
  cases f.left <;> cases zero <;> simp

theorem txt_len {p : Parts} {I F : List Nat} (h : Shows p I F) :
    (txt p I F).length ≤ p.icnt + 1 + (p.fcnt + p.fz) + p.exp.length := by
  have h1 := h.icnt
  have h2 := h.fcnt
  have h3 : (if p.dot = true then [46] else []).length ≤ 1 := by split <;> simp
  rw [txt]
  simp only [List.length_append, List.length_replicate]
  omega

theorem expText_ok (upper : Bool) (X : Int) (h1 : -45 ≤ X) (h2 : X ≤ 39) : expText upper X = expo upper X := by
  have h3 : X.natAbs < 100 := by omega
  unfold expText expo
  rw [if_pos h3]
  show _ = _ ++ ([] ++ [48 + X.natAbs / 10 % 10] ++ [48 + X.natAbs % 10])
  rw [Nat.mod_eq_of_lt (by omega : X.natAbs / 10 < 10), Nat.add_comm _ 48, Nat.add_comm _ 48]
  rfl

theorem frac_text (alt : Bool) (P fcnt fz n : Nat) (hP : fcnt + fz = P) :
    (if (decide (P ≠ 0) || alt) = true then [46] else []) ++ pad fcnt n ++ List.replicate fz 48 = frac alt P (n * 10 ^ fz) := by
  subst hP
  rw [frac, pad_shift, List.append_assoc]
  congr 1
  by_cases h : fcnt + fz ≠ 0 <;> cases alt <;> simp_all

theorem int_text (P fcnt fz n : Nat) (hP : fcnt + fz = P) : n * 10 ^ fz / 10 ^ P = n / 10 ^ fcnt := by
  subst hP
  rw [Nat.pow_add, Nat.mul_div_mul_right _ _ (pow_pos10 _)]

/-- with and without trailing zeroes -/
theorem strip_text (alt : Bool) {p : Parts} {I : List Nat} {P n : Nat} (h : Shows p I (pad p.fcnt n)) (hi : 1 ≤ p.icnt)
    (hd : p.dot = (decide (P ≠ 0) || alt)) (hP : p.fcnt + p.fz = P) :
    ∃ F, Shows (strip alt p) I F ∧ txt (strip alt p) I F = I ++ fracG alt P (n * 10 ^ p.fz) ++ p.exp ∧
      (txt (strip alt p) I F).length ≤ p.icnt + 1 + P + p.exp.length := by
  cases alt with
  | true =>
    refine ⟨pad p.fcnt n, h, ?_, ?_⟩
    · show txt p _ _ = _
      rw [txt, hd, fracG, if_pos rfl, ← frac_text true P p.fcnt p.fz n hP]
      simp only [List.append_assoc]
    · rw [← hP]; exact txt_len h
  | false =>
    obtain ⟨s1, s2, s3, s4, s5, s6⟩ := strip_ok h hi
    refine ⟨_, s1, ?_, by have := txt_len s1; rw [s2, s3, s4] at this; omega⟩
    have e : (pad P (n * 10 ^ p.fz)).rdropWhile (· = 48) = (pad p.fcnt n).rdropWhile (· = 48) := by
      rw [← hP, pad_shift, rdrop_zeroes]
    have hfg : fracG false P (n * 10 ^ p.fz) = if (pad P (n * 10 ^ p.fz)).rdropWhile (· = 48) = [] then [] else
      46 :: (pad P (n * 10 ^ p.fz)).rdropWhile (· = 48) := rfl
    rw [txt, s6, s2, s3, hfg]
    rw [e]
    by_cases h0 : (pad p.fcnt n).rdropWhile (· = 48) = []
    · rw [if_pos h0, if_pos h0, h0]; simp
    · have hp0 : P ≠ 0 := by
        intro hP0
        have : p.fcnt = 0 := by omega
        rw [this] at h0
        exact h0 rfl
      have hd1 : p.dot = true := by rw [hd]; simp [hp0]
      rw [if_neg h0, if_neg h0, hd1]
      simp

theorem sci_shows {P : Nat} {v : ℚ} {r : List Nat × Int × Nat × Nat} {n : Nat} (h : Sd P v r n) (dot : Bool) (e : List Nat) :
    Shows ⟨r.1, 1, 0, dot, r.2.2.1, r.2.2.2, e⟩ (dec (n / 10 ^ r.2.2.1)) (pad r.2.2.1 n) := by
  have h1 : n / 10 ^ r.2.2.1 < 10 ^ (0 + 1) := by
    rw [Nat.div_lt_iff_lt_mul (pow_pos10 _), ← Nat.pow_add]
    have := h.lt
    rw [show 0 + 1 + r.2.2.1 = r.2.2.1 + 1 by omega]; exact this
  have hdec : dec (n / 10 ^ r.2.2.1) = pad 1 (n / 10 ^ r.2.2.1) := dec_pad 0 _ h1 (Or.inl rfl)
  refine ⟨?_, ?_, ?_, rfl, ?_⟩
  · have h2 := (ds_len h.len).1
    have h3 := h.le
    show 1 + r.2.2.1 ≤ (ds r.1).length
    omega
  · rw [hdec]; rfl
  · rw [pad_len]
  · show (ds r.1).take (1 + r.2.2.1) = _
    rw [h.txt, hdec, pad_add]

/-- the letter of a conversion, in lower case -/
def code : Style → Nat
  | .e => 101
  | .f => 102
  | .g => 103

theorem take1 {buf : List Nat} (h : buf.length = 152) : (buf.set 0 48).take 1 = [48] := by
  cases buf with
  | nil => cases h
  | cons a b => rfl

/-- doprint.c:96-223 -/
theorem finite_ok (D : Nat) (hD : 2 ^ 149 = D) (x : Nat) (hx : Rep x) (junk : List Nat) (hj : junk.length = 152)
    (alt upper : Bool) (prec : Int) (p : Option Nat) (hp : p = if prec < 0 then none else some prec.toNat) (hP : prec < 2 ^ 31 - 100) (st : Style) :
    ∃ q I F, finite x (junk.set 0 48) alt upper prec (code st) = some q ∧ Shows q I F ∧ (txt q I F).length < 2 ^ 31 - 1 ∧
      Text false alt upper ((x : ℚ) / D) p st (txt q I F) := by
  have hl : (junk.set 0 48).length = 152 := by rw [List.length_set]; exact hj
  have ht := take1 hj
  have hpn : p.getD 6 = if prec < 0 then 6 else prec.toNat := by rw [hp]; split <;> rfl
  have hlt : p.getD 6 < 2 ^ 31 - 100 := by rw [hpn]; split <;> omega
  cases st with
  | f =>
    obtain ⟨q, M, q1, q2, q3, q4, q5, q6, q7⟩ := fixed_ok D hD x hx _ hl ht alt (p.getD 6) (by omega)
    refine ⟨q, _, _, ?_, q2, ?_, ?_⟩
    · rw [finite, if_neg (by decide)]
      dsimp only
      rw [if_pos (by rfl), ← hpn]
      exact q1
    · have := txt_len q2
      rw [q6, q4, List.length_nil] at this
      omega
    · have e : txt q (dec (M / 10 ^ q.fcnt)) (pad q.fcnt M) =
          dec (M * 10 ^ q.fz / 10 ^ (p.getD 6)) ++ frac alt (p.getD 6) (M * 10 ^ q.fz) := by
        rw [int_text _ _ _ _ q4, ← frac_text alt _ _ _ _ q4, txt, q5, q6]
        simp only [List.append_assoc, List.append_nil]
      rw [e]
      exact Text.f q7
  | e =>
    obtain ⟨r, n, r1, r2⟩ := scient_ok D hD x hx _ hl ht (p.getD 6) (by omega)
    refine ⟨_, _, _, ?_, sci_shows r2 (decide (p.getD 6 ≠ 0) || alt) (expText upper r.2.1), ?_, ?_⟩
    · rw [finite, if_neg (by decide)]
      dsimp only
      rw [if_neg (by decide), ← hpn, r1, Option.bind_some]
    · have h1 := txt_len (sci_shows r2 (decide (p.getD 6 ≠ 0) || alt) (expText upper r.2.1))
      have h4 : (expText upper r.2.1).length = 4 := rfl
      dsimp only at h1
      rw [r2.fc, h4] at h1
      omega
    · have e : txt ⟨r.1, 1, 0, decide (p.getD 6 ≠ 0) || alt, r.2.2.1, r.2.2.2, expText upper r.2.1⟩ (dec (n / 10 ^ r.2.2.1)) (pad r.2.2.1 n) =
          dec (n * 10 ^ r.2.2.2 / 10 ^ (p.getD 6)) ++ frac alt (p.getD 6) (n * 10 ^ r.2.2.2) ++ expo upper r.2.1 := by
        rw [int_text _ _ _ _ r2.fc, ← frac_text alt _ _ _ _ r2.fc, txt, expText_ok upper _ r2.lo r2.hi]
        simp only [List.append_assoc]
      rw [e]
      exact Text.e r2.sci
  | g =>
    have hgp : (if prec < 0 then 6 else if prec = 0 then 1 else prec.toNat) = max 1 (p.getD 6) := by
      rw [hpn]; split
      · rfl
      · split <;> omega
    generalize hG : max 1 (p.getD 6) = G at *
    have hG1 : 1 ≤ G := by omega
    obtain ⟨r, n, r1, r2⟩ := scient_ok D hD x hx _ hl ht (G - 1) (by omega)
    by_cases hc : r.2.1 ≥ -4 ∧ (G : Int) > r.2.1
    · have hq : (((G : Int) - (r.2.1 + 1)).toNat : ℤ) = (G : ℤ) - (r.2.1 + 1) := by omega
      generalize hPq : ((G : Int) - (r.2.1 + 1)).toNat = Pq at hq
      have hl2 : (r.1.set 0 48).length = 152 := by rw [List.length_set]; exact r2.len
      obtain ⟨q, M, q1, q2, q3, q4, q5, q6, q7⟩ := fixed_ok D hD x hx _ hl2 (take1 r2.len) alt Pq (by omega)
      have hi1 : 1 ≤ q.icnt := by
        rw [q2.icnt]
        unfold dec; split
        · simp
        · simp
      obtain ⟨F, s1, s2, s3⟩ := strip_text alt q2 hi1 q5 q4
      refine ⟨strip alt q, _, F, ?_, s1, ?_, ?_⟩
      · rw [finite, if_pos (by rfl)]
        dsimp only
        rw [hgp, r1, Option.bind_some, if_pos hc, hPq, q1, Option.bind_some]
      · rw [q6, List.length_nil] at s3
        omega
      · rw [s2, q6, List.append_nil, ← int_text Pq q.fcnt q.fz M q4]
        refine Text.gf (k := r.2.1) (n := n * 10 ^ r.2.2.2) ?_ hc.1 ?_ q7
        · rw [hG]; exact r2.sci
        · rw [hG]; omega
    · have hs := sci_shows r2 (decide (G - 1 ≠ 0) || alt) (expText upper r.2.1)
      obtain ⟨F, s1, s2, s3⟩ := strip_text alt hs (Nat.le_refl 1) rfl r2.fc
      refine ⟨_, _, F, ?_, s1, ?_, ?_⟩
      · rw [finite, if_pos (by rfl)]
        dsimp only
        rw [hgp, r1, Option.bind_some, if_neg hc]
      · have h4 : (expText upper r.2.1).length = 4 := rfl
        dsimp only at s3
        rw [h4] at s3
        omega
      · rw [s2]
        dsimp only
        rw [← int_text (G - 1) r.2.2.1 r.2.2.2 n r2.fc, expText_ok upper _ r2.lo r2.hi]
        have e := Text.ge (full := false) (alt := alt) (upper := upper) (x := (x : ℚ) / D) (p := p) (n := n * 10 ^ r.2.2.2) (k := r.2.1)
          (by rw [hG]; exact r2.sci) (by rw [hG]; omega)
        rw [hG] at e
        exact e

end Smlr.Fprint
