import Verif.Number.D2fOk
set_option autoImplicit false
namespace Smlr.Number

/-- value after more digits -/
def ext (base n : Nat) (ds : List Nat) : Nat := ds.foldl (fun a d => a * base + d) n

theorem ext_ge (base : Nat) (hb : 1 ≤ base) (ds : List Nat) : ∀ n, n ≤ ext base n ds := by
  induction ds with
  | nil => intro n; exact Nat.le_refl _
  | cons d ds ih =>
    intro n
    refine Nat.le_trans ?_ (ih (n * base + d))
    exact Nat.le_trans (Nat.le_mul_of_pos_right _ hb) (Nat.le_add_right _ _)

theorem ovf_ok (n base d : Nat) (hn : n < 2 ^ 32) (hb : base = 8 ∨ base = 10 ∨ base = 16) (hd : d < base) :
    ovf n base d = decide (2 ^ 32 ≤ n * base + d) := by
  unfold ovf u32
  by_cases h : 2 ^ 32 ≤ n * base + d
  · simp only [h, decide_true, Bool.or_eq_true, decide_eq_true_eq]
    rcases hb with rfl | rfl | rfl <;> omega
  · simp only [h, decide_false, Bool.or_eq_false_iff, decide_eq_false_iff_not]
    rcases hb with rfl | rfl | rfl <;> omega

theorem hexVal_iff (c : UInt8) (d : Nat) : hexVal c = some d ↔ HexDigit c d := by
  unfold hexVal HexDigit isDigit
  simp only [Bool.and_eq_true, decide_eq_true_eq]
  split
  · rw [Option.some_inj]; omega
  · split
    · rw [Option.some_inj]; omega
    · split
      · rw [Option.some_inj]; omega
      · simp only [reduceCtorEq, false_iff]; omega

theorem hexVal_none (c : UInt8) (h : ¬ ∃ d, HexDigit c d) : hexVal c = none := by
  cases hv : hexVal c with
  | none => rfl
  | some d => exact absurd ⟨d, (hexVal_iff c d).1 hv⟩ h

theorem hexDigits_map {s : Str} {ds : List Nat} (h : HexDigits s ds) : s.map hexVal = ds.map some := by
  induction h with
  | nil => rfl
  | cons c d s ds hc _ ih => rw [List.map_cons, List.map_cons, ih, (hexVal_iff c d).2 hc]

theorem hexDigits_lt {s : Str} {ds : List Nat} (h : HexDigits s ds) : ∀ d ∈ ds, d < 16 := by
  induction h with
  | nil => simp
  | cons c d s ds hc _ ih =>
    intro x hx
    rcases List.mem_cons.1 hx with rfl | hx
    · unfold HexDigit at hc; omega
    · exact ih x hx

theorem isDigit_iff (c : UInt8) : isDigit c = true ↔ IsDigit c := by
  simp only [isDigit, IsDigit, Bool.and_eq_true, decide_eq_true_eq]

theorem scanHex_ok (cs ds) (h : cs.map hexVal = ds.map some) (rest : Str) (hr : ∀ c, rest.head? = some c → hexVal c = none) (hd : ∀ d ∈ ds, d < 16) :
    ∀ n cnt, n < 2 ^ 32 → scanHex true (cs ++ rest) n cnt = if ext 16 n ds < 2 ^ 32 then .ok (ext 16 n ds, cnt + cs.length, rest) else .error .tooBig := by
  induction cs generalizing ds with
  | nil =>
    intro n cnt hn
    cases ds with
    | cons _ _ => simp at h
    | nil =>
      rw [if_pos (by exact hn)]
      cases rest with
      | nil => rfl
      | cons c rest => simp only [List.nil_append, scanHex, hr c rfl]; rfl
  | cons c cs ih =>
    intro n cnt hn
    cases ds with
    | nil => simp at h
    | cons d ds =>
      simp only [List.map_cons, List.cons.injEq] at h
      have hd16 := hd d (by simp)
      simp only [List.cons_append, scanHex, h.1]
      rw [ovf_ok n 16 d hn (by omega) hd16]
      have e : ext 16 n (d :: ds) = ext 16 (n * 16 + d) ds := rfl
      by_cases ho : 2 ^ 32 ≤ n * 16 + d
      · rw [if_pos (by simp only [Bool.true_and, decide_eq_true_eq]; exact ho), if_neg]
        have := ext_ge 16 (by omega) ds (n * 16 + d)
        rw [e]; omega
      · rw [if_neg (by simp only [Bool.true_and, decide_eq_true_eq]; exact ho)]
        have hu : u32 (n * 16 + d) = n * 16 + d := Nat.mod_eq_of_lt (by omega)
        rw [hu, ih ds h.2 (fun x hx => hd x (by simp [hx])) _ _ (by omega), e, List.length_cons]
        by_cases hf : ext 16 (n * 16 + d) ds < 2 ^ 32
        · rw [if_pos hf, if_pos hf]
          rw [show cnt + 1 + cs.length = cnt + (cs.length + 1) by omega]
        · rw [if_neg hf, if_neg hf]

theorem intVal_ok (base : Nat) (hb : base = 8 ∨ base = 10) (ds : List Nat) (hd : ∀ d ∈ ds, d < base) :
    ∀ n, n < 2 ^ 32 → intVal true base ds n = if ext base n ds < 2 ^ 32 then .ok (ext base n ds) else .error .tooBig := by
  induction ds with
  | nil => intro n hn; rw [if_pos (by exact hn)]; rfl
  | cons d ds ih =>
    intro n hn
    have hdb := hd d (by simp)
    simp only [intVal]
    rw [if_neg (by omega), ovf_ok n base d hn (by omega) hdb]
    have e : ext base n (d :: ds) = ext base (n * base + d) ds := rfl
    by_cases ho : 2 ^ 32 ≤ n * base + d
    · rw [if_pos (by simp only [Bool.true_and, decide_eq_true_eq]; exact ho), if_neg]
      have := ext_ge base (by omega) ds (n * base + d)
      rw [e]; omega
    · rw [if_neg (by simp only [Bool.true_and, decide_eq_true_eq]; exact ho)]
      have hu : u32 (n * base + d) = n * base + d := Nat.mod_eq_of_lt (by omega)
      rw [hu, ih (fun x hx => hd x (by simp [hx])) _ (by omega), e]

theorem intVal_bad (ds : List Nat) (hd : ∃ d ∈ ds, 8 ≤ d) : ∀ n, ∃ e, intVal true 8 ds n = .error e := by
  induction ds with
  | nil => simp at hd
  | cons d ds ih =>
    intro n
    simp only [intVal]
    by_cases h8 : d ≥ 8
    · rw [if_pos h8]; exact ⟨_, rfl⟩
    · rw [if_neg h8]
      obtain ⟨x, hx, hx8⟩ := hd
      simp only [List.mem_cons] at hx
      rcases hx with rfl | hx
      · exact absurd hx8 h8
      · by_cases ho : (true && ovf n 8 d) = true
        · rw [if_pos ho]; exact ⟨_, rfl⟩
        · rw [if_neg ho]; exact ih ⟨x, hx, hx8⟩ _

/-! ### digits -/

def NoDigit (t : Str) : Prop := ∀ c, t.head? = some c → isDigit c = false

theorem digit_le {c : UInt8} (h : isDigit c = true) : digitVal c ≤ 9 := by
  simp only [isDigit, Bool.and_eq_true, decide_eq_true_eq] at h
  unfold digitVal; omega

theorem digit_zero {c : UInt8} (h : isDigit c = true) : digitVal c = 0 ↔ c = 0x30 := by
  simp only [isDigit, Bool.and_eq_true, decide_eq_true_eq] at h
  unfold digitVal
  constructor
  · intro h0
    apply UInt8.toNat_inj.1
    rw [show (0x30 : UInt8).toNat = 0x30 by rfl]; omega
  · rintro rfl; rfl

theorem skipZeros_ok (s t : Str) (hs : AllDigits s) (ht : NoDigit t) :
    ∃ s', skipZeros (s ++ t) = (s.length - s'.length, s' ++ t) ∧ AllDigits s' ∧ s'.length ≤ s.length ∧ s'.map digitVal = (s.map digitVal).dropWhile (· = 0) := by
  induction s with
  | nil =>
    refine ⟨[], ?_, hs, Nat.le_refl _, rfl⟩
    cases t with
    | nil => rfl
    | cons c t =>
      have := ht c rfl
      simp only [List.nil_append, skipZeros]
      rw [if_neg (by rintro rfl; exact absurd this (by decide))]
      rfl
  | cons c s ih =>
    have hc := (isDigit_iff c).2 (hs c (by simp))
    obtain ⟨s', h1, h2, h3, h4⟩ := ih (fun x hx => hs x (by simp [hx]))
    simp only [List.cons_append, skipZeros]
    by_cases h0 : c = 0x30
    · rw [if_pos h0, h1]
      refine ⟨s', ?_, h2, by rw [List.length_cons]; omega, ?_⟩
      · simp only [List.length_cons]; rw [show s.length - s'.length + 1 = s.length + 1 - s'.length by omega]
      · rw [List.map_cons, List.dropWhile_cons_of_pos (by simpa using (digit_zero hc).2 h0)]; exact h4
    · rw [if_neg h0]
      refine ⟨c :: s, by simp, hs, Nat.le_refl _, ?_⟩
      rw [List.map_cons, List.dropWhile_cons_of_neg]
      simpa using fun h => h0 ((digit_zero hc).1 h)

theorem scanInt_ok (s t : Str) (hs : AllDigits s) (ht : NoDigit t) : ∀ (ds : List Nat) (m : Int), ds.length ≤ maxDigits →
    scanInt (s ++ t) ds m = ((ds ++ s.map digitVal).take maxDigits, m + ((ds.length + s.length - maxDigits : Nat) : Int), t) := by
  induction s with
  | nil =>
    intro ds m hl
    rw [show ((ds.length + [].length - maxDigits : Nat) : Int) = 0 by simp only [List.length_nil]; omega, Int.add_zero, List.map_nil, List.append_nil, List.take_of_length_le hl]
    cases t with
    | nil => rfl
    | cons c t =>
      have := ht c rfl
      simp only [List.nil_append, scanInt]
      rw [if_neg (by simp [this])]
  | cons c s ih =>
    intro ds m hl
    have hc := (isDigit_iff c).2 (hs c (by simp))
    have ih := ih (fun x hx => hs x (by simp [hx]))
    simp only [List.cons_append, scanInt]
    rw [if_pos hc]
    by_cases h : ds.length < maxDigits
    · rw [if_pos h, ih _ _ (by simp; omega)]
      simp only [List.length_append, List.length_cons, List.length_nil, List.map_cons, List.append_assoc, List.cons_append, List.nil_append]
      rw [show ds.length + (0 + 1) + s.length = ds.length + (s.length + 1) by omega]
      rfl
    · rw [if_neg h, ih _ _ hl]
      have e : ds.length = maxDigits := by omega
      rw [List.take_append_of_le_length (by omega), List.take_append_of_le_length (by omega)]
      rw [List.length_cons]
      congr 2
      omega

theorem scanFrac_ok (s t : Str) (hs : AllDigits s) (ht : NoDigit t) : ∀ (ds : List Nat) (m : Int), ds.length ≤ maxDigits →
    scanFrac (s ++ t) ds m = ((ds ++ s.map digitVal).take maxDigits, m - s.length, t) := by
  induction s with
  | nil =>
    intro ds m hl
    rw [List.map_nil, List.append_nil, List.take_of_length_le hl]
    cases t with
    | nil => simp [scanFrac]
    | cons c t =>
      have := ht c rfl
      simp only [List.nil_append, scanFrac]
      rw [if_neg (by simp [this])]
      simp
  | cons c s ih =>
    intro ds m hl
    have hc := (isDigit_iff c).2 (hs c (by simp))
    have ih := ih (fun x hx => hs x (by simp [hx]))
    simp only [List.cons_append, scanFrac]
    rw [if_pos hc]
    by_cases h : ds.length < maxDigits
    · rw [if_pos h, ih _ _ (by simp; omega)]
      simp only [List.length_cons, List.map_cons, List.append_assoc, List.cons_append, List.nil_append]
      rw [show m - 1 - (s.length : Int) = m - ((s.length + 1 : Nat) : Int) by omega]
      rfl
    · rw [if_neg h, ih _ _ hl]
      rw [List.take_append_of_le_length (by omega), List.take_append_of_le_length (by omega)]
      rw [List.length_cons]
      congr 2
      omega

theorem scanExp_ok (s t : Str) (hs : AllDigits s) (ht : NoDigit t) : ∀ n cnt, n ≤ 2 ^ 31 - 1 →
    scanExp true (s ++ t) n cnt = if ext 10 n (s.map digitVal) ≤ 2 ^ 31 - 1 then .ok (ext 10 n (s.map digitVal), cnt + s.length, t) else .error .tooBig := by
  induction s with
  | nil =>
    intro n cnt hn
    rw [if_pos (by exact hn)]
    cases t with
    | nil => rfl
    | cons c t =>
      have := ht c rfl
      simp only [List.nil_append, scanExp]
      rw [if_neg (by simp [this])]
      rfl
  | cons c s ih =>
    intro n cnt hn
    have hc := (isDigit_iff c).2 (hs c (by simp))
    have h9 := digit_le hc
    have ih := ih (fun x hx => hs x (by simp [hx]))
    simp only [List.cons_append, scanExp, List.map_cons]
    rw [if_pos hc]
    change (if (ovf n 10 (digitVal c) || decide (u32 (n * 10 + digitVal c) > (2 ^ 32 - 1) / 2)) = true then
      (.error .tooBig : Except Err (Nat × Nat × Str)) else
      scanExp true (s ++ t) (u32 (n * 10 + digitVal c)) (cnt + 1)) = _
    rw [ovf_ok n 10 (digitVal c) (by omega) (by omega) (by omega)]
    have e : ext 10 n (digitVal c :: s.map digitVal) = ext 10 (n * 10 + digitVal c) (s.map digitVal) := rfl
    rw [e]
    by_cases ho : n * 10 + digitVal c ≤ 2 ^ 31 - 1
    · have hu : u32 (n * 10 + digitVal c) = n * 10 + digitVal c := Nat.mod_eq_of_lt (by omega)
      rw [hu, if_neg (by simp only [Bool.or_eq_true, decide_eq_true_eq]; omega), ih _ _ ho, List.length_cons]
      by_cases hf : ext 10 (n * 10 + digitVal c) (s.map digitVal) ≤ 2 ^ 31 - 1
      · rw [if_pos hf, if_pos hf, show cnt + 1 + s.length = cnt + (s.length + 1) by omega]
      · rw [if_neg hf, if_neg hf]
    · rw [if_pos, if_neg]
      · have := ext_ge 10 (by omega) (s.map digitVal) (n * 10 + digitVal c)
        omega
      · simp only [Bool.or_eq_true, decide_eq_true_eq]
        by_cases h32 : 2 ^ 32 ≤ n * 10 + digitVal c
        · exact Or.inl h32
        · right
          have hu : u32 (n * 10 + digitVal c) = n * 10 + digitVal c := Nat.mod_eq_of_lt (by omega)
          rw [hu]; omega

/-! ### suffixes -/

def NotUL (t : Str) : Prop := ∀ c, t.head? = some c → c ≠ 0x75 ∧ c ≠ 0x55 ∧ c ≠ 0x6C ∧ c ≠ 0x4C

theorem scanSuffix_ok (suf : Str) (u l : Bool) (h : Suffix suf u l) (t : Str) (ht : NotUL t) : scanSuffix (suf ++ t) = (u, l, t) := by
  cases h with
  | none =>
    cases t with
    | nil => rfl
    | cons c t =>
      obtain ⟨h1, h2, h3, h4⟩ := ht c rfl
      simp [scanSuffix, h1, h2, h3, h4]
  | u c hc =>
    cases t with
    | nil => simp [scanSuffix, hc]
    | cons d t =>
      obtain ⟨h1, h2, h3, h4⟩ := ht d rfl
      simp [scanSuffix, hc, h3, h4]
  | l c hc =>
    have hn : ¬ (c = 0x75 ∨ c = 0x55) := by rcases hc with rfl | rfl <;> decide
    cases t with
    | nil => simp [scanSuffix, hc, hn]
    | cons d t =>
      obtain ⟨h1, h2, h3, h4⟩ := ht d rfl
      simp [scanSuffix, hc, hn, h1, h2]
  | ul c d hc hd =>
    cases t with
    | nil => simp [scanSuffix, hc, hd]
    | cons e t => simp [scanSuffix, hc, hd]
  | lu c d hc hd =>
    have hn : ¬ (c = 0x75 ∨ c = 0x55) := by rcases hc with rfl | rfl <;> decide
    simp [scanSuffix, hc, hd, hn]

theorem finishInt_ok (word : Nat) (hw : word = 2 ∨ word = 4) (k : Kind) (u l : Bool) (v : Nat) (hv : v < 2 ^ 32) :
    (∀ t, litType (8 * word) k u l v = some t → finishInt word (decide (k = .dec)) u l v = .ok (t, v)) ∧
    (litType (8 * word) k u l v = none → ∃ e, finishInt word (decide (k = .dec)) u l v = .error e) := by
  unfold litType finishInt
  rcases hw with rfl | rfl
  · have a1 : v / 2 ^ 16 ≠ 0 ↔ ¬ v < 2 ^ 16 := by omega
    have a2 : v / 2 ^ 15 = 0 ↔ v < 2 ^ 15 := by omega
    simp only [a1, a2, show 8 * 2 = 16 by rfl, show 16 - 1 = 15 by rfl]
    by_cases hq : v < 2 ^ 15
    · have hp : v < 2 ^ 16 := by omega
      simp only [hp, hq]
      cases u <;> cases l <;> cases k <;> simp
    · by_cases hp : v < 2 ^ 16
      · simp only [hp, hq]
        cases u <;> cases l <;> cases k <;> simp
      · simp only [hp, hq]
        cases u <;> cases l <;> cases k <;> simp
  · have a1 : v / 2 ^ 32 ≠ 0 ↔ False := ⟨fun h => by omega, fun h => h.elim⟩
    have a2 : v / 2 ^ 31 = 0 ↔ v < 2 ^ 31 := by omega
    simp only [a1, a2, hv, show 8 * 4 = 32 by rfl, show 32 - 1 = 31 by rfl]
    by_cases hq : v < 2 ^ 31
    · simp only [hq]
      cases u <;> cases l <;> cases k <;> simp
    · simp only [hq]
      cases u <;> cases l <;> cases k <;> simp

end Smlr.Number
