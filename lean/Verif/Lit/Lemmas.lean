import Verif.Lit.Spec
set_option autoImplicit false
namespace Smlr.Lit

instance (c : UInt8) : Decidable (octDigit c) := by unfold octDigit; infer_instance
instance (c : UInt8) : Decidable (hexDigit c) := by unfold hexDigit; infer_instance

theorem forall_byte (P : UInt8 → Prop) (h : ∀ n < 256, P (UInt8.ofNat n)) (c : UInt8) : P c := by
  have := h c.toNat c.toNat_lt
  rwa [UInt8.ofNat_toNat] at this

theorem hexVal_eq (c : UInt8) : hexVal c = if hexDigit c then some (hexNum c) else none := by
  revert c
  apply forall_byte
  decide +kernel

theorem hexNum_lt (c : UInt8) : hexDigit c → hexNum c < 16 := by
  revert c
  apply forall_byte
  decide +kernel

theorem hexNum_pos (c : UInt8) : hexDigit c → c ≠ 0x30 → 0 < hexNum c := by
  revert c
  apply forall_byte
  decide +kernel

theorem isOct_iff (c : UInt8) : isOct c = true ↔ octDigit c := by simp [isOct, octDigit]

theorem octNum_lt (c : UInt8) : octDigit c → octNum c < 8 := by
  revert c
  apply forall_byte
  decide +kernel

theorem eol_iff (c : UInt8) : eol c = true ↔ c ∈ [0x0A, 0x0D, 0] := by simp [eol, or_assoc]

theorem shl_or (ch v k : Nat) (hv : v < 2 ^ k) (h : ch * 2 ^ k < 2 ^ 32) : (ch <<< k) % 2 ^ 32 ||| v = ch * 2 ^ k + v := by
  rw [Nat.mod_eq_of_lt (by rw [Nat.shiftLeft_eq]; exact h), ← Nat.shiftLeft_add_eq_or_of_lt hv, Nat.shiftLeft_eq]

theorem hexLoop_iff (lim : Nat) (hlim : lim ≤ 8) (s : Str) (ch cnt ch' cnt' : Nat) (r : Str) (hc : cnt ≤ lim) (hch : ch < 16 ^ cnt) :
    hexLoop lim s ch cnt = .ok (ch', cnt', r) ↔
      ∃ ds, s = ds ++ r ∧ (∀ d ∈ ds, hexDigit d) ∧ (∀ d, r.head? = some d → ¬ hexDigit d) ∧ cnt' = cnt + ds.length ∧ cnt' ≤ lim ∧
        ch' = ds.foldl (fun n d => n * 16 + hexNum d) ch := by
  induction s generalizing ch cnt with
  | nil =>
    simp only [hexLoop]
    constructor
    · intro h
      cases h
      exact ⟨[], by simp, by simp, by simp, by simp, hc, by simp⟩
    · rintro ⟨ds, h1, -, -, h4, -, h6⟩
      obtain ⟨rfl, rfl⟩ := List.append_eq_nil_iff.1 h1.symm
      simp at h4 h6
      rw [h4, h6]
  | cons c s ih =>
    have hstop : ¬ hexDigit c → ((Except.ok (ch, cnt, c :: s) : Except Err _) = .ok (ch', cnt', r) ↔
        ∃ ds, c :: s = ds ++ r ∧ (∀ d ∈ ds, hexDigit d) ∧ (∀ d, r.head? = some d → ¬ hexDigit d) ∧ cnt' = cnt + ds.length ∧ cnt' ≤ lim ∧
        ch' = ds.foldl (fun n d => n * 16 + hexNum d) ch) := by
      intro hn
      constructor
      · intro h
        cases h
        exact ⟨[], by simp, by simp, by simpa using hn, by simp, hc, by simp⟩
      · rintro ⟨ds, h1, h2, -, h4, -, h6⟩
        cases ds with
        | nil => simp at h1 h4 h6; rw [h4, h6, h1]
        | cons d ds => simp at h1; exact absurd (h2 c (by simp [h1.1])) hn
    simp only [hexLoop]
    by_cases h0 : c = 0
    · rw [if_pos h0]
      exact hstop (by subst h0; decide)
    · rw [if_neg h0, hexVal_eq]
      by_cases hx : hexDigit c
      · rw [if_pos hx]
        have hv := hexNum_lt c hx
        by_cases hl : cnt + 1 > lim
        · simp only [if_pos hl]
          constructor
          · intro h; cases h
          · rintro ⟨ds, h1, h2, h3, h4, h5, h6⟩
            cases ds with
            | nil => simp at h1; exact absurd hx (h3 c (by simp [← h1]))
            | cons d ds => simp at h4; omega
        · simp only [if_neg hl]
          have hp : 16 ^ (cnt + 1) ≤ 2 ^ 32 := by
            calc 16 ^ (cnt + 1) ≤ 16 ^ 8 := Nat.pow_le_pow_right (by decide) (by omega)
              _ = 2 ^ 32 := by decide
          have hps : 16 ^ (cnt + 1) = 16 ^ cnt * 16 := Nat.pow_succ ..
          have hb : ch * 2 ^ 4 < 2 ^ 32 := by
            have : (2:Nat) ^ 4 = 16 := by decide
            rw [this]
            omega
          rw [shl_or ch _ 4 hv hb]
          have hn : ch * 2 ^ 4 + hexNum c < 16 ^ (cnt + 1) := by
            have : (2:Nat) ^ 4 = 16 := by decide
            rw [this]
            omega
          rw [ih _ _ (by omega) hn]
          constructor
          · rintro ⟨ds, h1, h2, h3, h4, h5, h6⟩
            refine ⟨c :: ds, by simp [h1], ?_, h3, ?_, h5, by simpa using h6⟩
            · intro d hd
              rcases List.mem_cons.1 hd with rfl | hd
              · exact hx
              · exact h2 d hd
            · simp; omega
          · rintro ⟨ds, h1, h2, h3, h4, h5, h6⟩
            cases ds with
            | nil => simp at h1; exact absurd hx (h3 c (by simp [← h1]))
            | cons d ds =>
              simp only [List.cons_append, List.cons.injEq] at h1
              obtain ⟨rfl, h1⟩ := h1
              refine ⟨ds, h1, fun x hx => h2 x (List.mem_cons_of_mem _ hx), h3, ?_, h5, by simpa using h6⟩
              simp at h4; omega
      · rw [if_neg hx]
        exact hstop hx

theorem skipZeroes_spec (s : Str) : ∃ k, s = List.replicate k 0x30 ++ (skipZeroes s).2 ∧ (skipZeroes s).2.head? ≠ some 0x30 ∧
    (skipZeroes s).1 = if k = 0 then 0 else 1 := by
  induction s with
  | nil => exact ⟨0, by simp [skipZeroes]⟩
  | cons c s ih =>
    simp only [skipZeroes]
    by_cases h : c = 0x30
    · rw [if_pos h]
      obtain ⟨k, h1, h2, h3⟩ := ih
      refine ⟨k + 1, ?_, h2, by simp⟩
      rw [List.replicate_succ, List.cons_append, ← h1, h]
    · rw [if_neg h]
      exact ⟨0, by simp, by simpa using h, by simp⟩

theorem octLoop_iff (s : Str) (ch cnt ch' : Nat) (r : Str) (hc : cnt ≤ 3) (hch : ch < 8 ^ cnt) :
    octLoop s ch cnt = (ch', r) ↔
      ∃ ds, s = ds ++ r ∧ (∀ d ∈ ds, octDigit d) ∧ cnt + ds.length ≤ 3 ∧ (cnt + ds.length = 3 ∨ ∀ d, r.head? = some d → ¬ octDigit d) ∧
        ch' = ds.foldl (fun n d => n * 8 + octNum d) ch := by
  induction s generalizing ch cnt with
  | nil =>
    simp only [octLoop]
    constructor
    · intro h
      cases h
      exact ⟨[], by simp, by simp, by simpa using hc, by simp, by simp⟩
    · rintro ⟨ds, h1, -, -, -, h6⟩
      obtain ⟨rfl, rfl⟩ := List.append_eq_nil_iff.1 h1.symm
      simp at h6
      rw [h6]
  | cons c s ih =>
    simp only [octLoop]
    by_cases hx : octDigit c ∧ cnt < 3
    · have hx' : (isOct c && (decide (cnt = 0) || decide (cnt < 3))) = true := by simp [isOct_iff, hx]
      rw [if_pos hx']
      have hv := octNum_lt c hx.1
      have hps : 8 ^ (cnt + 1) = 8 ^ cnt * 8 := Nat.pow_succ ..
      have hp : 8 ^ cnt ≤ 8 ^ 3 := Nat.pow_le_pow_right (by decide) hc
      have h8 : (2:Nat) ^ 3 = 8 := by decide
      have hb : ch * 2 ^ 3 < 2 ^ 32 := by
        rw [h8]
        omega
      have e : (ch <<< 3) % 2 ^ 32 ||| (c.toNat - 0x30) = ch * 8 + octNum c := shl_or ch _ 3 hv hb
      rw [e, ih _ _ (by omega) (by omega)]
      constructor
      · rintro ⟨ds, h1, h2, h3, h4, h5⟩
        refine ⟨c :: ds, by simp [h1], ?_, by simp; omega, ?_, by simpa using h5⟩
        · intro d hd
          rcases List.mem_cons.1 hd with rfl | hd
          · exact hx.1
          · exact h2 d hd
        · rcases h4 with h4 | h4
          · left; simp; omega
          · exact .inr h4
      · rintro ⟨ds, h1, h2, h3, h4, h5⟩
        cases ds with
        | nil =>
          simp at h1 h4
          rcases h4 with h4 | h4
          · omega
          · exact absurd hx.1 (h4 c (by simp [← h1]))
        | cons d ds =>
          simp only [List.cons_append, List.cons.injEq] at h1
          obtain ⟨rfl, h1⟩ := h1
          simp only [List.length_cons] at h3 h4
          refine ⟨ds, h1, fun x hx => h2 x (List.mem_cons_of_mem _ hx), by omega, ?_, by simpa using h5⟩
          rcases h4 with h4 | h4
          · left; omega
          · exact .inr h4
    · have hx' : ¬ (isOct c && (decide (cnt = 0) || decide (cnt < 3))) = true := by
        rw [Bool.and_eq_true, isOct_iff, Bool.or_eq_true, decide_eq_true_eq, decide_eq_true_eq]
        rintro ⟨h1, h2⟩
        exact hx ⟨h1, by omega⟩
      rw [if_neg hx']
      constructor
      · intro h
        cases h
        refine ⟨[], by simp, by simp, by simpa using hc, ?_, by simp⟩
        by_cases h3 : cnt < 3
        · right
          intro d hd
          simp at hd
          subst hd
          exact fun h => hx ⟨h, h3⟩
        · left; simp; omega
      · rintro ⟨ds, h1, h2, h3, h4, h6⟩
        cases ds with
        | nil => simp at h1 h6; rw [h6, h1]
        | cons d ds =>
          simp at h1 h3
          exact absurd ⟨h2 c (by simp [h1.1]), by omega⟩ hx

theorem fold_hex_ge (ds : Str) (n : Nat) : n * 16 ^ ds.length ≤ ds.foldl (fun n d => n * 16 + hexNum d) n := by
  induction ds generalizing n with
  | nil => simp
  | cons d ds ih =>
    simp only [List.foldl_cons, List.length_cons]
    refine Nat.le_trans ?_ (ih _)
    rw [Nat.pow_succ, Nat.mul_comm (16 ^ _) 16, ← Nat.mul_assoc]
    exact Nat.mul_le_mul_right _ (by omega)

theorem fold_hex_lt (ds : Str) (h : ∀ d ∈ ds, hexDigit d) (n : Nat) :
    ds.foldl (fun n d => n * 16 + hexNum d) n < (n + 1) * 16 ^ ds.length := by
  induction ds generalizing n with
  | nil => simp
  | cons d ds ih =>
    simp only [List.foldl_cons, List.length_cons]
    have := ih (fun x hx => h x (List.mem_cons_of_mem _ hx)) (n * 16 + hexNum d)
    have hv := hexNum_lt d (h d (by simp))
    refine Nat.lt_of_lt_of_le this ?_
    rw [Nat.pow_succ, Nat.mul_comm (16 ^ _) 16, ← Nat.mul_assoc]
    exact Nat.mul_le_mul_right _ (by omega)

theorem number_zeroes (k : Nat) (ds : Str) : number 16 hexNum (List.replicate k 0x30 ++ ds) = number 16 hexNum ds := by
  induction k with
  | zero => simp
  | succ k ih =>
    rw [List.replicate_succ, List.cons_append]
    exact ih

/-- digits without leading zeroes: how many there are decides whether the number fits -/
theorem number_fits (n : Nat) (ds : Str) (h : ∀ d ∈ ds, hexDigit d) (h0 : ds.head? ≠ some 0x30) :
    number 16 hexNum ds < 256 ^ n ↔ ds.length ≤ n * 2 := by
  have e : 256 ^ n = 16 ^ (n * 2) := by rw [Nat.mul_comm, Nat.pow_mul]
  rw [e]
  constructor
  · intro hlt
    cases ds with
    | nil => simp
    | cons d ds =>
      have hpos := hexNum_pos d (h d (by simp)) (by simpa using h0)
      have := fold_hex_ge ds (0 * 16 + hexNum d)
      have h2 : 16 ^ ds.length ≤ number 16 hexNum (d :: ds) := by
        refine Nat.le_trans ?_ this
        exact Nat.le_mul_of_pos_left _ (by omega)
      have h3 : 16 ^ ds.length < 16 ^ (n * 2) := Nat.lt_of_le_of_lt h2 hlt
      have := (Nat.pow_lt_pow_iff_right (by decide)).1 h3
      simp; omega
  · intro hl
    have := fold_hex_lt ds h 0
    refine Nat.lt_of_lt_of_le this ?_
    rw [Nat.zero_add, Nat.one_mul]
    exact Nat.pow_le_pow_right (by decide) hl

/-- splitting digits into leading zeroes and the rest -/
theorem split_zeroes (ds : Str) : ∃ k ds', ds = List.replicate k 0x30 ++ ds' ∧ ds'.head? ≠ some 0x30 := by
  obtain ⟨k, h1, h2, -⟩ := skipZeroes_spec ds
  exact ⟨k, _, h1, h2⟩

theorem skipZeroes_append (k : Nat) (s : Str) (h : s.head? ≠ some 0x30) :
    skipZeroes (List.replicate k 0x30 ++ s) = (if k = 0 then 0 else 1, s) := by
  induction k with
  | zero =>
    cases s with
    | nil => rfl
    | cons c s => simp at h; simp [skipZeroes, h]
  | succ k ih =>
    rw [List.replicate_succ, List.cons_append]
    simp only [skipZeroes, if_pos, ih]
    simp

theorem peek_cons (c : UInt8) (s : Str) : peek (c :: s) = c := by rw [peek, List.headD_cons]

theorem self_iff (wide : Bool) (s : Str) (v : Nat) (r : Str) :
    self wide s = .ok (v, r) ↔ ∃ c, s = c :: r ∧ c ∉ [0x0A, 0x0D, 0] ∧ c.toNat ≤ plainMax wide ∧ v = c.toNat := by
  cases s with
  | nil => simp [self, peek, eol]
  | cons c s =>
    simp only [self, peek_cons, List.tail_cons]
    have hm : ¬ (wide && decide (c.toNat > 0x7F)) = true ↔ c.toNat ≤ plainMax wide := by
      have := c.toNat_lt
      cases wide <;> simp [plainMax] <;> omega
    by_cases h1 : eol c = true
    · rw [if_pos h1]
      constructor
      · intro h; cases h
      · rintro ⟨c', h2, h3, -⟩
        cases h2
        exact absurd ((eol_iff c).1 h1) h3
    · rw [if_neg h1]
      have h1' : c ∉ [0x0A, 0x0D, 0] := fun h => h1 ((eol_iff c).2 h)
      by_cases h2 : (wide && decide (c.toNat > 0x7F)) = true
      · rw [if_pos h2]
        constructor
        · intro h; cases h
        · rintro ⟨c', h3, -, h4, -⟩
          cases h3
          exact absurd h2 (hm.2 h4)
      · rw [if_neg h2]
        constructor
        · intro h
          cases h
          exact ⟨c, rfl, h1', hm.1 h2, rfl⟩
        · rintro ⟨c', h3, -, -, rfl⟩
          cases h3
          rfl

theorem escape_cons (wcs : Nat) (wide : Bool) (c : UInt8) (s : Str) : escape wcs wide (c :: s) =
  if eol c then .error .chrStr
  else if c = 0x78 then hexEsc (if wide then wcs * 2 else 2) s
  else if isOct c then octEsc (c :: s)
  else if c = 0x61 then .ok (7, s)
  else if c = 0x62 then .ok (8, s)
  else if c = 0x66 then .ok (12, s)
  else if c = 0x6E then .ok (10, s)
  else if c = 0x72 then .ok (13, s)
  else if c = 0x74 then .ok (9, s)
  else if c = 0x76 then .ok (11, s)
  else self wide (c :: s) := rfl

theorem eol_not_hex {c : UInt8} (h : c ∈ [0x0A, 0x0D, 0]) : ¬ hexDigit c := by
  revert h
  simp only [List.mem_cons, List.not_mem_nil, or_false]
  rintro (rfl | rfl | rfl) <;> decide

theorem eol_not_oct {c : UInt8} (h : c ∈ [0x0A, 0x0D, 0]) : ¬ octDigit c := by
  revert h
  simp only [List.mem_cons, List.not_mem_nil, or_false]
  rintro (rfl | rfl | rfl) <;> decide

theorem getChar_iff (wcs : Nat) (hw : wcs = 2 ∨ wcs = 4) (wide : Bool) (s : Str) (v : Nat) (r : Str) :
    getChar wcs wide s = .ok (v, r) ↔ Elem (chsz wcs wide) (plainMax wide) s v r := by
  have hlim : (if wide = true then wcs * 2 else 2) = chsz wcs wide * 2 := by cases wide <;> simp [chsz]
  have hlim8 : chsz wcs wide * 2 ≤ 8 := by
    cases wide <;> simp [chsz]
    omega
  unfold getChar
  by_cases hb : peek s = 0x5C
  · rw [if_pos hb]
    cases s with
    | nil => simp [peek] at hb
    | cons c s =>
    rw [peek_cons] at hb
    subst hb
    rw [List.tail_cons]
    cases s with
    | nil =>
      constructor
      · intro h; exact absurd h (by simp [escape, peek, eol])
      · intro h
        generalize he : ([0x5C] : Str) = w at h
        cases h with
        | plain c r h1 => cases he; exact absurd rfl h1
        | simple => cases he
        | other => cases he
        | oct ds r h1 =>
          simp at he
          exact absurd he.1 h1
        | hex => cases he
    | cons c s =>
    rw [escape_cons]
    by_cases he : eol c = true
    · rw [if_pos he]
      have hm := (eol_iff c).1 he
      constructor
      · intro h; cases h
      · intro h
        generalize hs : (0x5C :: c :: s : Str) = w at h
        cases h with
        | plain c r h1 => cases hs; exact absurd rfl h1
        | simple c v r h1 =>
          cases hs
          revert h1 hm
          simp only [List.mem_cons, List.not_mem_nil, or_false]
          rintro (rfl | rfl | rfl) <;> simp [simple]
        | other c r h1 h2 h3 h4 => cases hs; exact absurd hm h4
        | oct ds r h1 h2 =>
          cases ds with
          | nil => exact absurd rfl h1
          | cons d ds =>
            simp at hs
            have := h2 d (by simp)
            rw [← hs.1] at this
            exact absurd this (eol_not_oct hm)
        | hex ds r =>
          simp at hs
          rw [hs.1] at hm
          simp at hm
    · rw [if_neg he]
      have hm : c ∉ [0x0A, 0x0D, 0] := fun h => he ((eol_iff c).2 h)
      by_cases hx : c = 0x78
      · subst hx
        rw [if_pos rfl]
        have key : Elem (chsz wcs wide) (plainMax wide) (0x5C :: 0x78 :: s) v r ↔
            ∃ ds, s = ds ++ r ∧ ds ≠ [] ∧ (∀ d ∈ ds, hexDigit d) ∧ (∀ d, r.head? = some d → ¬ hexDigit d) ∧
              number 16 hexNum ds < 256 ^ chsz wcs wide ∧ v = number 16 hexNum ds := by
          constructor
          · intro h
            generalize hs : (0x5C :: 0x78 :: s : Str) = w at h
            cases h with
            | plain c r h1 => cases hs; exact absurd rfl h1
            | simple c v r h1 => cases hs; simp [simple] at h1
            | other c r h1 h2 => cases hs; exact absurd rfl h2
            | oct ds r h1 h2 =>
              cases ds with
              | nil => exact absurd rfl h1
              | cons d ds =>
                simp at hs
                have := h2 d (by simp)
                rw [← hs.1] at this
                exact absurd this (by decide)
            | hex ds r h1 h2 h3 h4 =>
              simp at hs
              exact ⟨ds, hs, h1, h2, h3, h4, rfl⟩
          · rintro ⟨ds, rfl, h1, h2, h3, h4, rfl⟩
            exact .hex ds r h1 h2 h3 h4
        rw [key, hexEsc]
        by_cases he2 : eol (peek s) = true
        · rw [if_pos he2]
          constructor
          · intro h; cases h
          · rintro ⟨ds, rfl, h1, h2, -⟩
            cases ds with
            | nil => exact absurd rfl h1
            | cons d ds =>
              have := h2 d (by simp)
              rw [List.cons_append, peek_cons, eol_iff] at he2
              exact absurd this (eol_not_hex he2)
        · rw [if_neg he2]
          obtain ⟨k, hk1, hk2, hk3⟩ := skipZeroes_spec s
          have hsplit : ∀ q, (∃ cnt, hexLoop (if wide = true then wcs * 2 else 2) (skipZeroes s).2 0 0 = .ok (v, cnt, q) ∧ (skipZeroes s).1 + cnt ≠ 0) ↔
              ∃ ds, s = ds ++ q ∧ ds ≠ [] ∧ (∀ d ∈ ds, hexDigit d) ∧ (∀ d, q.head? = some d → ¬ hexDigit d) ∧
              number 16 hexNum ds < 256 ^ chsz wcs wide ∧ v = number 16 hexNum ds := by
            intro q
            constructor
            · rintro ⟨cnt, h, hne⟩
              rw [hlim] at h
              obtain ⟨ds, h1, h2, h3, h4, h5, h6⟩ := (hexLoop_iff _ hlim8 _ 0 0 _ _ _ (Nat.zero_le _) (by decide)).1 h
              have hhead : ds.head? ≠ some 0x30 := by
                cases ds with
                | nil => simp
                | cons d ds => rw [h1] at hk2; simpa using hk2
              refine ⟨List.replicate k 0x30 ++ ds, by rw [List.append_assoc, ← h1]; exact hk1, ?_, ?_, h3, ?_, ?_⟩
              · intro h
                obtain ⟨ha, rfl⟩ := List.append_eq_nil_iff.1 h
                have : k = 0 := by simpa using ha
                rw [hk3, if_pos this] at hne
                simp at h4
                omega
              · intro d hd
                rcases List.mem_append.1 hd with hd | hd
                · rw [List.eq_of_mem_replicate hd]; decide
                · exact h2 d hd
              · rw [number_zeroes, number_fits _ _ h2 hhead]
                omega
              · rw [number_zeroes]; exact h6
            · rintro ⟨ds, h1, h2, h3, h4, h5, h6⟩
              obtain ⟨j, ds', rfl, hh⟩ := split_zeroes ds
              have hq : (ds' ++ q).head? ≠ some 0x30 := by
                cases ds' with
                | nil =>
                  intro hc
                  exact h4 _ hc (by decide)
                | cons => simpa using hh
              rw [List.append_assoc] at h1
              rw [h1, skipZeroes_append j _ hq, hlim]
              have h3' : ∀ d ∈ ds', hexDigit d := fun d hd => h3 d (List.mem_append_right _ hd)
              rw [number_zeroes] at h5 h6
              rw [number_fits _ _ h3' hh] at h5
              refine ⟨ds'.length, ?_, ?_⟩
              · rw [hexLoop_iff _ hlim8 _ 0 0 _ _ _ (Nat.zero_le _) (by decide)]
                exact ⟨ds', rfl, h3', h4, by simp, h5, h6⟩
              · intro hz
                apply h2
                by_cases hj : j = 0
                · subst hj
                  have : ds' = [] := List.length_eq_zero_iff.1 (by omega)
                  simp [this]
                · rw [if_neg hj] at hz
                  omega
          rw [← hsplit]
          cases hl : hexLoop (if wide = true then wcs * 2 else 2) (skipZeroes s).2 0 0 with
          | error e =>
            simp only []
            constructor
            · intro h; cases h
            · rintro ⟨cnt, h, -⟩; cases h
          | ok x =>
            obtain ⟨a, b, q⟩ := x
            simp only []
            by_cases hz : (skipZeroes s).1 + b = 0
            · rw [if_pos hz]
              constructor
              · intro h; cases h
              · rintro ⟨cnt, h, hn⟩
                cases h
                exact absurd hz hn
            · rw [if_neg hz]
              constructor
              · intro h
                cases h
                exact ⟨b, rfl, hz⟩
              · rintro ⟨cnt, h, -⟩
                cases h
                rfl
      · rw [if_neg hx]
        by_cases ho : isOct c = true
        · rw [if_pos ho]
          have hoc := (isOct_iff c).1 ho
          have key : Elem (chsz wcs wide) (plainMax wide) (0x5C :: c :: s) v r ↔
              ∃ ds, c :: s = ds ++ r ∧ (∀ d ∈ ds, octDigit d) ∧ 0 + ds.length ≤ 3 ∧ (0 + ds.length = 3 ∨ ∀ d, r.head? = some d → ¬ octDigit d) ∧
                v = number 8 octNum ds ∧ v < 256 := by
            constructor
            · intro h
              generalize hs : (0x5C :: c :: s : Str) = w at h
              cases h with
              | plain c r h1 => cases hs; exact absurd rfl h1
              | simple c v r h1 =>
                cases hs
                simp only [simple, List.mem_cons, Prod.mk.injEq, List.not_mem_nil, or_false] at h1
                rcases h1 with ⟨rfl, -⟩ | ⟨rfl, -⟩ | ⟨rfl, -⟩ | ⟨rfl, -⟩ | ⟨rfl, -⟩ | ⟨rfl, -⟩ | ⟨rfl, -⟩ <;> exact absurd hoc (by decide)
              | other c r h1 h2 => cases hs; exact absurd hoc h1
              | oct ds r h1 h2 h3 h4 h5 =>
                simp at hs
                exact ⟨ds, hs, h2, by omega, by simpa using h4, rfl, h5⟩
              | hex ds r h1 h2 h3 h4 =>
                simp at hs
                exact absurd hs.1 hx
            · rintro ⟨ds, hs, h1, h2, h3, rfl, h4⟩
              rw [hs]
              rw [Nat.zero_add] at h2 h3
              refine .oct ds r ?_ h1 h2 h3 h4
              rintro rfl
              simp at hs h3
              exact h3 c (by simp [← hs]) hoc
          rw [key, octEsc]
          cases hl : octLoop (c :: s) 0 0 with
          | mk a q =>
          have hiff := fun a' q' => octLoop_iff (c :: s) 0 0 a' q' (by decide) (by decide)
          simp only [Nat.shiftRight_eq_div_pow]
          have h256 : (2:Nat) ^ 8 = 256 := by decide
          rw [h256]
          by_cases hz : a / 256 ≠ 0
          · rw [if_pos hz]
            constructor
            · intro h; cases h
            · rintro ⟨ds, h1, h2, h3, h4, h5, h6⟩
              have := (hiff v r).2 ⟨ds, h1, h2, h3, h4, h5⟩
              rw [hl] at this
              cases this
              omega
          · rw [if_neg hz]
            constructor
            · intro h
              cases h
              obtain ⟨ds, h1, h2, h3, h4, h5⟩ := (hiff _ _).1 hl
              exact ⟨ds, h1, h2, h3, h4, h5, by omega⟩
            · rintro ⟨ds, h1, h2, h3, h4, h5, h6⟩
              have := (hiff v r).2 ⟨ds, h1, h2, h3, h4, h5⟩
              rw [hl] at this
              cases this
              rfl
        · rw [if_neg ho]
          have hoc : ¬ octDigit c := fun h => ho ((isOct_iff c).2 h)
          have key : Elem (chsz wcs wide) (plainMax wide) (0x5C :: c :: s) v r ↔ r = s ∧
              ((c, v) ∈ simple ∨ ((∀ v, (c, v) ∉ simple) ∧ c.toNat ≤ plainMax wide ∧ v = c.toNat)) := by
            constructor
            · intro h
              generalize hs : (0x5C :: c :: s : Str) = w at h
              cases h with
              | plain c r h1 => cases hs; exact absurd rfl h1
              | simple c v r h1 => cases hs; exact ⟨rfl, .inl h1⟩
              | other c r h1 h2 h3 h4 h5 => cases hs; exact ⟨rfl, .inr ⟨h3, h5, rfl⟩⟩
              | oct ds r h1 h2 =>
                cases ds with
                | nil => exact absurd rfl h1
                | cons d ds =>
                  simp at hs
                  have := h2 d (by simp)
                  rw [← hs.1] at this
                  exact absurd this hoc
              | hex ds r h1 h2 h3 h4 =>
                simp at hs
                exact absurd hs.1 hx
            · rintro ⟨rfl, h | ⟨h1, h2, rfl⟩⟩
              · exact .simple c v r h
              · exact .other c r hoc hx h1 hm h2
          rw [key]
          have hs : ∀ (a : Nat), (∃ b, (c, b) ∈ simple ∧ a = b) → ((Except.ok (a, s) : Except Err _) = .ok (v, r) ↔ r = s ∧
              ((c, v) ∈ simple ∨ ((∀ v, (c, v) ∉ simple) ∧ c.toNat ≤ plainMax wide ∧ v = c.toNat))) := by
            rintro a ⟨b, hb, rfl⟩
            constructor
            · intro h; cases h; exact ⟨rfl, .inl hb⟩
            · rintro ⟨rfl, h | ⟨h, -⟩⟩
              · have : a = v := by
                  revert hb h
                  simp only [simple, List.mem_cons, Prod.mk.injEq, List.not_mem_nil, or_false]
                  rintro (⟨rfl, rfl⟩ | ⟨rfl, rfl⟩ | ⟨rfl, rfl⟩ | ⟨rfl, rfl⟩ | ⟨rfl, rfl⟩ | ⟨rfl, rfl⟩ | ⟨rfl, rfl⟩) <;> simp <;> exact Eq.symm
                rw [this]
              · exact absurd hb (h a)
          by_cases h1 : c = 0x61
          · rw [if_pos h1]; exact hs 7 ⟨7, by rw [h1]; decide, rfl⟩
          rw [if_neg h1]
          by_cases h2 : c = 0x62
          · rw [if_pos h2]; exact hs 8 ⟨8, by rw [h2]; decide, rfl⟩
          rw [if_neg h2]
          by_cases h3 : c = 0x66
          · rw [if_pos h3]; exact hs 12 ⟨12, by rw [h3]; decide, rfl⟩
          rw [if_neg h3]
          by_cases h4 : c = 0x6E
          · rw [if_pos h4]; exact hs 10 ⟨10, by rw [h4]; decide, rfl⟩
          rw [if_neg h4]
          by_cases h5 : c = 0x72
          · rw [if_pos h5]; exact hs 13 ⟨13, by rw [h5]; decide, rfl⟩
          rw [if_neg h5]
          by_cases h6 : c = 0x74
          · rw [if_pos h6]; exact hs 9 ⟨9, by rw [h6]; decide, rfl⟩
          rw [if_neg h6]
          by_cases h7 : c = 0x76
          · rw [if_pos h7]; exact hs 11 ⟨11, by rw [h7]; decide, rfl⟩
          rw [if_neg h7]
          have hno : ∀ v, (c, v) ∉ simple := by
            intro v hv
            simp only [simple, List.mem_cons, Prod.mk.injEq, List.not_mem_nil, or_false] at hv
            rcases hv with ⟨h, -⟩ | ⟨h, -⟩ | ⟨h, -⟩ | ⟨h, -⟩ | ⟨h, -⟩ | ⟨h, -⟩ | ⟨h, -⟩ <;> contradiction
          rw [self_iff]
          constructor
          · rintro ⟨c', h, ha, hb, hc⟩
            cases h
            exact ⟨rfl, .inr ⟨hno, hb, hc⟩⟩
          · rintro ⟨rfl, h | ⟨-, hb, hc⟩⟩
            · exact absurd h (hno _)
            · exact ⟨c, rfl, hm, hb, hc⟩
  · rw [if_neg hb, self_iff]
    constructor
    · rintro ⟨c, rfl, h1, h2, rfl⟩
      exact .plain c r hb h1 h2
    · intro h
      cases h with
      | plain c r h1 h2 h3 => exact ⟨c, rfl, h2, h3, rfl⟩
      | simple => exact absurd rfl hb
      | other => exact absurd rfl hb
      | oct => exact absurd rfl hb
      | hex => exact absurd rfl hb

end Smlr.Lit
