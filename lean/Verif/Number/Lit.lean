import Verif.Number.Scan
set_option autoImplicit false
namespace Smlr.Number

theorem ext_zero (base : Nat) (ds : List Nat) : ext base 0 ds = posVal base ds := rfl

theorem posVal_dropZeros (base : Nat) (ds : List Nat) : posVal base (ds.dropWhile (· = 0)) = posVal base ds := by
  induction ds with
  | nil => rfl
  | cons d ds ih =>
    by_cases h : d = 0
    · rw [List.dropWhile_cons_of_pos (by simpa using h), ih, h]
      simp [posVal]
    · rw [List.dropWhile_cons_of_neg (by simpa using h)]

theorem ext_append (base n : Nat) (a b : List Nat) : ext base n (a ++ b) = ext base (ext base n a) b := by
  simp [ext, List.foldl_append]

theorem ext_pow (base : Nat) (hb : 1 ≤ base) (ds : List Nat) : ∀ n, n * base ^ ds.length ≤ ext base n ds := by
  induction ds with
  | nil => intro n; simp [ext]
  | cons d ds ih =>
    intro n
    refine Nat.le_trans ?_ (ih (n * base + d))
    rw [List.length_cons, Nat.pow_succ', ← Nat.mul_assoc]
    exact Nat.mul_le_mul_right _ (Nat.le_add_right _ _)

/-- with many digits, the first of them not zero, both the value and its first digits are out of range -/
theorem take_big (base : Nat) (hb : base = 8 ∨ base = 10) (ds : List Nat) (h0 : ds.head? ≠ some 0) (hl : maxDigits < ds.length) :
    2 ^ 32 ≤ posVal base (ds.take maxDigits) ∧ 2 ^ 32 ≤ posVal base ds := by
  have key : 2 ^ 32 ≤ posVal base (ds.take maxDigits) := by
    cases ds with
    | nil => simp at hl
    | cons d ds =>
      have hd : d ≠ 0 := by simpa using h0
      have e : (d :: ds).take maxDigits = d :: ds.take (maxDigits - 1) := rfl
      rw [e]
      have hlen : (ds.take (maxDigits - 1)).length = 111 := by
        rw [List.length_take]; simp only [List.length_cons, maxDigits] at *; omega
      have h := ext_pow base (by omega) (ds.take (maxDigits - 1)) d
      have e2 : posVal base (d :: ds.take (maxDigits - 1)) = ext base d (ds.take (maxDigits - 1)) := by
        simp [posVal, ext]
      rw [e2]
      refine Nat.le_trans ?_ h
      rw [hlen]
      refine Nat.le_trans ?_ (Nat.le_mul_of_pos_left _ (by omega))
      have h8 : 8 ^ 111 ≤ base ^ 111 := Nat.pow_le_pow_left (by omega) _
      refine Nat.le_trans ?_ h8
      decide +kernel
  refine ⟨key, Nat.le_trans key ?_⟩
  conv => rhs; rw [← List.take_append_drop maxDigits ds]
  have := ext_append base 0 (ds.take maxDigits) (ds.drop maxDigits)
  rw [ext_zero, ext_zero] at this
  rw [this]
  exact ext_ge base (by omega) _ _

/-! ### integers -/

theorem notUL_of {rest : Str} (h : ∀ c, rest.head? = some c → ¬ Continues c) : NotUL rest := by
  intro c hc
  have := h c hc
  simp only [Continues, not_or] at this
  exact ⟨this.2.2.2.2.1, this.2.2.2.2.2.1, this.2.2.2.2.2.2.1, this.2.2.2.2.2.2.2.1⟩

theorem isDigit_hex {c : UInt8} (h : isDigit c = true) : HexDigit c (digitVal c) := by
  rw [isDigit_iff] at h
  unfold IsDigit at h
  left; unfold digitVal; omega

/-- first characters of what follows the digits -/
def AfterInt (t : Str) : Prop :=
  ∀ c, t.head? = some c → ((∀ d, ¬ HexDigit c d) ∧ c ≠ 0x2E ∧ c ≠ 0x65 ∧ c ≠ 0x45 ∧ c ≠ 0x78 ∧ c ≠ 0x58)

theorem afterInt (suf : Str) (u l : Bool) (h : Suffix suf u l) (rest : Str) (hr : ∀ c, rest.head? = some c → ¬ Continues c) : AfterInt (suf ++ rest) := by
  have key : ∀ c : UInt8, (c = 0x75 ∨ c = 0x55 ∨ c = 0x6C ∨ c = 0x4C) → ((∀ d, ¬ HexDigit c d) ∧ c ≠ 0x2E ∧ c ≠ 0x65 ∧ c ≠ 0x45 ∧ c ≠ 0x78 ∧ c ≠ 0x58) := by
    intro c hc
    refine ⟨fun d hd => ?_, ?_⟩
    · have : hexVal c = none := by rcases hc with rfl | rfl | rfl | rfl <;> rfl
      rw [(hexVal_iff c d).2 hd] at this; cases this
    · rcases hc with rfl | rfl | rfl | rfl <;> decide
  cases h with
  | none =>
    intro c hc
    have := hr c hc
    simp only [Continues, not_or, not_exists] at this
    exact ⟨this.1, this.2.1, this.2.2.1, this.2.2.2.1, this.2.2.2.2.2.2.2.2.1, this.2.2.2.2.2.2.2.2.2⟩
  | u c hc => intro x hx; cases hx; exact key c (by tauto)
  | l c hc => intro x hx; cases hx; exact key c (by tauto)
  | ul c d hc hd => intro x hx; cases hx; exact key c (by tauto)
  | lu c d hc hd => intro x hx; cases hx; exact key c (by tauto)

theorem AfterInt.noDigit {t : Str} (h : AfterInt t) : NoDigit t := by
  intro c hc
  cases hd : isDigit c with
  | false => rfl
  | true => exact absurd (isDigit_hex hd) ((h c hc).1 _)

theorem AfterInt.frac {t : Str} (h : AfterInt t) (ds m) : scanFracPart t ds m = (ds, m, false, t) := by
  cases t with
  | nil => rfl
  | cons c t =>
    have := h c rfl
    simp only [scanFracPart]
    rw [if_neg this.2.1]

theorem AfterInt.exp {t : Str} (h : AfterInt t) : scanExpPart true t = .ok (0, 0, t) := by
  cases t with
  | nil => rfl
  | cons c t =>
    have := h c rfl
    simp only [scanExpPart]
    rw [if_neg (by tauto)]

theorem endInt_ok (word : Nat) (hw : word = 2 ∨ word = 4) (k : Kind) (suf : Str) (u l : Bool) (hs : Suffix suf u l)
    (rest : Str) (hr : NotUL rest) (v : Nat) (hv : v < 2 ^ 32) :
    (∀ t, litType (8 * word) k u l v = some t → endInt true word (decide (k = .dec)) v (suf ++ rest) = .ok (t, v, rest)) ∧
    (litType (8 * word) k u l v = none → ∃ e, endInt true word (decide (k = .dec)) v (suf ++ rest) = .error e) := by
  have h := finishInt_ok word hw k u l v hv
  unfold endInt
  rw [scanSuffix_ok suf u l hs rest hr]
  constructor
  · intro t ht
    simp only [h.1 t ht, if_true]
  · intro hn
    obtain ⟨e, he⟩ := h.2 hn
    exact ⟨e, by simp only [he, if_true]⟩

theorem litType_big (word : Nat) (hw : word = 2 ∨ word = 4) (k : Kind) (u l : Bool) (v : Nat) (hv : 2 ^ 32 ≤ v) : litType (8 * word) k u l v = none := by
  unfold litType
  rcases hw with rfl | rfl
  · rw [show 8 * 2 = 16 by rfl, show 16 - 1 = 15 by rfl]
    have h1 : ¬ v < 2 ^ 16 := by omega
    have h2 : ¬ v < 2 ^ 15 := by omega
    simp only [h1, h2]; simp
  · rw [show 8 * 4 = 32 by rfl, show 32 - 1 = 31 by rfl]
    have h1 : ¬ v < 2 ^ 32 := by omega
    have h2 : ¬ v < 2 ^ 31 := by omega
    simp only [h1, h2]; simp

/-- digits without a dot or exponent -/
theorem decimal_int (word : Nat) (hw : word = 2 ∨ word = 4) (lz : Bool) (k : Kind) (hk : k = if lz then .oct else .dec) (s : Str) (hs : AllDigits s)
    (hd : ∀ c ∈ s, digitVal c < k.base) (suf : Str) (u l : Bool) (hsuf : Suffix suf u l) (rest : Str) (hr : ∀ c, rest.head? = some c → ¬ Continues c) :
    let v := posVal k.base (s.map digitVal)
    (∀ t, litType (8 * word) k u l v = some t → decimal true word lz (s ++ (suf ++ rest)) = .ok (t, v, rest)) ∧
    (litType (8 * word) k u l v = none → ∃ e, decimal true word lz (s ++ (suf ++ rest)) = .error e) := by
  intro v
  have ha := afterInt suf u l hsuf rest hr
  have hb : k.base = if lz then 8 else 10 := by cases lz <;> subst hk <;> rfl
  have hb' : k.base = 8 ∨ k.base = 10 := by rw [hb]; cases lz <;> simp
  have hdec : (!lz) = decide (k = .dec) := by cases lz <;> subst hk <;> rfl
  obtain ⟨s', h1, h2, h3, h4⟩ := skipZeros_ok s (suf ++ rest) hs ha.noDigit
  unfold decimal
  rw [h1]
  simp only
  rw [scanInt_ok s' _ h2 ha.noDigit [] 0 (by simp)]
  simp only [ha.frac, ha.exp]
  rw [if_neg (by simp), ← hb, hdec]
  simp only [List.nil_append, h4]
  have hv : v = posVal k.base ((s.map digitVal).dropWhile (· = 0)) := (posVal_dropZeros _ _).symm
  have hlt : ∀ d ∈ (s.map digitVal).dropWhile (· = 0), d < k.base := by
    intro d hd'
    have := (List.dropWhile_sublist (· = 0)).mem hd'
    obtain ⟨c, hc, rfl⟩ := List.mem_map.1 this
    exact hd c hc
  have hhead : ((s.map digitVal).dropWhile (· = 0)).head? ≠ some 0 := by
    intro hh
    have := List.head?_dropWhile_not (· = 0) (s.map digitVal)
    rw [hh] at this; simp at this
  generalize (s.map digitVal).dropWhile (· = 0) = ds at *
  rw [intVal_ok k.base hb' _ (fun d hd' => hlt d (List.mem_of_mem_take hd')) 0 (by decide), ext_zero]
  by_cases hlen : maxDigits < ds.length
  · obtain ⟨b1, b2⟩ := take_big k.base hb' ds hhead hlen
    have hn := litType_big word hw k u l v (by rw [hv]; exact b2)
    refine ⟨fun t ht => ?_, fun _ => ?_⟩
    · rw [hn] at ht; cases ht
    · rw [if_neg (by omega)]; exact ⟨_, rfl⟩
  · rw [List.take_of_length_le (by omega), ← hv]
    by_cases hv32 : v < 2 ^ 32
    · rw [if_pos hv32]
      exact endInt_ok word hw k suf u l hsuf rest (notUL_of hr) v hv32
    · rw [if_neg hv32]
      have hn := litType_big word hw k u l v (by omega)
      refine ⟨fun t ht => ?_, fun _ => ⟨_, rfl⟩⟩
      rw [hn] at ht; cases ht

theorem getNumber_int (word : Nat) (hw : word = 2 ∨ word = 4) (text : Str) (k : Kind) (ds : List Nat) (hi : IntText text k ds)
    (suf : Str) (u l : Bool) (hsuf : Suffix suf u l) (rest : Str) (hr : ∀ c, rest.head? = some c → ¬ Continues c) :
    (∀ t, litType (8 * word) k u l (posVal k.base ds) = some t →
      getNumber true word (text ++ suf ++ rest) = .ok (t, posVal k.base ds, rest)) ∧
    (litType (8 * word) k u l (posVal k.base ds) = none → ∃ e, getNumber true word (text ++ suf ++ rest) = .error e) := by
  have ha := afterInt suf u l hsuf rest hr
  cases hi with
  | dec c s hc h0 hs =>
    have hall : AllDigits (c :: s) := by
      intro x hx
      rcases List.mem_cons.1 hx with rfl | hx
      · exact hc
      · exact hs x hx
    have hx : hexPrefix (c :: s ++ (suf ++ rest)) = none := by
      cases h : s ++ (suf ++ rest) with
      | nil => simp only [List.cons_append, h]; rfl
      | cons x t => simp only [List.cons_append, h, hexPrefix]; rw [if_neg (by tauto)]
    have hl : (decide ((c :: s ++ (suf ++ rest)).head? = some 0x30)) = false := by simp [h0]
    rw [List.append_assoc]
    unfold getNumber
    rw [hx]
    simp only [hl]
    exact decimal_int word hw false .dec rfl (c :: s) hall
      (fun x hx => by have := digit_le ((isDigit_iff x).2 (hall x hx)); simp only [Kind.base]; omega) suf u l hsuf rest hr
  | oct s hs h8 =>
    have hall : AllDigits (0x30 :: s) := by
      intro x hx
      rcases List.mem_cons.1 hx with rfl | hx
      · unfold IsDigit; decide
      · exact hs x hx
    have hx : hexPrefix (0x30 :: s ++ (suf ++ rest)) = none := by
      cases s with
      | nil =>
        cases h : (suf ++ rest) with
        | nil => simp only [List.cons_append, List.nil_append]; rfl
        | cons x t =>
          rw [h] at ha
          have := ha x rfl
          simp only [List.cons_append, List.nil_append, hexPrefix]; rw [if_neg (by tauto)]
      | cons x t =>
        have hxd := hs x (by simp)
        have : ¬ (x = 0x78 ∨ x = 0x58) := by
          rintro (rfl | rfl) <;> revert hxd <;> unfold IsDigit <;> decide
        simp only [List.cons_append, hexPrefix]; rw [if_neg (by tauto)]
    have hl : (decide ((0x30 :: s ++ (suf ++ rest)).head? = some 0x30)) = true := by simp
    have e : posVal Kind.oct.base (s.map digitVal) = posVal Kind.oct.base ((0x30 :: s).map digitVal) := by
      simp [posVal, digitVal]
    rw [List.append_assoc]
    unfold getNumber
    rw [hx]
    simp only [hl, e]
    refine decimal_int word hw true .oct rfl (0x30 :: s) hall ?_ suf u l hsuf rest hr
    intro x hx
    rcases List.mem_cons.1 hx with rfl | hx
    · decide
    · exact h8 x hx
  | hex x s ds hx hne hds =>
    have hp : hexPrefix (0x30 :: x :: s ++ (suf ++ rest)) = some (s ++ (suf ++ rest)) := by
      simp only [List.cons_append, hexPrefix]; rw [if_pos ⟨trivial, hx⟩]
    rw [List.append_assoc]
    unfold getNumber
    rw [hp]
    simp only
    rw [scanHex_ok s ds (hexDigits_map hds) (suf ++ rest) (fun c hc => hexVal_none c (fun ⟨d, hd⟩ => (ha c hc).1 d hd)) (hexDigits_lt hds) 0 0 (by decide)]
    rw [ext_zero]
    simp only [Kind.base]
    by_cases hv : posVal 16 ds < 2 ^ 32
    · rw [if_pos hv]
      simp only
      have : s.length ≠ 0 := by simpa using hne
      rw [if_neg (by omega)]
      exact endInt_ok word hw .hex suf u l hsuf rest (notUL_of hr) _ hv
    · rw [if_neg hv]
      have hn := litType_big word hw .hex u l (posVal 16 ds) (by omega)
      refine ⟨fun t ht => ?_, fun _ => ⟨_, rfl⟩⟩
      rw [hn] at ht; cases ht

end Smlr.Number
