import Verif.Lit.Lemmas
set_option autoImplicit false
/-! C35: character constants and string literals. -/
namespace Smlr.Lit

theorem Elem.shorter {n m : Nat} {s : Str} {v : Nat} {r : Str} (h : Elem n m s v r) : r.length < s.length := by
  cases h <;> simp <;> omega

theorem body_iff (wcs : Nat) (hw : wcs = 2 ∨ wcs = 4) (wide : Bool) (t : UInt8) (ht : t ∉ [0x0A, 0x0D, 0]) (full : Nat → Bool)
    (fuel : Nat) (k : Nat) (s : Str) (hf : s.length < fuel) (vs : List Nat) (r : Str) :
    body wcs wide t full fuel k s = .ok (vs, r) ↔
      Body (chsz wcs wide) (plainMax wide) t s vs r ∧ ∀ j, k ≤ j → j < k + vs.length → full j = false := by
  induction fuel generalizing k s vs r with
  | zero => omega
  | succ fuel ih =>
    simp only [body]
    by_cases h1 : (decide (peek s = t) || eol (peek s)) = true
    · rw [if_pos h1]
      by_cases h2 : peek s = t
      · rw [if_neg (by simpa using h2)]
        cases s with
        | nil => exact absurd (by simp [← h2, peek]) ht
        | cons c s =>
          rw [peek_cons] at h2
          subst h2
          constructor
          · intro h
            cases h
            exact ⟨.done _, by intro j h1 h2; simp at h2; omega⟩
          · rintro ⟨h, -⟩
            cases h with
            | done => rfl
            | elem s v s' vs r h => simp at h
      · rw [if_pos (by simpa using h2)]
        have he : eol (peek s) = true := by simpa [h2] using h1
        constructor
        · intro h; cases h
        · rintro ⟨h, -⟩
          exfalso
          cases h with
          | done => exact h2 rfl
          | elem s v s' vs r h3 h4 =>
            cases h4 with
            | plain c r' ha hb => exact hb ((eol_iff c).1 he)
            | simple | other | oct | hex => rw [peek_cons] at he; exact absurd he (by decide)
    · rw [if_neg h1]
      have h2 : s.head? ≠ some t := by
        intro h
        apply h1
        cases s with
        | nil => simp at h
        | cons c s => simp at h; simp [peek, h]
      cases hg : getChar wcs wide s with
      | error e =>
        constructor
        · intro h; cases h
        · rintro ⟨h, -⟩
          exfalso
          cases h with
          | done => simp at h2
          | elem s v s' vs r h3 h4 =>
            have := (getChar_iff wcs hw wide s v s').2 h4
            rw [hg] at this
            cases this
      | ok x =>
        obtain ⟨v, s'⟩ := x
        have hE := (getChar_iff wcs hw wide s v s').1 hg
        have hsh := hE.shorter
        simp only
        have hB : ∀ w, Body (chsz wcs wide) (plainMax wide) t s w r ↔ ∃ w', w = v :: w' ∧ Body (chsz wcs wide) (plainMax wide) t s' w' r := by
          intro w
          constructor
          · intro h
            cases h with
            | done => simp at h2
            | elem s v' s'' w' r h3 h4 h5 =>
              have := (getChar_iff wcs hw wide s v' s'').2 h4
              rw [hg] at this
              cases this
              exact ⟨w', rfl, h5⟩
          · rintro ⟨w', rfl, h⟩
            exact .elem s v s' w' r h2 hE h
        by_cases hfk : full k = true
        · rw [if_pos hfk]
          constructor
          · intro h; cases h
          · rintro ⟨h, hj⟩
            obtain ⟨w', rfl, -⟩ := (hB _).1 h
            have := hj k (by omega) (by simp)
            rw [hfk] at this
            cases this
        · rw [if_neg hfk, hB]
          have hfk' : full k = false := by simpa using hfk
          cases hb : body wcs wide t full fuel (k + 1) s' with
          | error e =>
            constructor
            · intro h; cases h
            · rintro ⟨⟨w', rfl, h⟩, hj⟩
              have := (ih (k + 1) s' (by omega) w' r).2 ⟨h, fun j a b => hj j (by omega) (by simp; omega)⟩
              rw [hb] at this
              cases this
          | ok y =>
            obtain ⟨w, q⟩ := y
            constructor
            · intro h
              cases h
              obtain ⟨ha, hc⟩ := (ih (k + 1) s' (by omega) w r).1 hb
              refine ⟨⟨w, rfl, ha⟩, fun j a b => ?_⟩
              by_cases hjk : j = k
              · rw [hjk]; exact hfk'
              · exact hc j (by omega) (by simp at b; omega)
            · rintro ⟨⟨w', rfl, h⟩, hj⟩
              have := (ih (k + 1) s' (by omega) w' r).2 ⟨h, fun j a b => hj j (by omega) (by simp; omega)⟩
              rw [hb] at this
              cases this
              rfl

theorem bytesOf_eq (n v : Nat) : bytesOf n v = little n v := by
  induction n generalizing v with
  | zero => rfl
  | succ n ih =>
    have e : little (n + 1) v = UInt8.ofNat (v % 256) :: little n (v / 256) := by
      simp only [little, List.range_succ_eq_map, List.map_cons, List.map_map, Nat.pow_zero, Nat.div_one]
      congr 1
      apply List.map_congr_left
      intro i _
      simp only [Function.comp, Nat.pow_succ]
      rw [Nat.mul_comm, Nat.div_div_eq_div_mul]
    have ea : v &&& 0xFF = v % 256 := Nat.and_two_pow_sub_one_eq_mod v 8
    have es : v >>> 8 = v / 256 := Nat.shiftRight_eq_div_pow ..
    rw [e, bytesOf, ih, ea, es]

theorem little_length (n v : Nat) : (little n v).length = n := by simp [little]

theorem bytes_length (n : Nat) (vs : List Nat) : ((vs.map (little n)).flatten).length = n * vs.length := by
  induction vs with
  | nil => simp
  | cons v vs ih => simp only [List.map_cons, List.flatten_cons, List.length_append, ih, little_length, List.length_cons, Nat.mul_succ]; omega

theorem bytesOf_map (n : Nat) (vs : List Nat) : (vs.map (bytesOf n)).flatten = (vs.map (little n)).flatten := by
  congr 1
  exact List.map_congr_left fun v _ => bytesOf_eq n v

theorem Body.rest_shorter {n m : Nat} {t : UInt8} {s : Str} {vs : List Nat} {r : Str} (h : Body n m t s vs r) : r.length < s.length := by
  induction h with
  | done => simp
  | elem s v s' vs r h1 h2 h3 ih => have := h2.shorter; omega

theorem full_iff (n L : Nat) (h0 : 0 < n) (h4 : n ≤ 4) :
    (∀ j, 0 ≤ j → j < 0 + L → decide (j * n > 2 ^ 32 - 1 - n) = false) ↔ n * L < 2 ^ 32 := by
  constructor
  · intro h
    cases L with
    | zero => omega
    | succ L =>
      have := h L (by omega) (by omega)
      rw [decide_eq_false_iff_not] at this
      rw [Nat.mul_succ, Nat.mul_comm]
      omega
  · intro h j _ hj
    rw [decide_eq_false_iff_not]
    have : n * (j + 1) ≤ n * L := Nat.mul_le_mul_left _ (by omega)
    rw [Nat.mul_succ, Nat.mul_comm] at this
    omega

theorem chsz_bound (wcs : Nat) (hw : wcs = 2 ∨ wcs = 4) (wide : Bool) : 0 < chsz wcs wide ∧ chsz wcs wide ≤ 4 := by
  cases wide <;> rcases hw with rfl | rfl <;> decide

/-- **C35** a string literal (text after the opening quote) is accepted exactly if it is one according to C and its bytes can be counted; every element gets the value C assigns,
stored least significant byte first -/
theorem c35_string (wcs : Nat) (hw : wcs = 2 ∨ wcs = 4) (wide : Bool) (s b r : Str) :
    getString wcs wide s = .ok (b, r) ↔
      ∃ vs, Body (chsz wcs wide) (plainMax wide) 0x22 s vs r ∧ chsz wcs wide * vs.length < 2 ^ 32 ∧ b = (vs.map (little (chsz wcs wide))).flatten := by
  obtain ⟨hc0, hc4⟩ := chsz_bound wcs hw wide
  have key := body_iff wcs hw wide 0x22 (by decide) (fun k => decide (k * chsz wcs wide > 2 ^ 32 - 1 - chsz wcs wide)) (s.length + 1) 0 s (by omega)
  unfold getString
  cases hb : body wcs wide 0x22 (fun k => decide (k * chsz wcs wide > 2 ^ 32 - 1 - chsz wcs wide)) (s.length + 1) 0 s with
  | error e =>
    constructor
    · intro h; cases h
    · rintro ⟨vs, h1, h2, -⟩
      have := (key vs r).2 ⟨h1, (full_iff _ _ hc0 hc4).2 h2⟩
      rw [hb] at this
      cases this
  | ok x =>
    obtain ⟨vs, q⟩ := x
    constructor
    · intro h
      cases h
      obtain ⟨h1, h2⟩ := (key vs r).1 hb
      exact ⟨vs, h1, (full_iff _ _ hc0 hc4).1 h2, bytesOf_map _ _⟩
    · rintro ⟨vs', h1, h2, rfl⟩
      have := (key vs' r).2 ⟨h1, (full_iff _ _ hc0 hc4).2 h2⟩
      rw [hb] at this
      cases this
      rw [← bytesOf_map]

/-- **C35** file names: at most 255 characters -/
theorem c35_name (t : UInt8) (ht : t ∉ [0x0A, 0x0D, 0]) (s b r : Str) :
    getName t s = .ok (b, r) ↔ ∃ vs, Body 1 255 t s vs r ∧ vs.length ≤ 255 ∧ b = vs.map UInt8.ofNat := by
  have key := body_iff 2 (.inl rfl) false t ht (fun k => decide (k = 255)) (s.length + 1) 0 s (by omega)
  have hfull : ∀ L, (∀ j, 0 ≤ j → j < 0 + L → decide (j = 255) = false) ↔ L ≤ 255 := by
    intro L
    constructor
    · intro h
      by_cases hl : 255 < L
      · have := h 255 (by omega) (by omega)
        simp at this
      · omega
    · intro h j _ hj
      simp; omega
  unfold getName
  cases hb : body 2 false t (fun k => decide (k = 255)) (s.length + 1) 0 s with
  | error e =>
    constructor
    · intro h; cases h
    · rintro ⟨vs, h1, h2, -⟩
      have := (key vs r).2 ⟨h1, (hfull _).2 h2⟩
      rw [hb] at this
      cases this
  | ok x =>
    obtain ⟨vs, q⟩ := x
    constructor
    · intro h
      cases h
      obtain ⟨h1, h2⟩ := (key vs r).1 hb
      exact ⟨vs, h1, (hfull _).1 h2, rfl⟩
    · rintro ⟨vs', h1, h2, rfl⟩
      have := (key vs' r).2 ⟨h1, (hfull _).2 h2⟩
      rw [hb] at this
      cases this
      rfl

theorem pow8 (W : Nat) (hW : W = 2 ∨ W = 4) : 4 < 2 ^ (8 * W) - 1 ∧ 2 ^ (8 * W) - 1 < 2 ^ 32 := by
  rcases hW with rfl | rfl <;> decide

theorem sum_check (sz l M : Nat) (hs : sz < 2 ^ 32) (hl : l < 2 ^ 32) (hM : M < 2 ^ 32) :
    ¬ ((sz + l) % 2 ^ 32 < sz ∨ (sz + l) % 2 ^ 32 ≥ M) ↔ sz + l < M := by
  omega

theorem literals_iff (W wcs : Nat) (hW : W = 2 ∨ W = 4) (hw : wcs = 2 ∨ wcs = 4) (wide : Bool) (next : Str → Option Str)
    (hn : ∀ r s : Str, next r = some s → s.length ≤ r.length) (fuel : Nat) (s : Str) (sz : Nat) (hf : s.length < fuel) (hs : sz < 2 ^ (8 * W) - 1)
    (b : Str) (sz' : Nat) (r : Str) :
    literals W wcs wide next fuel s sz = .ok (b, sz', r) ↔
      ∃ vs, Lits (chsz wcs wide) (plainMax wide) 0x22 next s vs r ∧ sz + chsz wcs wide * vs.length < 2 ^ (8 * W) - 1 ∧
        b = (vs.map (little (chsz wcs wide))).flatten ∧ sz' = sz + chsz wcs wide * vs.length := by
  have hM := (pow8 W hW).2
  induction fuel generalizing s sz b sz' r with
  | zero => omega
  | succ fuel ih =>
    simp only [literals]
    have key := c35_string wcs hw wide s
    have hsplit : ∀ vs, Lits (chsz wcs wide) (plainMax wide) 0x22 next s vs r →
        ∃ v1 q, Body (chsz wcs wide) (plainMax wide) 0x22 s v1 q ∧
          ((next q = none ∧ vs = v1 ∧ q = r) ∨ ∃ s' v2, next q = some s' ∧ vs = v1 ++ v2 ∧ Lits (chsz wcs wide) (plainMax wide) 0x22 next s' v2 r) := by
      intro vs h
      cases h with
      | last s vs r h1 h2 => exact ⟨vs, r, h1, .inl ⟨h2, rfl, rfl⟩⟩
      | more s vs q s' vs' r h1 h2 h3 => exact ⟨vs, q, h1, .inr ⟨s', vs', h2, rfl, h3⟩⟩
    have hle : ∀ vs v1 v2 : List Nat, vs = v1 ++ v2 → sz + chsz wcs wide * vs.length < 2 ^ (8 * W) - 1 → chsz wcs wide * v1.length < 2 ^ 32 := by
      rintro vs v1 v2 rfl h
      rw [List.length_append, Nat.mul_add] at h
      omega
    cases hg : getString wcs wide s with
    | error e =>
      constructor
      · intro h; cases h
      · rintro ⟨vs, h1, h2, -⟩
        exfalso
        obtain ⟨v1, q, h3, h4⟩ := hsplit vs h1
        have hl : chsz wcs wide * v1.length < 2 ^ 32 := by
          rcases h4 with ⟨-, rfl, -⟩ | ⟨s', v2, -, h5, -⟩
          · omega
          · exact hle _ _ _ h5 h2
        have := (key _ q).2 ⟨v1, h3, hl, rfl⟩
        rw [hg] at this
        cases this
    | ok x =>
      obtain ⟨b1, q⟩ := x
      obtain ⟨v1, h3, h4, rfl⟩ := (key b1 q).1 hg
      simp only [bytes_length]
      have huniq : ∀ v1' q', Body (chsz wcs wide) (plainMax wide) 0x22 s v1' q' → chsz wcs wide * v1'.length < 2 ^ 32 →
          (v1'.map (little (chsz wcs wide))).flatten = (v1.map (little (chsz wcs wide))).flatten ∧ q' = q ∧ v1'.length = v1.length := by
        intro v1' q' h5 h6
        have := (key _ q').2 ⟨v1', h5, h6, rfl⟩
        rw [hg] at this
        simp only [Except.ok.injEq, Prod.mk.injEq] at this
        refine ⟨this.1.symm, this.2.symm, ?_⟩
        have hlen := congrArg List.length this.1
        rw [bytes_length, bytes_length] at hlen
        exact (Nat.eq_of_mul_eq_mul_left (chsz_bound wcs hw wide).1 hlen).symm
      by_cases hc : (sz + chsz wcs wide * v1.length) % 2 ^ 32 < sz ∨ (sz + chsz wcs wide * v1.length) % 2 ^ 32 ≥ 2 ^ (8 * W) - 1
      · rw [if_pos hc]
        constructor
        · intro h; cases h
        · rintro ⟨vs, h5, h6, -⟩
          exfalso
          obtain ⟨v1', q', h7, h8⟩ := hsplit vs h5
          have hl : chsz wcs wide * v1'.length < 2 ^ 32 ∧ sz + chsz wcs wide * v1'.length < 2 ^ (8 * W) - 1 := by
            rcases h8 with ⟨-, rfl, -⟩ | ⟨s', v2, -, h9, -⟩
            · omega
            · rw [h9, List.length_append, Nat.mul_add] at h6
              omega
          obtain ⟨-, -, e⟩ := huniq v1' q' h7 hl.1
          rw [e] at hl
          exact absurd hc ((sum_check sz _ _ (by omega) h4 hM).2 hl.2)
      · rw [if_neg hc]
        have hlt := (sum_check sz _ _ (by omega) h4 hM).1 hc
        rw [Nat.mod_eq_of_lt (Nat.lt_trans hlt hM)]
        cases hnx : next q with
        | none =>
          constructor
          · intro h
            simp only [Except.ok.injEq, Prod.mk.injEq] at h
            obtain ⟨rfl, rfl, rfl⟩ := h
            exact ⟨v1, .last s v1 q h3 hnx, hlt, rfl, rfl⟩
          · rintro ⟨vs, h5, h6, rfl, rfl⟩
            obtain ⟨v1', q', h7, h8⟩ := hsplit vs h5
            have hl : chsz wcs wide * v1'.length < 2 ^ 32 := by
              rcases h8 with ⟨-, rfl, -⟩ | ⟨s', v2, -, h9, -⟩
              · omega
              · exact hle _ _ _ h9 h6
            obtain ⟨e1, rfl, e3⟩ := huniq v1' q' h7 hl
            rcases h8 with ⟨-, rfl, rfl⟩ | ⟨s', v2, h9, -⟩
            · simp only []
              rw [e1, e3]
            · rw [hnx] at h9; cases h9
        | some s' =>
          have hlen : s'.length < fuel := by
            have := hn q s' hnx
            have := h3.rest_shorter
            omega
          have ih' := ih s' (sz + chsz wcs wide * v1.length) hlen hlt
          simp only
          cases hr : literals W wcs wide next fuel s' (sz + chsz wcs wide * v1.length) with
          | error e =>
            constructor
            · intro h; cases h
            · rintro ⟨vs, h5, h6, -⟩
              exfalso
              obtain ⟨v1', q', h7, h8⟩ := hsplit vs h5
              have hl : chsz wcs wide * v1'.length < 2 ^ 32 := by
                rcases h8 with ⟨-, rfl, -⟩ | ⟨s', v2, -, h9, -⟩
                · omega
                · exact hle _ _ _ h9 h6
              obtain ⟨e1, rfl, e3⟩ := huniq v1' q' h7 hl
              rcases h8 with ⟨h9, -⟩ | ⟨s'', v2, h9, rfl, h10⟩
              · rw [hnx] at h9; cases h9
              · rw [hnx] at h9
                cases h9
                rw [List.length_append, Nat.mul_add, e3] at h6
                have := (ih' _ _ r).2 ⟨v2, h10, by omega, rfl, rfl⟩
                rw [hr] at this
                cases this
          | ok y =>
            obtain ⟨b2, sz2, r2⟩ := y
            constructor
            · intro h
              simp only [Except.ok.injEq, Prod.mk.injEq] at h
              obtain ⟨rfl, rfl, rfl⟩ := h
              obtain ⟨v2, h5, h6, rfl, rfl⟩ := (ih' _ _ _).1 hr
              refine ⟨v1 ++ v2, .more s v1 q s' v2 r2 h3 hnx h5, ?_, by simp, ?_⟩ <;> rw [List.length_append, Nat.mul_add] <;> omega
            · rintro ⟨vs, h5, h6, rfl, rfl⟩
              obtain ⟨v1', q', h7, h8⟩ := hsplit vs h5
              have hl : chsz wcs wide * v1'.length < 2 ^ 32 := by
                rcases h8 with ⟨-, rfl, -⟩ | ⟨s', v2, -, h9, -⟩
                · omega
                · exact hle _ _ _ h9 h6
              obtain ⟨e1, rfl, e3⟩ := huniq v1' q' h7 hl
              rcases h8 with ⟨h9, -⟩ | ⟨s'', v2, h9, rfl, h10⟩
              · rw [hnx] at h9; cases h9
              · rw [hnx] at h9
                cases h9
                rw [List.length_append, Nat.mul_add, e3] at h6
                have := (ih' _ _ r).2 ⟨v2, h10, by omega, rfl, rfl⟩
                rw [hr] at this
                cases this
                simp only [List.map_append, List.flatten_append, List.length_append, Nat.mul_add, e1, e3, Nat.add_assoc]

/-- **C35** adjacent string literals in an expression make one array: the bytes of all their elements, then one zero element, and the number of elements counts it; an array that does
not fit the target's `size_t` is rejected -/
theorem c35_literal (W wcs : Nat) (hW : W = 2 ∨ W = 4) (hw : wcs = 2 ∨ wcs = 4) (wide : Bool) (next : Str → Option Str)
    (hn : ∀ r s : Str, next r = some s → s.length ≤ r.length) (s b : Str) (n : Nat) (r : Str) :
    literal W wcs wide next s = .ok (b, n, r) ↔
      ∃ vs, Lits (chsz wcs wide) (plainMax wide) 0x22 next s vs r ∧ chsz wcs wide * n < 2 ^ (8 * W) - 1 ∧
        b = ((vs ++ [0]).map (little (chsz wcs wide))).flatten ∧ n = vs.length + 1 := by
  obtain ⟨hc0, hc4⟩ := chsz_bound wcs hw wide
  have h8 := (pow8 W hW).1
  have key := literals_iff W wcs hW hw wide next hn (s.length + 1) s (chsz wcs wide) (by omega) (by omega)
  have hz : List.replicate (chsz wcs wide) (0 : UInt8) = little (chsz wcs wide) 0 := by
    cases wide <;> rcases hw with rfl | rfl <;> decide
  have hdiv : ∀ l, (chsz wcs wide + chsz wcs wide * l) / chsz wcs wide = l + 1 := by
    intro l
    rw [Nat.add_comm, ← Nat.mul_succ, Nat.mul_div_cancel_left _ hc0]
  unfold literal
  rw [hz]
  cases hl : literals W wcs wide next (s.length + 1) s (chsz wcs wide) with
  | error e =>
    constructor
    · intro h; cases h
    · rintro ⟨vs, h1, h2, -, rfl⟩
      rw [Nat.mul_succ] at h2
      have := (key _ _ r).2 ⟨vs, h1, by omega, rfl, rfl⟩
      rw [hl] at this
      cases this
  | ok x =>
    obtain ⟨b', sz', r'⟩ := x
    constructor
    · intro h
      simp only [Except.ok.injEq, Prod.mk.injEq] at h
      obtain ⟨rfl, rfl, rfl⟩ := h
      obtain ⟨vs, h1, h2, rfl, rfl⟩ := (key _ _ _).1 hl
      rw [hdiv]
      exact ⟨vs, h1, by rw [Nat.mul_succ]; omega, by simp, rfl⟩
    · rintro ⟨vs, h1, h2, rfl, rfl⟩
      rw [Nat.mul_succ] at h2
      have := (key _ _ r).2 ⟨vs, h1, by omega, rfl, rfl⟩
      rw [hl] at this
      cases this
      simp only [hdiv]
      simp

/-! ### character constants -/

theorem Elem.lt {n m : Nat} {s : Str} {v : Nat} {r : Str} (h : Elem n m s v r) (hn : 0 < n) (hm : m < 256 ^ n) : v < 256 ^ n := by
  have h256 : 256 ≤ 256 ^ n := by
    calc 256 = 256 ^ 1 := by decide
      _ ≤ 256 ^ n := Nat.pow_le_pow_right (by decide) hn
  cases h with
  | plain => omega
  | simple c v r h =>
    simp only [Lit.simple, List.mem_cons, Prod.mk.injEq, List.not_mem_nil, or_false] at h
    omega
  | other => omega
  | oct => omega
  | hex => assumption

theorem qeol_iff (c : UInt8) : qeol c = true ↔ c = 0x27 ∨ c ∈ [0x0A, 0x0D, 0] := by
  rw [qeol, Bool.or_eq_true, eol_iff, decide_eq_true_eq]

theorem Body.head {n m : Nat} {t : UInt8} {s : Str} {v : Nat} {vs : List Nat} {r : Str} (h : Body n m t s (v :: vs) r) : peek s ≠ t ∧ peek s ∉ [0x0A, 0x0D, 0] := by
  cases h with
  | elem s v s' vs r h1 h2 h3 =>
    cases h2 with
    | plain c r' ha hb => rw [peek_cons]; exact ⟨by simpa using h1, hb⟩
    | simple | other | oct | hex => rw [peek_cons]; exact ⟨by simpa using h1, by decide⟩

theorem shl8 (v ch : Nat) (h : v = 0 ∨ (ch < 256 ∧ v * 256 < 2 ^ 32)) : (v <<< 8) % 2 ^ 32 ||| ch = v * 256 + ch := by
  rcases h with rfl | ⟨h1, h2⟩
  · simp
  · exact shl_or v ch 8 h1 h2

theorem plainMax_lt (wcs : Nat) (hw : wcs = 2 ∨ wcs = 4) (wide : Bool) : plainMax wide < 256 ^ chsz wcs wide := by
  cases wide <;> rcases hw with rfl | rfl <;> decide

theorem constLoop_iff (wcs : Nat) (hw : wcs = 2 ∨ wcs = 4) (wide : Bool) (max : Nat) (hmax : max ≤ 4) (hmw : wide = true → max = 1)
    (fuel : Nat) (s : Str) (hf : s.length < fuel) (hq : qeol (peek s) = false) (v cnt : Nat) (hv : cnt < max → v = 0 ∨ (wide = false ∧ v < 256 ^ cnt))
    (v' cnt' : Nat) (r : Str) :
    constLoop wcs wide max fuel s v cnt = .ok (v', cnt', 0x27 :: r) ↔
      ∃ vs, vs ≠ [] ∧ Body (chsz wcs wide) (plainMax wide) 0x27 s vs r ∧ cnt' = cnt + vs.length ∧ cnt' ≤ max ∧ v' = vs.foldl (fun n d => n * 256 + d) v := by
  obtain ⟨hc0, hc4⟩ := chsz_bound wcs hw wide
  induction fuel generalizing s v cnt with
  | zero => omega
  | succ fuel ih =>
    simp only [constLoop]
    have h2 : s.head? ≠ some 0x27 := by
      intro h
      cases s with
      | nil => simp at h
      | cons c s =>
        simp at h
        subst h
        rw [peek_cons] at hq
        exact absurd hq (by decide)
    cases hg : getChar wcs wide s with
    | error e =>
      constructor
      · intro h; cases h
      · rintro ⟨vs, h0, h, -⟩
        exfalso
        cases h with
        | done => exact h0 rfl
        | elem s v s' vs r h3 h4 =>
          have := (getChar_iff wcs hw wide s v s').2 h4
          rw [hg] at this
          cases this
    | ok x =>
      obtain ⟨ch, s'⟩ := x
      have hE := (getChar_iff wcs hw wide s ch s').1 hg
      have hsh := hE.shorter
      simp only
      have hB : ∀ w, w ≠ [] ∧ Body (chsz wcs wide) (plainMax wide) 0x27 s w r ↔ ∃ w', w = ch :: w' ∧ Body (chsz wcs wide) (plainMax wide) 0x27 s' w' r := by
        intro w
        constructor
        · rintro ⟨h0, h⟩
          cases h with
          | done => simp at h0
          | elem s v' s'' w' r h3 h4 h5 =>
            have := (getChar_iff wcs hw wide s v' s'').2 h4
            rw [hg] at this
            cases this
            exact ⟨w', rfl, h5⟩
        · rintro ⟨w', rfl, h⟩
          exact ⟨by simp, .elem s ch s' w' r h2 hE h⟩
      by_cases hcm : cnt + 1 > max
      · rw [if_pos hcm]
        constructor
        · intro h; cases h
        · rintro ⟨vs, h0, h1, h3, h4, -⟩
          have : 0 < vs.length := List.length_pos_iff.2 h0
          omega
      · rw [if_neg hcm]
        have hv1 := hv (by omega)
        have hval : (v <<< 8) % 2 ^ 32 ||| ch = v * 256 + ch := by
          apply shl8
          rcases hv1 with h | ⟨rfl, h⟩
          · exact .inl h
          · right
            refine ⟨?_, ?_⟩
            · have := hE.lt hc0 (plainMax_lt wcs hw false)
              simpa [chsz] using this
            · have : 256 ^ cnt ≤ 256 ^ 3 := Nat.pow_le_pow_right (by decide) (by omega)
              omega
        rw [hval]
        have hv2 : cnt + 1 < max → v * 256 + ch = 0 ∨ (wide = false ∧ v * 256 + ch < 256 ^ (cnt + 1)) := by
          intro hlt
          right
          have hwf : wide = false := by
            cases wide with
            | false => rfl
            | true => have := hmw rfl; omega
          refine ⟨hwf, ?_⟩
          subst hwf
          have hch : ch < 256 := by
            have := hE.lt hc0 (plainMax_lt wcs hw false)
            simpa [chsz] using this
          rw [Nat.pow_succ]
          have hp : 0 < 256 ^ cnt := Nat.pow_pos (by decide)
          rcases hv1 with h | ⟨-, h⟩ <;> omega
        by_cases hqe : qeol (peek s') = true
        · rw [if_pos hqe]
          constructor
          · intro h
            simp only [Except.ok.injEq, Prod.mk.injEq] at h
            obtain ⟨rfl, rfl, rfl⟩ := h
            obtain ⟨ha, hb⟩ := (hB [ch]).2 ⟨[], rfl, .done r⟩
            exact ⟨[ch], ha, hb, rfl, by omega, rfl⟩
          · rintro ⟨vs, h0, h1, h3, h4, h5⟩
            obtain ⟨w', rfl, h6⟩ := (hB vs).1 ⟨h0, h1⟩
            cases w' with
            | nil =>
              cases h6
              rw [h3, h5]
              rfl
            | cons a w' =>
              exfalso
              have := h6.head
              rcases (qeol_iff _).1 hqe with h | h
              · exact this.1 h
              · exact this.2 h
        · rw [if_neg hqe, ih s' (by omega) (by simpa using hqe) _ _ hv2]
          constructor
          · rintro ⟨w, h0, h1, h3, h4, h5⟩
            obtain ⟨ha, hb⟩ := (hB (ch :: w)).2 ⟨w, rfl, h1⟩
            exact ⟨ch :: w, ha, hb, by simp; omega, h4, h5⟩
          · rintro ⟨vs, h0, h1, h3, h4, h5⟩
            obtain ⟨w', rfl, h6⟩ := (hB vs).1 ⟨h0, h1⟩
            refine ⟨w', ?_, h6, by simp at h3; omega, h4, h5⟩
            rintro rfl
            cases h6
            rw [peek_cons] at hqe
            exact hqe (by decide)

theorem toInt_signed (v : Nat) : toInt v = asSigned true 4 v := by
  simp only [toInt, asSigned]
  by_cases h : v < 2 ^ 31
  · rw [if_pos h, if_neg (by omega)]
  · rw [if_neg h, if_pos ⟨trivial, by omega⟩]

theorem fold_lt (vs : List Nat) (h : ∀ v ∈ vs, v < 256) (n : Nat) : vs.foldl (fun n d => n * 256 + d) n < (n + 1) * 256 ^ vs.length := by
  induction vs generalizing n with
  | nil => simp
  | cons v vs ih =>
    simp only [List.foldl_cons, List.length_cons]
    have := ih (fun x hx => h x (List.mem_cons_of_mem _ hx)) (n * 256 + v)
    have hv := h v (by simp)
    refine Nat.lt_of_lt_of_le this ?_
    rw [Nat.pow_succ, Nat.mul_comm (256 ^ _) 256, ← Nat.mul_assoc]
    exact Nat.mul_le_mul_right _ (by omega)

theorem Body.lt {n m : Nat} {t : UInt8} {s : Str} {vs : List Nat} {r : Str} (h : Body n m t s vs r) (hn : 0 < n) (hm : m < 256 ^ n) : ∀ v ∈ vs, v < 256 ^ n := by
  induction h with
  | done => simp
  | elem s v s' vs r h1 h2 h3 ih =>
    intro x hx
    rcases List.mem_cons.1 hx with rfl | hx
    · exact h2.lt hn hm
    · exact ih x hx

/-- **C35** a character constant (text after the opening quote) is accepted exactly if C allows it and it is no longer than an `int`; its value is the one C assigns, with the first
character of a longer constant in the most significant place -/
theorem c35_char (W wcs : Nat) (hW : W = 2 ∨ W = 4) (hw : wcs = 2 ∨ wcs = 4) (wide charSigned wideSigned : Bool) (s : Str) (x : Int) (r : Str) :
    charConst W wcs wide charSigned wideSigned s = .ok (x, r) ↔
      ∃ vs, vs ≠ [] ∧ Body (chsz wcs wide) (plainMax wide) 0x27 s vs r ∧ vs.length ≤ (if wide then 1 else W) ∧
        x = constValue W wcs wide charSigned wideSigned vs := by
  obtain ⟨hc0, hc4⟩ := chsz_bound wcs hw wide
  have hpl := plainMax_lt wcs hw wide
  unfold charConst
  by_cases hq : qeol (peek s) = true
  · rw [if_pos hq]
    constructor
    · intro h; cases h
    · rintro ⟨vs, h0, h, -⟩
      exfalso
      cases vs with
      | nil => exact h0 rfl
      | cons v vs =>
        have := h.head
        rcases (qeol_iff _).1 hq with h | h
        · exact this.1 h
        · exact this.2 h
  · rw [if_neg hq]
    obtain ⟨mx, hmx⟩ : ∃ mx, mx = (if wide = true then 1 else W) := ⟨_, rfl⟩
    have key := constLoop_iff wcs hw wide mx (by rw [hmx]; split <;> omega) (by intro h; rw [hmx, if_pos h]) (s.length + 1) s (by omega) (by simpa using hq) 0 0
      (fun _ => .inl rfl)
    rw [← hmx]
    have hval : ∀ vs, vs ≠ [] → Body (chsz wcs wide) (plainMax wide) 0x27 s vs r → vs.length ≤ mx →
        constValue W wcs wide charSigned wideSigned vs =
          (if wide = true then toInt (vs.foldl (fun n d => n * 256 + d) 0) - (if wideSigned = true ∧ wcs = 2 ∧ toInt (vs.foldl (fun n d => n * 256 + d) 0) ≥ 0x8000 then 0x10000 else 0)
           else if 0 + vs.length = 1 then toInt (vs.foldl (fun n d => n * 256 + d) 0) - (if charSigned = true ∧ toInt (vs.foldl (fun n d => n * 256 + d) 0) ≥ 0x80 then 0x100 else 0)
           else toInt (vs.foldl (fun n d => n * 256 + d) 0) - (if W = 2 ∧ toInt (vs.foldl (fun n d => n * 256 + d) 0) ≥ 0x8000 then 0x10000 else 0)) := by
      intro vs h0 hB hl
      have hlt := hB.lt hc0 hpl
      have hpos : 0 < vs.length := List.length_pos_iff.2 h0
      cases wide with
      | true =>
        rw [hmx, if_pos rfl] at hl
        obtain ⟨v, rfl⟩ := List.length_eq_one_iff.1 (show vs.length = 1 by omega)
        have hv := hlt v (by simp)
        simp only [constValue, if_true, List.foldl_cons, List.foldl_nil, Nat.zero_mul, Nat.zero_add]
        rcases hw with rfl | rfl
        · have hv2 : v < 65536 := by simpa [chsz] using hv
          rw [if_pos rfl]
          simp only [asSigned, toInt, if_pos (show v < 2 ^ 31 by omega)]
          cases wideSigned with
          | false => simp
          | true =>
            by_cases hh : v ≥ 2 ^ (8 * 2 - 1)
            · rw [if_pos ⟨by trivial, hh⟩, if_pos ⟨by trivial, by trivial, by omega⟩]; rfl
            · rw [if_neg (by simp at hh ⊢; omega), if_neg (by simp at hh ⊢; omega)]; simp
        · rw [if_neg (by decide), if_neg (by simp), toInt_signed]; simp
      | false =>
        have hlt' : ∀ v ∈ vs, v < 256 := by simpa [chsz] using hlt
        rw [if_neg (by decide)]
        by_cases h1 : vs.length = 1
        · rw [if_pos (by omega)]
          obtain ⟨v, rfl⟩ := List.length_eq_one_iff.1 h1
          have hv := hlt' v (by simp)
          simp only [constValue, List.foldl_cons, List.foldl_nil, Nat.zero_mul, Nat.zero_add, asSigned, toInt, if_pos (show v < 2 ^ 31 by omega)]
          cases charSigned with
          | false => simp
          | true =>
            by_cases hh : v ≥ 2 ^ (8 * 1 - 1)
            · rw [if_neg (by decide), if_pos ⟨rfl, hh⟩, if_pos ⟨by trivial, by omega⟩]; rfl
            · rw [if_neg (by decide), if_neg (by simp at hh ⊢; omega), if_neg (by simp at hh ⊢; omega)]; simp
        · rw [if_neg (by omega)]
          have hlen : vs.length ≤ W := by rw [hmx, if_neg (by decide)] at hl; exact hl
          have hf := fold_lt vs hlt' 0
          have hp : 256 ^ vs.length ≤ 256 ^ W := Nat.pow_le_pow_right (by decide) hlen
          have hcv : constValue W wcs false charSigned wideSigned vs = asSigned true W (vs.foldl (fun n d => n * 256 + d) 0) := by
            cases vs with
            | nil => exact absurd rfl h0
            | cons a vs =>
              cases vs with
              | nil => simp at h1
              | cons b vs => rfl
          rw [hcv]
          generalize vs.foldl (fun n d => n * 256 + d) 0 = v at hf ⊢
          rcases hW with rfl | rfl
          · have hv2 : v < 65536 := by
              have : (256:Nat) ^ 2 = 65536 := by decide
              omega
            simp only [asSigned, toInt, if_pos (show v < 2 ^ 31 by omega)]
            by_cases hh : v ≥ 2 ^ (8 * 2 - 1)
            · rw [if_pos ⟨by trivial, hh⟩, if_pos ⟨by trivial, by omega⟩]; rfl
            · rw [if_neg (by simp at hh ⊢; omega), if_neg (by simp at hh ⊢; omega)]; simp
          · rw [if_neg (by simp), toInt_signed]; simp
    cases hl : constLoop wcs wide mx (s.length + 1) s 0 0 with
    | error e =>
      constructor
      · intro h; cases h
      · rintro ⟨vs, h0, h1, h2, -⟩
        have := (key _ _ r).2 ⟨vs, h0, h1, rfl, by omega, rfl⟩
        rw [hl] at this
        cases this
    | ok y =>
      obtain ⟨v, cnt, q⟩ := y
      simp only
      by_cases hpq : peek q ≠ 0x27
      · rw [if_pos hpq]
        constructor
        · intro h; cases h
        · rintro ⟨vs, h0, h1, h2, -⟩
          have := (key _ _ r).2 ⟨vs, h0, h1, rfl, by omega, rfl⟩
          rw [hl] at this
          cases this
          exact absurd rfl hpq
      · rw [if_neg hpq]
        cases q with
        | nil => simp [peek] at hpq
        | cons c q =>
          have hc : c = 0x27 := by rw [peek_cons] at hpq; exact Decidable.not_not.1 hpq
          subst hc
          rw [List.tail_cons]
          constructor
          · intro h
            have hqr : q = r := by
              split at h
              · cases h; rfl
              · split at h <;> (cases h; rfl)
            subst hqr
            obtain ⟨vs, h0, h1, rfl, h3, rfl⟩ := (key _ _ q).1 hl
            refine ⟨vs, h0, h1, by omega, ?_⟩
            rw [hval vs h0 h1 (by omega)]
            by_cases ha : wide = true
            · rw [if_pos ha] at h ⊢
              cases h; rfl
            · rw [if_neg ha] at h ⊢
              by_cases hb : 0 + vs.length = 1
              · rw [if_pos hb] at h ⊢
                cases h; rfl
              · rw [if_neg hb] at h ⊢
                cases h; rfl
          · rintro ⟨vs, h0, h1, h2, rfl⟩
            have := (key _ _ r).2 ⟨vs, h0, h1, rfl, by omega, rfl⟩
            rw [hl] at this
            cases this
            rw [hval vs h0 h1 h2]
            split
            · rfl
            · split <;> rfl

/-! ### assembler text -/

theorem decimal_digits (n : Nat) : n < 256 → (decimal n).foldl (fun a c => a.bind fun v => (digit? c).map fun d => v * 10 + d) (some 0) = some n ∧ decimal n ≠ [] ∧
    (decimal n).all (fun c => (digit? c).isSome) = true := by
  revert n
  decide +kernel

theorem read_digits (ds : Str) (s : Str) (v w : Nat)
    (h : ds.foldl (fun a c => a.bind fun v => (digit? c).map fun d => v * 10 + d) (some v) = some w) :
    readItems (.num v) (ds ++ s) = readItems (.num w) s := by
  induction ds generalizing v with
  | nil => simp at h; rw [h]; rfl
  | cons c ds ih =>
    rw [List.foldl_cons] at h
    cases hd : digit? c with
    | none =>
      exfalso
      rw [hd] at h
      have : ∀ l : Str, l.foldl (fun a c => a.bind fun v => (digit? c).map fun d => v * 10 + d) (none : Option Nat) = none := by
        intro l
        induction l with
        | nil => rfl
        | cons c l ih => rw [List.foldl_cons]; exact ih
      simp only [Option.bind_some, Option.map_none, this] at h
      cases h
    | some d =>
      rw [hd] at h
      rw [List.cons_append, readItems, hd]
      exact ih _ h

theorem read_decimal (n : Nat) (hn : n < 256) (s : Str) : readItems .start (decimal n ++ s) = readItems (.num n) s := by
  obtain ⟨h1, h2, h3⟩ := decimal_digits n hn
  cases hd : decimal n with
  | nil => exact absurd hd h2
  | cons c ds =>
    rw [hd, List.foldl_cons] at h1
    rw [hd] at h3
    simp only [List.all_cons, Bool.and_eq_true] at h3
    obtain ⟨d, hd'⟩ := Option.isSome_iff_exists.1 h3.1
    have hc : c ≠ 0x22 := by
      rintro rfl
      exact absurd hd' (by decide +revert)
    rw [List.cons_append, readItems, if_neg hc, hd']
    apply read_digits
    rw [hd'] at h1
    simpa using h1

/-- reading what follows a quoted character or a number -/
theorem dump_rest (bs : Str) (len : Nat) (hl : len ≠ 0) :
    readItems .str (dump true len bs) = some bs ∧ ∀ n, n < 256 → readItems (.num n) (dump false len bs) = some (UInt8.ofNat n :: bs) := by
  induction bs generalizing len with
  | nil =>
    simp only [dump, if_pos hl]
    refine ⟨rfl, fun n hn => ?_⟩
    have e : digit? 0x0A = none := by decide
    show readItems (.num n) [0x0A] = _
    rw [readItems, e]
    simp only
    rw [if_neg (by omega), if_neg (by decide), if_pos ⟨by trivial, by trivial⟩]
  | cons b bs ih =>
    obtain ⟨ih1, ih2⟩ := ih (len + 1) (by omega)
    have hb := b.toNat_lt
    have ed : digit? 0x2C = none := by decide
    have hnum : ∀ n, n < 256 → ∀ s, readItems (.num n) (0x2C :: s) = (readItems .start s).map (UInt8.ofNat n :: ·) := by
      intro n hn s
      rw [readItems, ed]
      simp only
      rw [if_neg (by omega), if_pos trivial]
    have hst : ∀ s, readItems .start (0x22 :: s) = readItems .str s := by
      intro s
      rw [readItems, if_pos rfl]
    by_cases hp : 0x20 ≤ b ∧ b ≤ 0x7E ∧ b ≠ 0x22
    · have hb22 : b ≠ 0x22 := hp.2.2
      have hstr : readItems .str (b :: dump true (len + 1) bs) = some (b :: bs) := by
        rw [readItems, if_neg hb22, ih1]; rfl
      simp only [dump, dumpChar, if_neg hl, if_pos hp, if_pos hl]
      refine ⟨by simpa using hstr, fun n hn => ?_⟩
      have e : ([] : Str) ++ (if (!false) = true then (if len ≠ 0 then [0x2C] else []) ++ [0x22] else []) ++ [b] ++ dump true (len + 1) bs =
          0x2C :: 0x22 :: b :: dump true (len + 1) bs := by simp [hl]
      have e2 := hnum n hn (0x22 :: b :: dump true (len + 1) bs)
      rw [hst, hstr] at e2
      simpa [hl] using e2
    · have hdec : readItems .start (decimal b.toNat ++ dump false (len + 1) bs) = some (b :: bs) := by
        rw [read_decimal _ hb, ih2 _ hb, UInt8.ofNat_toNat]
      simp only [dump, dumpChar, if_neg hl, if_neg hp, if_pos hl]
      constructor
      · have : readItems .str (0x22 :: 0x2C :: (decimal b.toNat ++ dump false (len + 1) bs)) = some (b :: bs) := by
          rw [readItems, if_pos rfl, readItems, if_pos rfl, hdec]
        simpa using this
      · intro n hn
        have e2 := hnum n hn (decimal b.toNat ++ dump false (len + 1) bs)
        rw [hdec] at e2
        simpa using e2

/-- **C35** the assembler reads back exactly the bytes of the literal from the text that is written -/
theorem c35_asm (bs : Str) : readDb (dump false 0 bs) = some bs := by
  cases bs with
  | nil => rfl
  | cons b bs =>
    obtain ⟨h1, h2⟩ := dump_rest bs 1 (by decide)
    have hb := b.toNat_lt
    by_cases hp : 0x20 ≤ b ∧ b ≤ 0x7E ∧ b ≠ 0x22
    · have e : dump false 0 (b :: bs) = 0x09 :: 0x64 :: 0x62 :: 0x09 :: 0x22 :: b :: dump true 1 bs := by
        simp [dump, dumpChar, hp]
      rw [e, readDb, readItems, if_pos rfl, readItems, if_neg hp.2.2, h1]
      rfl
    · have e : dump false 0 (b :: bs) = 0x09 :: 0x64 :: 0x62 :: 0x09 :: (decimal b.toNat ++ dump false 1 bs) := by
        simp [dump, dumpChar, hp]
      rw [e, readDb, read_decimal _ hb, h2 _ hb, UInt8.ofNat_toNat]

/-- the model's loop bound is never reached -/
theorem c35_fuel (wcs : Nat) (hw : wcs = 2 ∨ wcs = 4) (wide : Bool) (t : UInt8) (full : Nat → Bool) (fuel k : Nat) (s : Str) (hf : s.length < fuel) :
    body wcs wide t full fuel k s ≠ .error .fuel := by
  have hself : ∀ s, self wide s ≠ .error .fuel := by
    intro s h
    unfold self at h
    split at h
    · cases h
    · split at h <;> cases h
  have hloop : ∀ lim s a b, hexLoop lim s a b ≠ .error .fuel := by
    intro lim s
    induction s with
    | nil => intro a b h; cases h
    | cons c s ih =>
      intro a b h
      simp only [hexLoop] at h
      split at h
      · cases h
      · split at h
        · cases h
        · split at h
          · cases h
          · exact ih _ _ h
  have hchar : ∀ s, getChar wcs wide s ≠ .error .fuel := by
    intro s h
    unfold getChar at h
    split at h
    · unfold escape at h
      split at h
      · cases h
      · split at h
        · unfold hexEsc at h
          split at h
          · cases h
          · split at h
            · next e he => cases h; exact hloop _ _ _ _ he
            · split at h <;> cases h
        · split at h
          · unfold octEsc at h
            split at h <;> cases h
          · repeat (split at h; cases h)
            exact hself _ h
    · exact hself _ h
  induction fuel generalizing k s with
  | zero => omega
  | succ fuel ih =>
    intro h
    simp only [body] at h
    split at h
    · split at h <;> cases h
    · split at h
      · next e he => cases h; exact hchar s he
      · next ch s' he =>
        have := ((getChar_iff wcs hw wide s ch s').1 he).shorter
        split at h
        · cases h
        · split at h
          · next e he2 => cases h; exact ih (k + 1) s' (by omega) he2
          · cases h

/-! concrete cases -/

/-- `a\x41\0\n"` -/
def ex1 : Str := [0x61, 0x5C, 0x78, 0x34, 0x31, 0x5C, 0x30, 0x5C, 0x6E, 0x22]

example : getString 2 false ex1 = .ok ([0x61, 0x41, 0, 10], []) := by rfl
example : getString 2 true ex1 = .ok ([0x61, 0, 0x41, 0, 0, 0, 10, 0], []) := by rfl
example : literal 4 4 false (fun r => if r = [] then none else some r.tail) [0x61, 0x22, 0x22, 0x62, 0x22] = .ok ([0x61, 0x62, 0], 3, []) := by rfl
example : charConst 2 2 false true true [0x61, 0x62, 0x27] = .ok (0x6162, []) := by rfl
example : charConst 4 4 false true true [0x5C, 0x32, 0x30, 0x30, 0x27] = .ok (-128, []) := by rfl
example : getName 0x3E [0x61, 0x2E, 0x68, 0x3E, 0x0A] = .ok ([0x61, 0x2E, 0x68], [0x0A]) := by rfl
example : dump false 0 [0x61, 0, 0x62] = [0x09, 0x64, 0x62, 0x09, 0x22, 0x61, 0x22, 0x2C, 0x30, 0x2C, 0x22, 0x62, 0x22, 0x0A] := by rfl

end Smlr.Lit
