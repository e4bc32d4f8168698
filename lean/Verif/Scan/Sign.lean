import Verif.Scan.Hex

set_option autoImplicit false
/-
The whole integer scanner: an optional sign, then the body.
-/
namespace Smlr.Scan

open Smlr.Ctype Spec

theorem isInt_cases {k : Conv} (h : k.isInt = true) :
    (∃ r, plain k = some r) ∨ hexy k = true ∨ k = .i := by
  cases k <;> simp [Conv.isInt, plain, hexy] at h ⊢

theorem scan_body {k : Conv} (W : Nat) (hk : k.isInt = true) (f : Nat) (inp : List Nat)
    (w : Nat) (neg : Bool) (ch : Int) (hb : ∀ c ∈ inp, c < 256) (hf : inp.length + 2 < f) :
    ∃ b, BodyRes k inp w b ∧
    Result W k inp w neg ch (numLoop W f ⟨.zero, inp, w, base0 k, neg, false, 0, ch⟩) b := by
  rcases isInt_cases hk with ⟨r, h⟩ | h | rfl
  · exact scan_plain W h f inp w neg ch hb (by omega)
  · exact scan_hexy W h f inp w neg ch hb hf
  · exact scan_i W f inp w neg ch hb hf

theorem sign_not_dig {r c : Nat} (h : c = 43 ∨ c = 45) : isDig r c = false := by
  rw [isDig_false]
  rintro ⟨v, h1, _⟩
  rcases h with rfl | rfl <;> simp [digitVal] at h1

theorem body_head {k : Conv} {c : Nat} {s : List Nat} {v : Nat} (h : Body k (c :: s) v) :
    ¬ (c = 43 ∨ c = 45) := by
  intro hc
  have hd : ∀ r, ¬ Digs r (c :: s) := by
    intro r hr
    rw [digs_cons, sign_not_dig hc] at hr
    cases hr.1
  have h48 : c ≠ 48 := by omega
  have hx : ∀ v, ¬ Body .x (c :: s) v := by
    intro v h
    rw [body_x] at h
    rcases h with ⟨_, h, _⟩ | ⟨_, _, _, h, _⟩
    · exact hd _ h
    · simp only [List.cons.injEq] at h; exact h48 h.1
  cases k with
  | d => exact hd _ ((body_plain rfl _ _).1 h).2.1
  | u => exact hd _ ((body_plain rfl _ _).1 h).2.1
  | o => exact hd _ ((body_plain rfl _ _).1 h).2.1
  | x => exact hx _ h
  | X => exact hx _ ((body_hexy rfl _ _).1 h)
  | p => exact hx _ ((body_hexy rfl _ _).1 h)
  | i =>
    rw [body_i] at h
    rcases h with ⟨_, _, _, _, h, _⟩ | ⟨_, h, _⟩ | ⟨_, _, _, h, _⟩
    · exact hd _ h
    · simp only [List.cons.injEq] at h; exact h48 h.1
    · simp only [List.cons.injEq] at h; exact h48 h.1
  | c => cases h
  | s => cases h
  | set n cs => cases h

theorem body_ne_nil {k : Conv} {v : Nat} : ¬ Body k [] v := by
  have hx : ∀ v, ¬ Body .x [] v := by
    intro v h
    rw [body_x] at h
    rcases h with ⟨h, _⟩ | ⟨_, _, _, h, _⟩
    · exact h rfl
    · cases h
  intro h
  cases k with
  | d => exact ((body_plain rfl _ _).1 h).1 rfl
  | u => exact ((body_plain rfl _ _).1 h).1 rfl
  | o => exact ((body_plain rfl _ _).1 h).1 rfl
  | x => exact hx _ h
  | X => exact hx _ ((body_hexy rfl _ _).1 h)
  | p => exact hx _ ((body_hexy rfl _ _).1 h)
  | i =>
    rw [body_i] at h
    rcases h with ⟨_, _, h, _⟩ | ⟨_, h, _⟩ | ⟨_, _, _, h, _⟩ <;> cases h
  | c => cases h
  | s => cases h
  | set n cs => cases h

/-! ### Sequences with and without sign -/

theorem subject_sign {k : Conv} {c : Nat} {s : List Nat} {v : Int} (hc : c = 43 ∨ c = 45) :
    Subject k (c :: s) v ↔ ∃ u : Nat, Body k s u ∧ v = if c = 45 then -(u : Int) else u := by
  constructor
  · intro h
    cases h with
    | pos h => exact absurd hc (body_head h)
    | plus h => exact ⟨_, h, by simp⟩
    | minus h => exact ⟨_, h, by simp⟩
  · rintro ⟨u, h, rfl⟩
    rcases hc with rfl | rfl
    · exact .plus h
    · exact .minus h

theorem subject_plain {k : Conv} {c : Nat} {s : List Nat} {v : Int} (hc : ¬ (c = 43 ∨ c = 45)) :
    Subject k (c :: s) v ↔ ∃ u : Nat, Body k (c :: s) u ∧ v = u := by
  constructor
  · intro h
    cases h with
    | pos h => exact ⟨_, h, rfl⟩
    | plus h => exact absurd (Or.inl rfl) hc
    | minus h => exact absurd (Or.inr rfl) hc
  · rintro ⟨u, h, rfl⟩
    exact .pos h

theorem subject_nil {k : Conv} {v : Int} : ¬ Subject k [] v := by
  intro h
  cases h with
  | pos h => exact body_ne_nil h

theorem viable_sign {k : Conv} {c : Nat} {s : List Nat} (hc : c = 43 ∨ c = 45) :
    Viable k (c :: s) ↔ VB k s := by
  constructor
  · rintro ⟨t, v, h⟩
    rw [List.cons_append, subject_sign hc] at h
    obtain ⟨u, h, _⟩ := h
    exact ⟨t, u, h⟩
  · rintro ⟨t, u, h⟩
    exact ⟨t, _, by rw [List.cons_append]; exact (subject_sign hc).2 ⟨u, h, rfl⟩⟩

theorem viable_plain {k : Conv} {c : Nat} {s : List Nat} (hc : ¬ (c = 43 ∨ c = 45)) :
    Viable k (c :: s) ↔ VB k (c :: s) := by
  constructor
  · rintro ⟨t, v, h⟩
    rw [List.cons_append, subject_plain hc] at h
    obtain ⟨u, h, _⟩ := h
    exact ⟨t, u, h⟩
  · rintro ⟨t, u, h⟩
    exact ⟨t, _, .pos h⟩

theorem viable_of_vb {k : Conv} {s : List Nat} (h : VB k s) : Viable k s := by
  obtain ⟨t, u, h⟩ := h
  exact ⟨t, _, .pos h⟩

theorem viable_prefix {k : Conv} {a b : List Nat} (h : Viable k b) (hp : a <+: b) : Viable k a := by
  obtain ⟨t, v, h⟩ := h
  obtain ⟨u, rfl⟩ := hp
  exact ⟨u ++ t, v, by simpa using h⟩

theorem step_sign (W : Nat) (inp : List Nat) (w b0 : Nat) (g : Bool) (n : Nat) (ch : Int) :
    numStep W ⟨.sign, inp, w, b0, false, g, n, ch⟩ =
      (match w, inp with
       | 0, inp => .ret false inp
       | _ + 1, [] => .ret true []
       | w + 1, c :: t =>
         if c = 45 ∨ c = 43 then .go ⟨.zero, t, w, b0, decide (c = 45), g, n, ch + 1⟩
         else .go ⟨.zero, c :: t, w + 1, b0, false, g, n, ch⟩) := by
  match w, inp with
  | 0, inp => unfold numStep; simp [ungetc_eof]
  | w + 1, [] => unfold numStep; simp [ungetc_eof, fgetc_nil]
  | w + 1, c :: t =>
    unfold numStep
    have h0 : ¬ ((c : Int) < 0) := by omega
    have h1 : ((c : Int) = 45) ↔ c = 45 := by omega
    have h2 : ((c : Int) = 43) ↔ c = 43 := by omega
    simp only [Nat.zero_lt_succ, if_true, fgetc_cons, ungetc_char, h0, if_false, h1, h2,
      Bool.false_eq_true, Nat.add_sub_cancel]

theorem neg_mod (M u : Nat) (hM : 0 < M) :
    (((M - u % M) % M : Nat) : Int) = (-(u : Int)) % (M : Int) := by
  have h1 : u % M < M := Nat.mod_lt _ hM
  have h2 := Nat.div_add_mod u M
  have e : (-(u : Int)) = ((M - u % M : Nat) : Int) + (M : Int) * (-(u / M : Nat) - 1) := by
    rw [Int.mul_sub, Int.mul_neg, Int.mul_one]
    have : ((M : Int) * ((u / M : Nat) : Int)) = ((M * (u / M) : Nat) : Int) := by push_cast; rfl
    rw [this]
    omega
  rw [e, Int.add_mul_emod_self_left]
  push_cast
  rfl

/-- The integer scanner takes the longest viable prefix and computes its value. -/
theorem scan_num {k : Conv} (W : Nat) (hk : k.isInt = true) (inp : List Nat) (w : Nat) (ch : Int)
    (hb : ∀ c ∈ inp, c < 256) (f : Nat) (hf : inp.length + 3 < f) :
    ∃ a, a <+: inp ∧ a.length ≤ w ∧ Viable k a ∧
      (∀ c, a ++ [c] <+: inp → a.length < w → ¬ Viable k (a ++ [c])) ∧
      ((∃ v t, Subject k a v ∧
          numLoop W f ⟨.sign, inp, w, base0 k, false, false, 0, ch⟩ = .stop t ∧
          t.inp = inp.drop a.length ∧ t.ch = ch + a.length ∧
          (((if t.neg then (2 ^ W - t.n) % 2 ^ W else t.n) : Nat) : Int) = v % 2 ^ W) ∨
       ((∀ v, ¬ Subject k a v) ∧
          numLoop W f ⟨.sign, inp, w, base0 k, false, false, 0, ch⟩ =
            .ret (decide (a = inp ∧ a.length < w)) (inp.drop a.length))) := by
  obtain ⟨f, rfl⟩ : ∃ g, f = g + 1 := ⟨f - 1, by omega⟩
  have hnil : Viable k [] := by
    obtain ⟨b, hb, _⟩ := scan_body W hk (f + 5) [] 0 false 0 (by simp) (by simp)
    exact viable_prefix (viable_of_vb hb.vb) (by simp)
  have hpow : ((2 ^ W : Nat) : Int) = (2 : Int) ^ W := by push_cast; rfl
  unfold numLoop
  rw [step_sign]
  match w, inp with
  | 0, inp =>
    refine ⟨[], by simp, by simp, hnil, fun c _ hl => by simp at hl, Or.inr ⟨fun v => subject_nil, ?_⟩⟩
    simp
  | w + 1, [] =>
    refine ⟨[], by simp, by simp, hnil, fun c hc => by simp at hc, Or.inr ⟨fun v => subject_nil, ?_⟩⟩
    simp
  | w + 1, c :: t =>
    by_cases hc : c = 45 ∨ c = 43
    · have hc' : c = 43 ∨ c = 45 := by omega
      simp only [hc, if_true]
      obtain ⟨b, hres, hr⟩ := scan_body W hk f t w (decide (c = 45)) (ch + 1)
        (fun x hx => hb x (by simp [hx])) (by simp at hf; omega)
      refine ⟨c :: b, (List.prefix_cons_inj _).2 hres.pre, by simpa using hres.len,
        (viable_sign hc').2 hres.vb, ?_, ?_⟩
      · intro d hd hl hv
        rw [List.cons_append] at hd hv
        rw [viable_sign hc'] at hv
        exact hres.nx d ((List.prefix_cons_inj _).1 hd) (by simpa using hl) hv
      · rcases hr with ⟨v, s, hbd, he, h1, h2, h3, h4⟩ | ⟨hno, he⟩
        · left
          refine ⟨_, s, (subject_sign hc').2 ⟨v, hbd, rfl⟩, he, by rw [h1]; simp, ?_, ?_⟩
          · rw [h2]; simp; omega
          · rw [h3, h4]
            by_cases h45 : c = 45
            · simp only [h45, decide_true, if_true]
              rw [neg_mod _ _ (Nat.two_pow_pos W), hpow]
            · simp only [h45, decide_false, if_false, Bool.false_eq_true]
              rw [Int.natCast_emod, hpow]
        · right
          refine ⟨?_, ?_⟩
          · intro v hs
            rw [subject_sign hc'] at hs
            obtain ⟨u, hu, _⟩ := hs
            exact hno u hu
          · rw [he]
            simp
    · have hc' : ¬ (c = 43 ∨ c = 45) := by omega
      simp only [hc, if_false]
      obtain ⟨b, hres, hr⟩ := scan_body W hk f (c :: t) (w + 1) false ch hb (by omega)
      have hbc : b = [] ∨ ∃ s, b = c :: s := by
        match b, hres.pre with
        | [], _ => exact Or.inl rfl
        | x :: s, hp => exact Or.inr ⟨s, by rw [(List.cons_prefix_cons.1 hp).1]⟩
      refine ⟨b, hres.pre, hres.len, viable_of_vb hres.vb, ?_, ?_⟩
      · intro d hd hl hv
        refine hres.nx d hd hl ?_
        rcases hbc with rfl | ⟨s, rfl⟩
        · have := (List.cons_prefix_cons.1 hd).1
          subst this
          exact (viable_plain hc').1 hv
        · exact (viable_plain hc').1 hv
      · rcases hr with ⟨v, s, hbd, he, h1, h2, h3, h4⟩ | ⟨hno, he⟩
        · left
          refine ⟨_, s, .pos hbd, he, h1, h2, ?_⟩
          rw [h3, h4]
          simp only [if_false, Bool.false_eq_true]
          rw [Int.natCast_emod, hpow]
        · right
          refine ⟨?_, he⟩
          intro v hs
          rcases hbc with rfl | ⟨s, rfl⟩
          · exact subject_nil hs
          · rw [subject_plain hc'] at hs
            obtain ⟨u, hu, _⟩ := hs
            exact hno u hu

end Smlr.Scan
