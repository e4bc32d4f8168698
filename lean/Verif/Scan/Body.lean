import Verif.Scan.Num

set_option autoImplicit false
/-
From the digit loop to matching sequences.
-/
namespace Smlr.Scan

open Smlr.Ctype Spec

/-- The initial base of a conversion, doscan.c:476-482. -/
def base0 : Conv → Nat
  | .x | .X | .p => 16
  | .o => 8
  | .i => 0
  | _ => 10

/-- A prefix of the body of a matching sequence. -/
def VB (k : Conv) (b : List Nat) : Prop := ∃ t v, Body k (b ++ t) v

theorem isDig_false {r c : Nat} : isDig r c = false ↔ ¬ ∃ v, digitVal c = some v ∧ v < r := by
  rw [← isDig_iff]; simp

theorem digs_nil (r : Nat) : Digs r [] := by intro c h; cases h
theorem digs_cons {r c : Nat} {s : List Nat} : Digs r (c :: s) ↔ isDig r c = true ∧ Digs r s := by
  simp [Digs, isDig_iff]
theorem digs_append {r : Nat} {s t : List Nat} : Digs r (s ++ t) ↔ Digs r s ∧ Digs r t := by
  simp only [Digs, List.mem_append]
  constructor
  · exact fun h => ⟨fun c hc => h c (Or.inl hc), fun c hc => h c (Or.inr hc)⟩
  · rintro ⟨h1, h2⟩ c (hc | hc)
    · exact h1 c hc
    · exact h2 c hc

/-- The conversions whose sequences are plain digit strings. -/
def plain : Conv → Option Nat
  | .d | .u => some 10
  | .o => some 8
  | _ => none

theorem body_plain {k : Conv} {r : Nat} (h : plain k = some r) (s : List Nat) (v : Nat) :
    Body k s v ↔ s ≠ [] ∧ Digs r s ∧ v = posVal r s := by
  cases k <;> simp [plain] at h <;> subst h
  · constructor
    · rintro ⟨h1, h2⟩; exact ⟨‹_›, ‹_›, rfl⟩
    · rintro ⟨h1, h2, rfl⟩; exact .d h1 h2
  · constructor
    · rintro ⟨h1, h2⟩; exact ⟨‹_›, ‹_›, rfl⟩
    · rintro ⟨h1, h2, rfl⟩; exact .u h1 h2
  · constructor
    · rintro ⟨h1, h2⟩; exact ⟨‹_›, ‹_›, rfl⟩
    · rintro ⟨h1, h2, rfl⟩; exact .o h1 h2

def hexy : Conv → Bool
  | .x | .X | .p => true
  | _ => false

theorem body_x (s : List Nat) (v : Nat) :
    Body .x s v ↔ (s ≠ [] ∧ Digs 16 s ∧ v = posVal 16 s) ∨
      ∃ x t, (x = 120 ∨ x = 88) ∧ s = 48 :: x :: t ∧ t ≠ [] ∧ Digs 16 t ∧ v = posVal 16 t := by
  constructor
  · intro h
    cases h with
    | x h1 h2 => exact Or.inl ⟨h1, h2, rfl⟩
    | xp hp h1 h2 =>
      rcases hp with rfl | rfl
      · exact Or.inr ⟨120, _, Or.inl rfl, rfl, h1, h2, rfl⟩
      · exact Or.inr ⟨88, _, Or.inr rfl, rfl, h1, h2, rfl⟩
  · rintro (⟨h1, h2, rfl⟩ | ⟨x, t, hx, rfl, h1, h2, rfl⟩)
    · exact .x h1 h2
    · have hp : IsHexPre [48, x] := by rcases hx with rfl | rfl <;> simp [IsHexPre]
      exact Body.xp (p := [48, x]) hp h1 h2

theorem body_hexy {k : Conv} (hk : hexy k = true) (s : List Nat) (v : Nat) :
    Body k s v ↔ Body .x s v := by
  cases k <;> simp [hexy] at hk
  · exact Iff.rfl
  · exact ⟨fun h => by cases h; assumption, .X⟩
  · exact ⟨fun h => by cases h; assumption, .p⟩

theorem body_i (s : List Nat) (v : Nat) :
    Body .i s v ↔ (∃ c t, s = c :: t ∧ c ≠ 48 ∧ Digs 10 s ∧ v = posVal 10 s) ∨
      (∃ t, s = 48 :: t ∧ Digs 8 t ∧ v = posVal 8 t) ∨
      ∃ x t, (x = 120 ∨ x = 88) ∧ s = 48 :: x :: t ∧ t ≠ [] ∧ Digs 16 t ∧ v = posVal 16 t := by
  constructor
  · intro h
    cases h with
    | iDec h1 h2 => exact Or.inl ⟨_, _, rfl, h1, h2, rfl⟩
    | iOct h1 => exact Or.inr (Or.inl ⟨_, rfl, h1, rfl⟩)
    | iHex hp h1 h2 =>
      rcases hp with rfl | rfl
      · exact Or.inr (Or.inr ⟨120, _, Or.inl rfl, rfl, h1, h2, rfl⟩)
      · exact Or.inr (Or.inr ⟨88, _, Or.inr rfl, rfl, h1, h2, rfl⟩)
  · rintro (⟨c, t, rfl, h1, h2, rfl⟩ | ⟨t, rfl, h2, rfl⟩ | ⟨x, t, hx, rfl, h1, h2, rfl⟩)
    · exact .iDec h1 h2
    · exact .iOct h2
    · have hp : IsHexPre [48, x] := by rcases hx with rfl | rfl <;> simp [IsHexPre]
      exact Body.iHex (p := [48, x]) hp h1 h2

/-- The hexadecimal form only. -/
def HexForm (s : List Nat) : Prop :=
  ∃ x t, (x = 120 ∨ x = 88) ∧ s = 48 :: x :: t ∧ t ≠ [] ∧ Digs 16 t

theorem isDig48 {r : Nat} (h : 0 < r) : isDig r 48 = true := by
  rw [isDig_iff]; exact ⟨0, by decide, h⟩

theorem not_digX {r x : Nat} (hr : r ≤ 16) (hx : x = 120 ∨ x = 88) : isDig r x = false := by
  rw [isDig_false]
  rintro ⟨v, h1, h2⟩
  rcases hx with rfl | rfl
  · have : v = 33 := by simpa [digitVal] using h1.symm
    omega
  · have : v = 33 := by simpa [digitVal] using h1.symm
    omega

/-! ### Which texts can be extended -/

theorem vb_plain {k : Conv} {r : Nat} (h : plain k = some r) (s : List Nat) :
    VB k s ↔ Digs r s := by
  have hr : 0 < r := by cases k <;> simp [plain] at h <;> omega
  constructor
  · rintro ⟨t, v, hb⟩
    exact (digs_append.1 ((body_plain h _ _).1 hb).2.1).1
  · intro hd
    exact ⟨[48], _, (body_plain h _ _).2 ⟨by simp, digs_append.2 ⟨hd, digs_cons.2
      ⟨isDig48 hr, digs_nil r⟩⟩, rfl⟩⟩

theorem vb_hexy {k : Conv} (hk : hexy k = true) (s : List Nat) :
    VB k s ↔ Digs 16 s ∨ ∃ x t, (x = 120 ∨ x = 88) ∧ s = 48 :: x :: t ∧ Digs 16 t := by
  constructor
  · rintro ⟨t, v, hb⟩
    rw [body_hexy hk, body_x] at hb
    rcases hb with ⟨_, h2, _⟩ | ⟨x, u, hx, he, _, h2, _⟩
    · exact Or.inl (digs_append.1 h2).1
    · match s, he with
      | [], _ => exact Or.inl (digs_nil _)
      | [a], he =>
        simp only [List.cons_append, List.cons.injEq] at he
        rw [he.1]; exact Or.inl (digs_cons.2 ⟨isDig48 (by omega), digs_nil _⟩)
      | a :: b :: s, he =>
        simp only [List.cons_append, List.cons.injEq] at he
        rw [he.1, he.2.1]
        have : Digs 16 (s ++ t) := by rw [he.2.2]; exact h2
        exact Or.inr ⟨x, s, hx, rfl, (digs_append.1 this).1⟩
  · rintro (h | ⟨x, t, hx, rfl, h⟩)
    · refine ⟨[48], _, (body_hexy hk _ _).2 ((body_x _ _).2 (Or.inl ⟨by simp, digs_append.2 ⟨h,
        digs_cons.2 ⟨isDig48 (by omega), digs_nil _⟩⟩, rfl⟩))⟩
    · refine ⟨[48], _, (body_hexy hk _ _).2 ((body_x _ _).2 (Or.inr ⟨x, t ++ [48], hx, by simp,
        by simp, digs_append.2 ⟨h, digs_cons.2 ⟨isDig48 (by omega), digs_nil _⟩⟩, rfl⟩))⟩

theorem vb_i (s : List Nat) :
    VB .i s ↔ s = [] ∨ (∃ c t, s = c :: t ∧ c ≠ 48 ∧ Digs 10 s) ∨ (∃ t, s = 48 :: t ∧ Digs 8 t) ∨
      ∃ x t, (x = 120 ∨ x = 88) ∧ s = 48 :: x :: t ∧ Digs 16 t := by
  constructor
  · rintro ⟨t, v, hb⟩
    rw [body_i] at hb
    match s with
    | [] => exact Or.inl rfl
    | a :: s =>
      right
      rcases hb with ⟨c, u, he, hc, hd, _⟩ | ⟨u, he, hd, _⟩ | ⟨x, u, hx, he, _, hd, _⟩
      · simp only [List.cons_append, List.cons.injEq] at he
        rw [he.1]
        refine Or.inl ⟨c, s, rfl, hc, ?_⟩
        rw [he.1, List.cons_append] at hd
        rw [digs_cons] at hd ⊢
        exact ⟨hd.1, (digs_append.1 hd.2).1⟩
      · simp only [List.cons_append, List.cons.injEq] at he
        rw [he.1]
        rw [← he.2] at hd
        exact Or.inr (Or.inl ⟨s, rfl, (digs_append.1 hd).1⟩)
      · match s, he with
        | [], he =>
          simp only [List.cons_append, List.cons.injEq] at he
          rw [he.1]; exact Or.inr (Or.inl ⟨[], rfl, digs_nil _⟩)
        | b :: s, he =>
          simp only [List.cons_append, List.cons.injEq] at he
          rw [he.1, he.2.1]
          rw [← he.2.2] at hd
          exact Or.inr (Or.inr ⟨x, s, hx, rfl, (digs_append.1 hd).1⟩)
  · rintro (rfl | ⟨c, t, rfl, hc, hd⟩ | ⟨t, rfl, hd⟩ | ⟨x, t, hx, rfl, hd⟩)
    · exact ⟨[48], _, (body_i _ _).2 (Or.inr (Or.inl ⟨[], rfl, digs_nil _, rfl⟩))⟩
    · exact ⟨[], _, (body_i _ _).2 (Or.inl ⟨c, t, by simp, hc, by simpa using hd, rfl⟩)⟩
    · exact ⟨[], _, (body_i _ _).2 (Or.inr (Or.inl ⟨t, by simp, hd, rfl⟩))⟩
    · exact ⟨[48], _, (body_i _ _).2 (Or.inr (Or.inr ⟨x, t ++ [48], hx, by simp, by simp,
        digs_append.2 ⟨hd, digs_cons.2 ⟨isDig48 (by omega), digs_nil _⟩⟩, rfl⟩))⟩

/-! ### Values -/

theorem fold_mod (M r : Nat) : ∀ (s : List Nat) (n m : Nat), n = m % M →
    s.foldl (fun a c => (a * r + (digitVal c).getD 0) % M) n =
      s.foldl (fun a c => a * r + (digitVal c).getD 0) m % M
  | [], n, m, h => by simpa using h
  | c :: s, n, m, h => by
    simp only [List.foldl_cons]
    apply fold_mod
    rw [h, Nat.add_mod, Nat.mul_mod, Nat.mod_mod, ← Nat.mul_mod, ← Nat.add_mod]

theorem fold_val (W r : Nat) (s : List Nat) :
    s.foldl (fun a c => (a * r + (digitVal c).getD 0) % 2 ^ W) 0 = posVal r s % 2 ^ W := by
  unfold posVal
  exact fold_mod _ r s 0 0 (by simp)

theorem posVal_zero (r : Nat) (s : List Nat) : posVal r (48 :: s) = posVal r s := by
  have : (digitVal 48).getD 0 = 0 := by decide
  simp [posVal, this]

/-! ### The scanner after the sign -/

/-- `b` is the longest prefix of `inp` within `w` that is a prefix of a body. -/
structure BodyRes (k : Conv) (inp : List Nat) (w : Nat) (b : List Nat) : Prop where
  pre : b <+: inp
  len : b.length ≤ w
  vb : VB k b
  nx : ∀ c, b ++ [c] <+: inp → b.length < w → ¬ VB k (b ++ [c])

/-- What the scanner returns, given the body it took. -/
def Result (W : Nat) (k : Conv) (inp : List Nat) (w : Nat) (neg : Bool) (ch : Int) (res : NStep)
    (b : List Nat) : Prop :=
  (∃ v t, Body k b v ∧ res = .stop t ∧ t.inp = inp.drop b.length ∧ t.ch = ch + b.length ∧
    t.neg = neg ∧ t.n = v % 2 ^ W) ∨
  ((∀ v, ¬ Body k b v) ∧ res = .ret (decide (b = inp ∧ b.length < w)) (inp.drop b.length))

theorem step_zero (W : Nat) (inp : List Nat) (w b0 : Nat) (neg g : Bool) (n : Nat) (ch : Int) :
    numStep W ⟨.zero, inp, w, b0, neg, g, n, ch⟩ =
      (match w, inp with
       | 0, inp => .ret false inp
       | _ + 1, [] => .ret true []
       | w + 1, c :: t =>
         if c = 48 then
           .go ⟨if b0 ||| 16 = 16 then .x else .digit, t, w, b0, neg, true, n, ch + 1⟩
         else .go ⟨.digit, c :: t, w + 1, b0, neg, g, n, ch⟩) := by
  match w, inp with
  | 0, inp => unfold numStep; simp [ungetc_eof]
  | w + 1, [] => unfold numStep; simp [ungetc_eof, fgetc_nil]
  | w + 1, c :: t =>
    unfold numStep
    have h0 : ¬ ((c : Int) < 0) := by omega
    have h48 : ((c : Int) = 48) ↔ c = 48 := by omega
    simp only [Nat.zero_lt_succ, if_true, fgetc_cons, ungetc_char, h0, if_false, h48,
      Bool.false_eq_true, Nat.add_sub_cancel]

theorem step_x (W : Nat) (inp : List Nat) (w b0 : Nat) (neg g : Bool) (n : Nat) (ch : Int)
    (hb : ∀ c ∈ inp, c < 256) :
    numStep W ⟨.x, inp, w, b0, neg, g, n, ch⟩ =
      (match w, inp with
       | w + 1, c :: t =>
         if c = 120 ∨ c = 88 then .go ⟨.digit, t, w, 16, neg, false, n, ch + 1⟩
         else .go ⟨.digit, c :: t, w + 1, if b0 = 0 then 8 else b0, neg, g, n, ch⟩
       | w, inp => .stop ⟨.digit, inp, w, if b0 = 0 then 8 else b0, neg, g, n, ch⟩) := by
  have he := upx_eof
  match w, inp with
  | 0, inp => unfold numStep; simp [ungetc_eof, he]
  | w + 1, [] => unfold numStep; simp [ungetc_eof, fgetc_nil, he]
  | w + 1, c :: t =>
    unfold numStep
    have h0 : ¬ ((c : Int) < 0) := by omega
    have hx := upx_table c (hb c (by simp))
    simp only [Nat.zero_lt_succ, if_true, fgetc_cons, ungetc_char, h0, if_false, hx,
      Bool.false_eq_true, Nat.add_sub_cancel]

/-- Digits of a plain base, from the digit state on. -/
theorem digit_plain {k : Conv} {r : Nat} (W : Nat) (h : plain k = some r) (f : Nat) (inp : List Nat)
    (w : Nat) (neg : Bool) (ch : Int) (hb : ∀ c ∈ inp, c < 256) (hf : inp.length < f) :
    BodyRes k inp w (dspan r w inp) ∧
    Result W k inp w neg ch (numLoop W f ⟨.digit, inp, w, r, neg, false, 0, ch⟩) (dspan r w inp) := by
  have hr : r ≠ 0 := by cases k <;> simp [plain] at h <;> omega
  refine ⟨⟨dspan_prefix _ _ _, dspan_len _ _ _, (vb_plain h _).2 (dspan_digs _ _ _), ?_⟩, ?_⟩
  · intro c hc hl hv
    have := dspan_next r w inp c hc hl
    rw [vb_plain h, digs_append, digs_cons] at hv
    rw [hv.2.1] at this; cases this
  · rw [loop_digit W f inp w r neg false 0 ch hb hf, if_neg hr]
    by_cases he : dspan r w inp = []
    · right
      refine ⟨fun v hv => ?_, ?_⟩
      · exact ((body_plain h _ _).1 hv).1 he
      · rw [if_neg (by simp [he]), he]
        simp only [List.length_nil, List.drop_zero]
        congr 1
        apply decide_eq_decide.2
        constructor
        · rintro ⟨a, b⟩; exact ⟨b.symm, a⟩
        · rintro ⟨a, b⟩; exact ⟨b, a.symm⟩
    · left
      rw [if_pos (Or.inr he)]
      exact ⟨_, _, (body_plain h _ _).2 ⟨he, dspan_digs _ _ _, rfl⟩, rfl, rfl, rfl, rfl,
        fold_val W r _⟩

theorem or16 {b : Nat} (h : b = 10 ∨ b = 8) : ¬ (b ||| 16 = 16) := by
  rcases h with rfl | rfl <;> decide

theorem scan_plain {k : Conv} {r : Nat} (W : Nat) (h : plain k = some r) (f : Nat) (inp : List Nat)
    (w : Nat) (neg : Bool) (ch : Int) (hb : ∀ c ∈ inp, c < 256) (hf : inp.length + 1 < f) :
    ∃ b, BodyRes k inp w b ∧
    Result W k inp w neg ch (numLoop W f ⟨.zero, inp, w, base0 k, neg, false, 0, ch⟩) b := by
  have hk : base0 k = r := by cases k <;> simp [plain] at h <;> subst h <;> rfl
  have hr : r = 10 ∨ r = 8 := by cases k <;> simp [plain] at h <;> omega
  have hr0 : 0 < r := by omega
  rw [hk]
  obtain ⟨f, rfl⟩ : ∃ g, f = g + 1 := ⟨f - 1, by omega⟩
  unfold numLoop
  rw [step_zero]
  have hnil : ∀ v, ¬ Body k [] v := fun v hv => ((body_plain h _ _).1 hv).1 rfl
  match w, inp with
  | 0, inp =>
    refine ⟨[], ⟨by simp, by simp, (vb_plain h _).2 (digs_nil _), fun c _ hl => by simp at hl⟩,
      Or.inr ⟨hnil, ?_⟩⟩
    simp
  | w + 1, [] =>
    refine ⟨[], ⟨by simp, by simp, (vb_plain h _).2 (digs_nil _), fun c hc => by simp at hc⟩,
      Or.inr ⟨hnil, ?_⟩⟩
    simp
  | w + 1, c :: t =>
    by_cases h48 : c = 48
    · subst h48
      simp only [if_true, or16 hr, if_false]
      have hbt : ∀ c ∈ t, c < 256 := fun x hx => hb x (by simp [hx])
      rw [loop_digit W f t w r neg true 0 _ hbt (by simp at hf; omega)]
      have hrn : r ≠ 0 := by omega
      simp only [true_or, if_true, if_neg hrn]
      have hd := dspan_digs r w t
      refine ⟨48 :: dspan r w t, ⟨(List.prefix_cons_inj _).2 (dspan_prefix _ _ _), ?_, ?_, ?_⟩, Or.inl ?_⟩
      · simpa using dspan_len r w t
      · exact (vb_plain h _).2 (digs_cons.2 ⟨isDig48 hr0, hd⟩)
      · intro c hc hl hv
        have hn := dspan_next r w t c (by simpa using hc) (by simpa using hl)
        rw [vb_plain h] at hv
        rw [List.cons_append, digs_cons, digs_append, digs_cons] at hv
        rw [hv.2.2.1] at hn; cases hn
      · refine ⟨_, _, (body_plain h _ _).2 ⟨by simp, digs_cons.2 ⟨isDig48 hr0, hd⟩, rfl⟩, rfl, ?_, ?_,
          rfl, ?_⟩
        · simp
        · simp; omega
        · rw [posVal_zero]; exact fold_val W r _
    · simp only [h48, if_false]
      exact ⟨_, digit_plain W h f (c :: t) (w + 1) neg ch hb (by omega)⟩

end Smlr.Scan
