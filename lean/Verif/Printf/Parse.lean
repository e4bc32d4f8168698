import Verif.Printf.Conv
set_option autoImplicit false
namespace Smlr.Printf
open Spec

theorem parseLen_ok (l : Len) (k : Conv) (rest : Str) : ∃ c r, l.text ++ k.text :: rest = c :: r ∧
    parseLen c r = .ok (lcode l, k.text, rest) ∧ dig c = false ∧ ¬ isFlag c ∧ c ≠ 0x2E ∧ c ≠ 0x2A ∧ c ≠ 0x25 := by
  have hk : ∀ k : Conv, dig k.text = false ∧ ¬ isFlag k.text ∧ k.text ≠ 0x2E ∧ k.text ≠ 0x2A ∧ k.text ≠ 0x25 := by
    intro k; unfold isFlag; cases k <;> decide +kernel
  cases l with
  | none => exact ⟨_, _, rfl, by cases k <;> rfl, hk k⟩
  | h => exact ⟨_, _, rfl, by cases k <;> rfl, by unfold isFlag; decide +kernel⟩
  | _ => exact ⟨_, _, rfl, rfl, by unfold isFlag; decide +kernel⟩

theorem parsePrec_ok (p : Prec) (c : UInt8) (r : Str) (vl vl' : List Arg) (prec : Option Nat)
    (hd : dig c = false) (hf : ¬ isFlag c) (h1 : c ≠ 0x2E) (h2 : c ≠ 0x2A) (h3 : c ≠ 0x25)
    (hp : match p with | .num ds => value ds < 2 ^ 31 - 2 | _ => True)
    (ht : precOf p vl = some (prec, vl')) : ∃ c' r', p.text ++ c :: r = c' :: r' ∧
    (∃ P : Int, parsePrec c' r' vl = .ok (P, c, r, vl') ∧ P < 2 ^ 31 - 2 ∧
      ((prec = none ∧ P < 0) ∨ ∃ q : Nat, prec = some q ∧ P = q)) ∧
    dig c' = false ∧ ¬ isFlag c' ∧ c' ≠ 0x2A ∧ c' ≠ 0x25 := by
  have dot : dig (chr '.') = false ∧ ¬ isFlag (chr '.') ∧ (chr '.') ≠ 0x2A ∧ (chr '.') ≠ 0x25 := by
    unfold isFlag; decide +kernel
  have e2E : chr '.' = 0x2E := by decide
  have e2A : chr '*' = 0x2A := by decide
  cases p with
  | none =>
    simp only [precOf, Option.some.injEq, Prod.mk.injEq] at ht
    refine ⟨c, r, rfl, ⟨-1, ?_, by omega, Or.inl ⟨ht.1.symm, by omega⟩⟩, hd, hf, h2, h3⟩
    unfold parsePrec; rw [if_neg h1, ht.2]
  | num ds =>
    simp only [precOf, Option.some.injEq, Prod.mk.injEq] at ht
    simp only at hp
    refine ⟨chr '.', ds.map digitText ++ c :: r, rfl, ⟨value ds, ?_, by omega, Or.inr ⟨_, ht.1.symm, rfl⟩⟩, dot⟩
    unfold parsePrec
    rw [if_pos e2E]
    cases ds with
    | nil => simp only [List.map_nil, List.nil_append]; rw [if_neg (by simp [hd]), if_neg h2, ht.2]; rfl
    | cons d ds =>
      simp only [List.map_cons, List.cons_append]
      rw [if_pos (dig_digit d).1]
      have := parseNum_ok c r hd (d :: ds) 0 (show value (d :: ds) < _ by omega)
      simp only [List.map_cons, List.cons_append] at this
      rw [this, ht.2]; rfl
  | star =>
    refine ⟨chr '.', chr '*' :: c :: r, rfl, ?_, dot⟩
    match vl, ht with
    | .int v :: vl, ht =>
      unfold parsePrec
      rw [if_pos e2E]
      simp only
      rw [if_neg (by decide +kernel), if_pos e2A]
      simp only [precOf] at ht
      split at ht
      · rename_i hv
        simp only [Option.some.injEq, Prod.mk.injEq] at ht
        exact ⟨v.toInt, by rw [ht.2], by omega, Or.inl ⟨ht.1.symm, hv⟩⟩
      · split at ht
        · rename_i hv1 hv2
          simp only [Option.some.injEq, Prod.mk.injEq] at ht
          exact ⟨v.toInt, by rw [ht.2], by omega, Or.inr ⟨_, ht.1.symm, by omega⟩⟩
        · cases ht
    | [], ht => simp [precOf] at ht
    | .str _ :: _, ht => simp [precOf] at ht

theorem digit_head : ∀ d : Fin 10, d ≠ 0 → ¬ isFlag (digitText d) ∧ digitText d ≠ 0x25 := by
  unfold isFlag; decide +kernel

theorem parseWidth_ok (fs : List Flag) (w : Width) (c : UInt8) (r : Str) (vl vl' : List Arg) (left : Bool) (width : Nat)
    (hd : dig c = false) (hf : ¬ isFlag c) (h2 : c ≠ 0x2A) (h3 : c ≠ 0x25)
    (hp : match w with | .num (d :: ds) => d ≠ 0 ∧ value (d :: ds) < 2 ^ 31 | .num [] => False | _ => True)
    (ht : widthOf fs w vl = some (left, width, vl')) : ∃ c' r', w.text ++ c :: r = c' :: r' ∧
    (∃ f, ∃ W : Int, parseWidth c' r' (fs.foldl setFlag {}) vl = .ok (f, W, c, r, vl') ∧ FlagsOk f fs left ∧
      (W = width ∨ (W = -1 ∧ width = 0))) ∧
    ¬ isFlag c' ∧ c' ≠ 0x25 := by
  obtain ⟨g1, g2, g3, g4⟩ := flags_eq fs
  have fok : FlagsOk (fs.foldl setFlag {}) fs (decide (.minus ∈ fs)) := ⟨g1, g2, g3, by rw [g4]; simp⟩
  have e2A : chr '*' = 0x2A := by decide
  cases w with
  | none =>
    simp only [widthOf, Option.some.injEq, Prod.mk.injEq] at ht
    refine ⟨c, r, rfl, ⟨_, -1, ?_, ht.1 ▸ fok, Or.inr ⟨rfl, ht.2.1.symm⟩⟩, hf, h3⟩
    unfold parseWidth; rw [if_neg (by simp [hd]), if_neg h2, ht.2.2]
  | num ds =>
    simp only [widthOf, Option.some.injEq, Prod.mk.injEq] at ht
    match ds, hp with
    | d :: ds, hp =>
      refine ⟨digitText d, ds.map digitText ++ c :: r, rfl, ⟨_, value (d :: ds), ?_, ht.1 ▸ fok, Or.inl ?_⟩, digit_head d hp.1⟩
      · unfold parseWidth
        rw [if_pos (dig_digit d).1]
        have := parseNum_ok c r hd (d :: ds) 0 hp.2
        simp only [List.map_cons, List.cons_append] at this
        rw [this, ht.2.2]; rfl
      · rw [ht.2.1]
  | star =>
    refine ⟨chr '*', c :: r, rfl, ?_, by unfold isFlag; decide +kernel⟩
    match vl, ht with
    | .int v :: vl, ht =>
      unfold parseWidth
      rw [if_neg (by decide +kernel), if_pos e2A]
      simp only [widthOf] at ht
      have hmin : v = BitVec.intMin 32 ↔ v.toInt = -2 ^ 31 := by
        constructor
        · intro h; rw [h]; decide
        · intro h; apply BitVec.eq_of_toInt_eq; rw [h]; decide
      split at ht
      · cases ht
      · rename_i hv
        simp only [Option.some.injEq, Prod.mk.injEq] at ht
        simp only
        rw [if_neg (fun h => hv (hmin.1 h))]
        by_cases hneg : v.toInt < 0
        · rw [if_pos hneg]
          refine ⟨{ fs.foldl setFlag {} with ljust := true, lzeroes := false }, -v.toInt, by rw [ht.2.2], ⟨?_, g2, g3, ?_⟩, Or.inl (by omega)⟩
          · rw [← ht.1]; simp [hneg]
          · rw [← ht.1]; simp [hneg]
        · rw [if_neg hneg]
          refine ⟨_, v.toInt, by rw [ht.2.2], ?_, Or.inl (by omega)⟩
          rw [← ht.1]; simpa [hneg] using fok
    | [], ht => simp [widthOf] at ht
    | .str _ :: _, ht => simp [widthOf] at ht

theorem pad_ok (k : Sink) (st : St) (left : Bool) (width : Nat) (W : Int) (hW : W = width ∨ (W = -1 ∧ width = 0)) (s : Str) :
    (let pad := (W - s.length).toNat
     let st := if left = true then st else rep k 0x20 pad st
     let st := putAll k s st
     if left = true then rep k 0x20 pad st else st) = putAll k (justify left width s) st := by
  have e : (W - s.length).toNat = width - s.length := by omega
  have e20 : chr ' ' = 0x20 := by decide
  simp only [e, rep_eq]
  unfold justify
  cases left <;> simp [putAll_append, e20]

theorem convChar_ok (k : Sink) (st : St) (f : Flags) (fs : List Flag) (left : Bool) (hf : FlagsOk f fs left) (width : Nat) (W : Int)
    (hW : W = width ∨ (W = -1 ∧ width = 0)) (v : BitVec 32) :
    convChar k st f W v = putAll k (justify left width [UInt8.ofNat (v.toNat % 256)]) st := by
  rw [← pad_ok k st left width W hW]
  unfold convChar
  rw [hf.ljust]
  have : UInt8.ofNat (v.toNat % 256) = UInt8.ofNat v.toNat := by
    apply UInt8.toNat_inj.1; simp
  rw [this]
  rfl

theorem convStr_ok (k : Sink) (st : St) (f : Flags) (fs : List Flag) (left : Bool) (hf : FlagsOk f fs left) (width : Nat) (W : Int)
    (hW : W = width ∨ (W = -1 ∧ width = 0)) (P : Int) (prec : Option Nat)
    (hP : (prec = none ∧ P < 0) ∨ ∃ q : Nat, prec = some q ∧ P = q) (s : Str) (hs : s.length < 2 ^ 31) :
    convStr k st f W P (some s) = some (putAll k (justify left width (match prec with | none => s | some n => s.take n)) st) := by
  rw [← pad_ok k st left width W hW]
  unfold convStr
  rw [hf.ljust]
  simp only [Option.getD_some]
  rcases hP with ⟨e, h⟩ | ⟨q, e, h⟩
  · subst e
    simp only [if_pos h, List.take_length]
    rw [if_neg (by omega)]
  · subst e h
    simp only [if_neg (show ¬ ((q : Int) < 0) by omega), Int.toNat_natCast, List.length_take]
    rw [if_neg (by omega), Nat.min_comm, List.take_eq_take_min (i := q)]
end Smlr.Printf
