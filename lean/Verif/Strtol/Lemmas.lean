import Verif.Strtol.Model
import Verif.Strtol.Spec
set_option autoImplicit false
namespace Smlr.Strtol
open Smlr.Ctype

theorem allBytes {P : UInt8 → Prop} (h : ∀ n : Fin 256, P (UInt8.ofNat n.val)) : ∀ c, P c := by
  intro c
  have := h ⟨c.toNat, c.toNat_lt⟩
  simpa using this

theorem isspace_iff (c : UInt8) : isspace (c.toNat : Int) ≠ 0 ↔ Spec.isWs c = true := by
  revert c; exact allBytes (by decide +kernel)

theorem isdigit_iff (c : UInt8) : isdigit (c.toNat : Int) ≠ 0 ↔ (48 ≤ c.toNat ∧ c.toNat ≤ 57) := by
  revert c; exact allBytes (by decide +kernel)

theorem digitChar_eq (c : UInt8) :
    digitChar c.toNat = (Spec.digit? c).map Int.ofNat := by
  revert c; exact allBytes (by decide +kernel)

theorem digit_zero (b : Nat) : Spec.isDigitIn b 0 = false := by
  simp [Spec.isDigitIn, Spec.digit?]

theorem skipSpace_eq (l : List UInt8) : skipSpace l = l.dropWhile Spec.isWs := by
  induction l with
  | nil => rfl
  | cons c t ih =>
    by_cases h : Spec.isWs c = true
    · have := (isspace_iff c).2 h
      simp only [skipSpace, List.dropWhile_cons, h, ih, if_pos this, if_true]
    · have h' := mt (isspace_iff c).1 h
      simp only [skipSpace, List.dropWhile_cons, if_neg h', h]
      simp

theorem toNat_eq_iff (c : UInt8) (n : Nat) (h : n < 256) : c.toNat = n ↔ c = UInt8.ofNat n := by
  constructor
  · intro e; subst e; simp
  · intro e; subst e; simp [UInt8.toNat_ofNat']; omega

theorem sign_eq (l : List UInt8) : sign l = Spec.splitSign l := by
  cases l with
  | nil => rfl
  | cons c t =>
    have hcur : cur (c :: t) = c.toNat := rfl
    unfold sign
    rw [hcur]
    by_cases h1 : c = 0x2D
    · subst h1; rfl
    · have h1' : ¬ c.toNat = 0x2D := by
        rw [toNat_eq_iff _ _ (by decide)]; exact h1
      by_cases h2 : c = 0x2B
      · subst h2; rfl
      · have h2' : ¬ c.toNat = 0x2B := by
          rw [toNat_eq_iff _ _ (by decide)]; exact h2
        rw [if_neg h1', if_neg h2']
        unfold Spec.splitSign
        split <;> simp_all

/-- fold used by `Spec.value`, started at an arbitrary accumulator -/
def valFrom (b v : Nat) (ds : List UInt8) : Nat :=
  ds.foldl (fun acc c => acc * b + (Spec.digit? c).getD 0) v

theorem valFrom_cons (b v : Nat) (c : UInt8) (ds) :
    valFrom b v (c :: ds) = valFrom b (v * b + (Spec.digit? c).getD 0) ds := rfl

theorem digitLoop_eq (b : Nat) (hb : 1 ≤ b) (l : List UInt8) :
    ∀ (v cnt n : Nat) (tb : Bool), n = v % 2^32 → tb = decide (v ≥ 2^32) →
      let r := digitLoop b l n tb cnt
      let ds := l.takeWhile (Spec.isDigitIn b)
      r.rest = l.dropWhile (Spec.isDigitIn b) ∧
      (cnt < 2^32 → r.cnt = (cnt + ds.length) % 2^32) ∧
      r.n = valFrom b v ds % 2^32 ∧ r.toobig = decide (valFrom b v ds ≥ 2^32) := by
  induction l with
  | nil =>
    intro v cnt n tb hn htb
    simp only [digitLoop, List.takeWhile_nil, List.dropWhile_nil, valFrom, List.foldl_nil,
      List.length_nil, Nat.add_zero]
    exact ⟨trivial, fun h => (Nat.mod_eq_of_lt h).symm, hn, htb⟩
  | cons ch t ih =>
    intro v cnt n tb hn htb
    have stop : Spec.isDigitIn b ch = false →
        digitLoop b (ch :: t) n tb cnt = ⟨n, tb, cnt, ch :: t⟩ := by
      intro hd
      unfold digitLoop
      split
      · rfl
      · rw [digitChar_eq]
        unfold Spec.isDigitIn at hd
        cases hdig : Spec.digit? ch with
        | none => rfl
        | some d =>
          rw [hdig] at hd
          simp only [decide_eq_false_iff_not] at hd
          simp only [Option.map_some]
          rw [if_pos]
          show (Int.ofNat d : Int) ≥ (b : Int)
          simp only [Int.ofNat_eq_natCast]; omega
    cases hd : Spec.isDigitIn b ch with
    | false =>
      simp only [stop hd, List.takeWhile_cons, List.dropWhile_cons, hd, valFrom, List.foldl_nil,
        List.length_nil, Nat.add_zero, Bool.false_eq_true, if_false]
      exact ⟨trivial, fun h => (Nat.mod_eq_of_lt h).symm, hn, htb⟩
    | true =>
      have hne : ¬ ch.toNat = 0 := by
        rw [toNat_eq_iff _ _ (by decide)]
        intro e; subst e
        rw [show (UInt8.ofNat 0) = 0 from rfl, digit_zero] at hd
        exact absurd hd (by simp)
      cases hdig : Spec.digit? ch with
      | none => simp [Spec.isDigitIn, hdig] at hd
      | some d =>
        have hdb : d < b := by simpa [Spec.isDigitIn, hdig] using hd
        simp only [List.takeWhile_cons, List.dropWhile_cons, hd, if_true, valFrom_cons, hdig,
          Option.getD_some, List.length_cons]
        have hstep : digitLoop b (ch :: t) n tb cnt =
            digitLoop b t ((v * b + d) % 2^32) (decide (v * b + d ≥ 2^32)) ((cnt + 1) % 2^32) := by
          conv => lhs; unfold digitLoop
          rw [if_neg hne, digitChar_eq, hdig]
          simp only [Option.map_some, Int.ofNat_eq_natCast]
          rw [if_neg (by omega)]
          have e1 : (((n * b % 2^32 : Nat) : Int) + (d : Int)).toNat % 2^32 = (v * b + d) % 2^32 := by
            have : (((n * b % 2^32 : Nat) : Int) + (d : Int)).toNat = n * b % 2^32 + d := by omega
            rw [this, hn]
            simp [Nat.add_mod, Nat.mul_mod]
          rw [e1]
          congr 1
          -- the overflow flag
          subst hn
          subst htb
          by_cases hv : v ≥ 2^32
          · have : v * b + d ≥ 2^32 := by
              calc 2^32 ≤ v := hv
                _ = v * 1 := (Nat.mul_one v).symm
                _ ≤ v * b := Nat.mul_le_mul_left v hb
                _ ≤ _ := Nat.le_add_right _ _
            simp only [hv, this, decide_true]
            split <;> (try rfl)
            split <;> rfl
          · have hv' : v % 2^32 = v := Nat.mod_eq_of_lt (by omega)
            rw [hv']
            have hq : v > (2^32 - 1) / b ↔ v * b ≥ 2^32 := by
              rw [gt_iff_lt, Nat.div_lt_iff_lt_mul (by omega)]
              omega
            by_cases hm : v * b ≥ 2^32
            · have h2 : v * b + d ≥ 2^32 := by omega
              rw [if_pos (hq.2 hm)]
              simp only [h2, decide_true]
              split <;> rfl
            · rw [if_neg (fun h => hm (hq.1 h))]
              have hmm : v * b % 2^32 = v * b := Nat.mod_eq_of_lt (by omega)
              rw [hmm]
              by_cases h2 : v * b + d ≥ 2^32
              · rw [if_pos (by omega)]; simp [h2]
              · rw [if_neg (by omega)]; simp only [h2, hv, decide_false]
        rw [hstep]
        have := ih (v * b + d) ((cnt + 1) % 2^32) _ _ rfl rfl
        simp only at this
        obtain ⟨h1, h2, h3, h4⟩ := this
        refine ⟨h1, fun hc => ?_, h3, h4⟩
        rw [h2 (Nat.mod_lt _ (by decide))]
        omega

theorem dropWhile_length_le {α} (p : α → Bool) (l : List α) :
    (l.dropWhile p).length ≤ l.length := (List.dropWhile_sublist p).length_le

theorem take_drop_length {α} (p : α → Bool) (l : List α) :
    (l.takeWhile p).length + (l.dropWhile p).length = l.length := by
  conv => rhs; rw [← List.takeWhile_append_dropWhile (p := p) (l := l)]
  rw [List.length_append]

/-- what the base prefix code and the digit loop together deliver -/
theorem prefix_loop (base : Nat) (hbase : base = 0 ∨ 2 ≤ base) (l : List UInt8) (hl : l.length < 2^32) :
    let p := basePrefix base l
    let r := digitLoop p.1 p.2.2 0 false 0
    let q := Spec.splitBase base l
    let ds := q.2.takeWhile (Spec.isDigitIn q.1)
    r.n = Spec.value q.1 ds % 2^32 ∧ r.toobig = decide (Spec.value q.1 ds ≥ 2^32) ∧
    (∀ s : List UInt8, l.length ≤ s.length →
      endPos s r.rest r.cnt p.2.1 =
        if ds = [] then 0 else (s.length - q.2.length) + ds.length) := by
  by_cases hA : (base = 0 ∨ base = 16) ∧ cur l = 0x30 ∧ (cur l.tail = 0x78 ∨ cur l.tail = 0x58)
  · -- "0x" present
    obtain ⟨hb, h0, hx⟩ := hA
    match l, h0, hx, hl with
    | [], h0, _, _ => simp [cur] at h0
    | [c], _, hx, _ => simp [cur] at hx
    | c :: x :: t, h0, hx, hl =>
      have hc : c = 0x30 := by
        have := h0; simp only [cur, List.headD_cons] at this
        exact (toNat_eq_iff _ _ (by decide)).1 this
      have hx' : x = 0x78 ∨ x = 0x58 := by
        simp only [cur, List.headD_cons, List.tail_cons] at hx
        exact hx.imp (toNat_eq_iff _ _ (by decide)).1 (toNat_eq_iff _ _ (by decide)).1
      have hp : basePrefix base (c :: x :: t) = (16, true, t) := by
        unfold basePrefix
        rw [if_pos ⟨hb, h0, hx⟩]
        rfl
      rw [hp]
      subst hc
      simp only
      have hloop := digitLoop_eq 16 (by omega) t 0 0 0 false (by simp) (by simp)
      simp only at hloop
      obtain ⟨l1, l2, l3, l4⟩ := hloop
      have l2 := l2 (by omega)
      have htd := take_drop_length (Spec.isDigitIn 16) t
      simp only [List.length_cons] at hl
      by_cases hh : t.takeWhile (Spec.isDigitIn 16) = []
      · -- no hexadecimal digit follows
        have hsplit : Spec.splitBase base (0x30 :: x :: t) =
            ((if base = 0 then 8 else base), 0x30 :: x :: t) := by
          unfold Spec.splitBase
          rw [if_pos hb]
          have : Spec.hexPrefix (0x30 :: x :: t) = none := by
            cases t with
            | nil => simp [Spec.hexPrefix]
            | cons h t' =>
              have : Spec.isDigitIn 16 h = false := by
                cases hd : Spec.isDigitIn 16 h with
                | false => rfl
                | true => simp [List.takeWhile_cons, hd] at hh
              simp [Spec.hexPrefix, this]
          rw [this]
          simp
        rw [hsplit]
        simp only
        have hbb : (if base = 0 then 8 else base) = 8 ∨ (if base = 0 then 8 else base) = 16 := by
          rcases hb with h | h <;> simp [h]
        have hds : (0x30 :: x :: t).takeWhile (Spec.isDigitIn (if base = 0 then 8 else base)) = [0x30] := by
          rcases hbb with h | h <;> rw [h] <;> rcases hx' with h | h <;> subst h <;>
            simp [List.takeWhile_cons, Spec.isDigitIn, Spec.digit?]
        rw [hds]
        rw [hh] at l2 l3 l4
        refine ⟨?_, ?_, ?_⟩
        · rw [l3]; simp [valFrom, Spec.value, Spec.digit?]
        · rw [l4]; simp [valFrom, Spec.value, Spec.digit?]
        · intro s hs
          rw [l2, l1]
          simp only [List.length_cons] at hs
          rw [hh] at htd
          simp only [List.length_nil] at htd
          simp [endPos]
          omega
      · have hsplit : Spec.splitBase base (0x30 :: x :: t) = (16, t) := by
          unfold Spec.splitBase
          rw [if_pos hb]
          cases t with
          | nil => simp at hh
          | cons h t' =>
            have : Spec.isDigitIn 16 h = true := by
              cases hd : Spec.isDigitIn 16 h with
              | true => rfl
              | false => simp [List.takeWhile_cons, hd] at hh
            simp [Spec.hexPrefix, this, hx']
        rw [hsplit]
        simp only
        refine ⟨l3, l4, ?_⟩
        intro s hs
        rw [if_neg hh, l1, l2]
        have hpos : 0 < (t.takeWhile (Spec.isDigitIn 16)).length :=
          List.length_pos_iff.2 hh
        simp only [List.length_cons] at hs
        have : (0 + (t.takeWhile (Spec.isDigitIn 16)).length) % 2^32 =
            (t.takeWhile (Spec.isDigitIn 16)).length := by omega
        rw [this]
        unfold endPos
        rw [if_neg (by omega), if_pos (by omega)]
        omega
  · have hp : basePrefix base l =
        ((if base = 0 then (if cur l = 0x30 then 8 else 10) else base), false, l) := by
      unfold basePrefix
      rw [if_neg hA]
      split <;> simp_all
    have hs : Spec.splitBase base l =
        ((if base = 0 then (if cur l = 0x30 then 8 else 10) else base), l) := by
      have hhead : (l.head? = some 0x30) ↔ cur l = 0x30 := by
        cases l with
        | nil => simp [cur]
        | cons c t => simp [cur, toNat_eq_iff _ 0x30 (by decide)]
      unfold Spec.splitBase
      have : (if base = 0 ∨ base = 16 then Spec.hexPrefix l else none) = none := by
        split
        · rename_i hb
          unfold Spec.hexPrefix
          split
          · rename_i x h t
            rw [if_neg]
            rintro ⟨hx, _⟩
            refine hA ⟨hb, rfl, ?_⟩
            rcases hx with h | h <;> subst h <;> simp [cur]
          · rfl
        · rfl
      rw [this]
      simp only [hhead]
    rw [hp, hs]
    simp only
    generalize hB : (if base = 0 then (if cur l = 0x30 then 8 else 10) else base) = B
    have hB1 : 1 ≤ B := by
      rw [← hB]; split
      · split <;> omega
      · omega
    have hloop := digitLoop_eq B hB1 l 0 0 0 false (by simp) (by simp)
    simp only at hloop
    obtain ⟨l1, l2, l3, l4⟩ := hloop
    have l2 := l2 (by omega)
    refine ⟨l3, l4, ?_⟩
    intro s hs
    have htd := take_drop_length (Spec.isDigitIn B) l
    rw [l1, l2]
    have : (0 + (l.takeWhile (Spec.isDigitIn B)).length) % 2^32 =
        (l.takeWhile (Spec.isDigitIn B)).length := by omega
    rw [this]
    by_cases hh : l.takeWhile (Spec.isDigitIn B) = []
    · simp [endPos, hh]
    · have hpos : 0 < (l.takeWhile (Spec.isDigitIn B)).length := List.length_pos_iff.2 hh
      rw [if_neg hh]
      unfold endPos
      rw [if_neg (by simp), if_pos (by omega)]
      omega

end Smlr.Strtol
