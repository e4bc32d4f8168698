import Verif.Fscan.Words
import Verif.Fscan.Safe
import Verif.Strtof.Props
set_option autoImplicit false
/-! C66: the floating conversions of scanf. -/
namespace Smlr.Fscan
open Smlr.Number
open Smlr.Strtof

theorem skip_ok (ws t : Str) (hw : ∀ c ∈ ws, Blank c) (ht : ∀ c, t.head? = some c → ¬ Blank c) : Strtol.skipSpace (ws ++ t) = t := by
  rw [Strtol.skipSpace_eq]
  induction ws with
  | nil =>
    cases t with
    | nil => rfl
    | cons c t =>
      have := ht c rfl
      rw [← blank_iff] at this
      rw [List.nil_append, List.dropWhile_cons_of_neg this]
  | cons c ws ih =>
    have h := (blank_iff c).2 (hw c (by simp))
    rw [List.cons_append, List.dropWhile_cons_of_pos h]
    exact ih fun x hx => hw x (by simp [hx])

/-- the field width that the scanner works with -/
def wd (width : Option Nat) : Nat := width.getD (2 ^ 31 - 1)

theorem next_look (width : Option Nat) (n : Nat) (rest : Str) (hn : n < 2 ^ 31 - 1) :
    (if 0 < wd width - n then rest.head? else none) = next width n rest := by
  unfold wd next
  cases width with
  | none => rw [Option.getD_none, if_pos (by omega)]
  | some w =>
    rw [Option.getD_some]
    by_cases h : n < w
    · rw [if_pos (by omega)]; simp [h]
    · rw [if_neg (by omega)]; simp [h]

theorem fits_wd {width : Option Nat} {n : Nat} (h : Fits width n) (hn : n < 2 ^ 31 - 1) : n ≤ wd width := by
  unfold wd
  cases width with
  | none => simp; omega
  | some w => exact h w rfl

/-- what the loop does decides -/
theorem conv_eq (assign : Bool) (width : Option Nat) (ws t : Str) (hw : ∀ c ∈ ws, Blank c) (ht : ∀ c, t.head? = some c → ¬ Blank c) (hne : t ≠ []) :
    conv assign width (ws ++ t) =
      match run (t.length + 10) ⟨{}, t, wd width, ws.length⟩ with
      | .fuel => .fuel
      | .ret eof r ch => .ret eof r ch
      | .stop q r ch => match value assign q with
        | none => .overrun
        | some v => .stored (if assign then some v else none) r ch := by
  unfold conv
  simp only
  rw [skip_ok ws t hw ht, if_neg hne, List.length_append, Nat.add_sub_cancel]
  rfl

theorem Reach.run {B F : Nat} {a b : Cfg} (h : Reach B a b) (hF : B < F) : ∃ k, Fscan.run F a = Fscan.run (k + 1) b := by
  obtain ⟨n, hn, H⟩ := h
  refine ⟨F - 1 - n, ?_⟩
  rw [← H, show n + (F - 1 - n) + 1 = F by omega]

/-- from the start to the end of the mantissa -/
theorem upto_mant (sg ip fp T : Str) (dot neg : Bool) (w ch : Nat) (hs : Sign sg neg) (hip : AllDigits ip) (hfp : AllDigits fp) (hnd : dot = false → fp = [])
    (hw : (sg ++ (ip ++ fracText dot fp)).length ≤ w) (hT : Stops T (w - (sg ++ (ip ++ fracText dot fp)).length))
    (hh : ∀ c, (if 0 < w - sg.length then (ip ++ (fracText dot fp ++ T)).head? else none) = some c →
      upper c ≠ 0x49 ∧ upper c ≠ 0x4E ∧ (sg = [] → c ≠ 0x2B ∧ c ≠ 0x2D)) :
    ∃ q, Mant ip fp dot neg q ∧ Reach ((ip ++ fracText dot fp).length + 4) ⟨{}, sg ++ (ip ++ (fracText dot fp ++ T)), w, ch⟩
      ⟨q, T, w - (sg ++ (ip ++ fracText dot fp)).length, ch + (sg ++ (ip ++ fracText dot fp)).length⟩ := by
  have hl : (sg ++ (ip ++ fracText dot fp)).length = sg.length + (ip ++ fracText dot fp).length := List.length_append
  rw [hl] at hw hT ⊢
  have a := sign_phase sg (ip ++ (fracText dot fp ++ T)) neg w ch hs (by omega) (fun h c hc => (hh c (by subst h; exact hc)).2.2 h)
  have b := infNan_phase (ip ++ (fracText dot fp ++ T)) neg (w - sg.length) (ch + sg.length) (fun c hc => ⟨(hh c hc).1, (hh c hc).2.1⟩)
  obtain ⟨q, hq, c⟩ := mant_phase ip fp T dot neg (w - sg.length) (ch + sg.length) hip hfp hnd (by omega) (by rw [Nat.sub_sub]; exact hT)
  refine ⟨q, hq, ?_⟩
  rw [Nat.sub_sub, Nat.add_assoc] at c
  exact (a.trans b (Nat.le_refl _)).trans c (by omega)

/-- the end of a number -/
theorem stop_mant (q : Q) (t : Str) (dot : Bool) (w ch k : Nat) (hr : Ready q) (hst : q.st = if dot then .frct else .int)
    (ht : ∀ c, (if 0 < w then t.head? else none) = some c → isDigit c = false ∧ (dot = false → c ≠ 0x2E) ∧ c ≠ 0x65 ∧ c ≠ 0x45) :
    run (k + 1) ⟨q, t, w, ch⟩ = .stop q t ch := by
  apply run_stop
  intro b
  unfold Cfg.look
  simp only
  cases hc : (if 0 < w then t.head? else none) with
  | none =>
    unfold Fscan.trans
    rcases hr with ⟨h, g⟩ | ⟨h, g⟩
    · rw [h]; simp only; rw [if_pos g]
    · rw [h]; simp only; rw [if_pos g]
  | some c =>
    obtain ⟨h1, h2, h3, h4⟩ := ht c hc
    have hu : ¬ isUp c 0x45 = true := by rw [isUp_iff, upper_e]; tauto
    unfold Fscan.trans
    rcases hr with ⟨h, g⟩ | ⟨h, g⟩
    · have hd : dot = false := by
        cases dot with
        | false => rfl
        | true => rw [h] at hst; cases hst
      rw [h]; simp only
      rw [if_neg (by rw [h1]; decide), if_neg (h2 hd), if_neg (by tauto), if_pos g]
    · rw [h]; simp only
      rw [if_neg (by rw [h1]; decide), if_neg (by tauto), if_pos g]

theorem stop_exp (q : Q) (t : Str) (w ch k : Nat) (hst : q.st = .expDigit) (hg : q.gotexp = 2) (ht : Stops t w) :
    run (k + 1) ⟨q, t, w, ch⟩ = .stop q t ch := by
  apply run_stop
  intro b
  unfold Cfg.look
  simp only
  cases hc : (if 0 < w then t.head? else none) with
  | none => unfold Fscan.trans; rw [hst]; simp only; rw [if_pos hg]
  | some c => unfold Fscan.trans; rw [hst]; simp only; rw [if_neg (by rw [ht c hc]; decide), if_pos hg]

/-- an exponent part is a letter, a sign and digits -/
theorem expText_parts {ex : Str} {e : Int} (h : ExpText ex e) : (ex = [] ∧ e = 0) ∨
    ∃ x sg s neg, ex = x :: (sg ++ s) ∧ (x = 0x65 ∨ x = 0x45) ∧ Sign sg neg ∧ s ≠ [] ∧ AllDigits s ∧
      e = if neg then -(posVal 10 (s.map digitVal) : Int) else posVal 10 (s.map digitVal) := by
  cases h with
  | none => exact Or.inl ⟨rfl, rfl⟩
  | plain x s hx h0 hs => exact Or.inr ⟨x, [], s, false, rfl, hx, .none, h0, hs, rfl⟩
  | plus x s hx h0 hs => exact Or.inr ⟨x, [0x2B], s, false, rfl, hx, .plus, h0, hs, rfl⟩
  | minus x s hx h0 hs => exact Or.inr ⟨x, [0x2D], s, true, rfl, hx, .minus, h0, hs, rfl⟩

theorem mant_ready {ip fp : Str} {dot neg : Bool} {q : Q} (h : Mant ip fp dot neg q) (hs : ip ≠ [] ∨ fp ≠ []) (hnd : dot = false → fp = []) : Ready q := by
  unfold Ready
  rw [h.st]
  cases dot with
  | false => exact Or.inl ⟨rfl, (h.int rfl).2 (by have := hnd rfl; tauto)⟩
  | true => exact Or.inr ⟨rfl, h.got.2 hs⟩

theorem number_run (sg ip fp ex rest : Str) (dot neg : Bool) (e : Int) (w ch : Nat) (hs : Sign sg neg) (hf : Decimal ip dot fp ex e)
    (hw : (sg ++ (ip ++ fracText dot fp ++ ex)).length ≤ w)
    (hr : ∀ c, (if 0 < w - (sg ++ (ip ++ fracText dot fp ++ ex)).length then rest.head? else none) = some c → ¬ Goes dot ex c) :
    ∃ (q : Q) (n : Nat) (eneg : Bool), run ((sg ++ (ip ++ fracText dot fp ++ ex ++ rest)).length + 10) ⟨{}, sg ++ (ip ++ fracText dot fp ++ ex ++ rest), w, ch⟩ =
        .stop q rest (ch + (sg ++ (ip ++ fracText dot fp ++ ex)).length) ∧
      q.word = none ∧ q.neg = neg ∧ q.ds = kept ip fp ∧ q.m = keptExp ip fp ∧ q.eneg = eneg ∧ q.eexp = min n (2 ^ 31 - 1) ∧
      e = if eneg then -(n : Int) else n := by
  have hl : (sg ++ (ip ++ fracText dot fp ++ ex)).length = (sg ++ (ip ++ fracText dot fp)).length + ex.length := by
    simp only [List.length_append]; omega
  have hl2 : (sg ++ (ip ++ fracText dot fp ++ ex ++ rest)).length = (sg ++ (ip ++ fracText dot fp)).length + ex.length + rest.length := by
    simp only [List.length_append]; omega
  have hl3 : (sg ++ (ip ++ fracText dot fp)).length = sg.length + (ip ++ fracText dot fp).length := List.length_append
  have hh : ∀ c, (if 0 < w - sg.length then (ip ++ (fracText dot fp ++ (ex ++ rest))).head? else none) = some c →
      upper c ≠ 0x49 ∧ upper c ≠ 0x4E ∧ (sg = [] → c ≠ 0x2B ∧ c ≠ 0x2D) := by
    intro c hc
    split at hc
    · have := upper_digit c (decimal_head hf rest c (by rw [List.append_assoc, List.append_assoc]; exact hc))
      exact ⟨this.1, this.2.1, fun _ => this.2.2.2⟩
    · cases hc
  have ndig : ∀ c, (if 0 < w - (sg ++ (ip ++ fracText dot fp ++ ex)).length then rest.head? else none) = some c → isDigit c = false := by
    intro c hc
    have := hr c hc
    cases hd : isDigit c with
    | false => rfl
    | true => exact absurd (Or.inl ((isDigit_iff c).1 hd)) this
  rcases expText_parts hf.hex with ⟨h0, he⟩ | ⟨x, esg, s, eneg, h0, hx, hsg, hne, hsd, he⟩
  · subst h0
    simp only [List.append_nil] at *
    obtain ⟨q, hq, R⟩ := upto_mant sg ip fp rest dot neg w ch hs hf.hip hf.hfp hf.nodot hw ndig (by simpa using hh)
    obtain ⟨k, hk⟩ := R.run (F := (sg ++ (ip ++ fracText dot fp ++ rest)).length + 10) (by simp only [List.length_append]; omega)
    refine ⟨q, 0, false, ?_, hq.word, hq.hneg, hq.ds, hq.m, hq.eneg, hq.eexp, by rw [he]; rfl⟩
    rw [show sg ++ (ip ++ fracText dot fp ++ rest) = sg ++ (ip ++ (fracText dot fp ++ rest)) by simp only [List.append_assoc]] at hk ⊢
    rw [hk]
    apply stop_mant q rest dot _ _ _ (mant_ready hq hf.hsome hf.nodot) hq.st
    intro c hc
    have g := hr c hc
    unfold Goes at g
    refine ⟨ndig c hc, fun hd h => g (Or.inr ⟨rfl, Or.inl ⟨hd, h⟩⟩), fun h => g (Or.inr ⟨rfl, Or.inr (Or.inl h)⟩), fun h => g (Or.inr ⟨rfl, Or.inr (Or.inr h)⟩)⟩
  · subst h0
    obtain ⟨q, hq, R⟩ := upto_mant sg ip fp (x :: (esg ++ s) ++ rest) dot neg w ch hs hf.hip hf.hfp hf.nodot (by omega)
      (by intro c hc
          split at hc
          · cases hc; exact (exp_not x hx).1
          · cases hc) hh
    have hxl : (x :: (esg ++ s)).length = 1 + esg.length + s.length := by simp; omega
    have E := exp_phase q x esg s rest eneg (w - (sg ++ (ip ++ fracText dot fp)).length) (ch + (sg ++ (ip ++ fracText dot fp)).length)
      (mant_ready hq hf.hsome hf.nodot) hx hsg hsd hq.eneg hq.eexp (by omega) (fun _ h => absurd h hne)
    have hassoc : x :: (esg ++ s) ++ rest = x :: (esg ++ (s ++ rest)) := by simp
    rw [hassoc] at R
    obtain ⟨k, hk⟩ := (R.trans E (Nat.le_refl _)).run (F := (sg ++ (ip ++ fracText dot fp ++ (x :: (esg ++ s)) ++ rest)).length + 10) (by omega)
    refine ⟨{ q with st := .expDigit, gotexp := if s = [] then 1 else 2, eneg := eneg, eexp := min (posVal 10 (s.map digitVal)) (2 ^ 31 - 1) },
      posVal 10 (s.map digitVal), eneg, ?_, hq.word, hq.hneg, hq.ds, hq.m, rfl, rfl, he⟩
    rw [show sg ++ (ip ++ fracText dot fp ++ x :: (esg ++ s) ++ rest) = sg ++ (ip ++ (fracText dot fp ++ x :: (esg ++ (s ++ rest)))) by
      simp only [List.append_assoc, List.cons_append]] at hk ⊢
    rw [hk]
    rw [Nat.sub_sub, ← hxl, ← hl, Nat.add_assoc, ← hl]
    exact stop_exp _ rest _ _ _ rfl (if_neg hne) ndig

/-- `%f` (with or without field width): a decimal number with at most 112 significant digits, after blanks and a sign, that
fits into the field width and is not continued by the next character, is taken, no more and no less, and the nearest `float`
is stored, whatever the exponent; with `*` it is only taken.  Missing: more digits (`c66_digits`: wrong), hexadecimal
numbers (`c66_hex`). -/
theorem c66_number_partial (ws sg ip fp ex rest : Str) (dot neg : Bool) (e : Int) (width : Option Nat) (n : Nat) (hw : ∀ c ∈ ws, Blank c) (hs : Sign sg neg)
    (hf : Decimal ip dot fp ex e) (hn : n = (sg ++ (ip ++ fracText dot fp ++ ex)).length) (hfit : Fits width n) (hb : n < 2 ^ 31 - 500)
    (hr : ∀ c, next width n rest = some c → ¬ Goes dot ex c) (hl : (significant (ip ++ fp)).length ≤ 112) :
    ∃ r, conv true width (ws ++ (sg ++ (ip ++ fracText dot fp ++ ex ++ rest))) = .stored (some (signed neg r)) rest (ws.length + n) ∧
      conv false width (ws ++ (sg ++ (ip ++ fracText dot fp ++ ex ++ rest))) = .stored none rest (ws.length + n) ∧
      RoundedDec (posVal 10 ((ip ++ fp).map digitVal)) (e - fp.length) r := by
  subst hn
  obtain ⟨q, k, eneg, h1, h2, h3, h4, h5, h6, h7, h8⟩ := number_run sg ip fp ex rest dot neg e (wd width) ws.length hs hf (fits_wd hfit (by omega))
    (by rw [next_look _ _ _ (by omega)]; exact hr)
  have hhead : ∀ c, (sg ++ (ip ++ fracText dot fp ++ ex ++ rest)).head? = some c → ¬ Blank c := by
    intro c hc
    cases hs with
    | none => exact (upper_digit c (decimal_head hf rest c hc)).2.2.1
    | plus => cases hc; unfold Blank; decide
    | minus => cases hc; unfold Blank; decide
  have hne : sg ++ (ip ++ fracText dot fp ++ ex ++ rest) ≠ [] := by
    intro h
    have h' := congrArg List.length h
    simp only [List.length_append, List.length_nil] at h'
    have : ip = [] ∧ fracText dot fp = [] := by
      constructor <;> (rw [← List.length_eq_zero_iff]; omega)
    rcases hf.hsome with x | x
    · exact x this.1
    · cases hd : dot with
      | false => exact x (hf.nodot hd)
      | true => rw [hd] at this; cases this.2
  obtain ⟨f1, f2, f3⟩ := kept_facts ip fp hf.hip hf.hfp
  obtain ⟨r, r1, r2⟩ := convert_ok (kept ip fp) f1 f2 f3 (keptExp ip fp) e
  have hk : posVal 10 (kept ip fp) = posVal 10 ((ip ++ fp).map digitVal) := by
    unfold kept
    rw [List.take_of_length_le (by unfold maxDigits; exact hl)]
    exact posVal_dropZeros _ _
  have hsp := significant_prefix ip fp
  have hx : e + keptExp ip fp = e - fp.length := by
    unfold keptExp maxDigits
    omega
  have hfl : fp.length ≤ (sg ++ (ip ++ fracText dot fp ++ ex)).length := by
    simp only [List.length_append]
    cases hd : dot with
    | false => rw [hf.nodot hd]; simp
    | true => simp [fracText]; omega
  have hcap : convert (kept ip fp) (keptExp ip fp) (if eneg then -((min k (2 ^ 31 - 1) : Nat) : Int) else (min k (2 ^ 31 - 1) : Nat)) = some r := by
    rw [convert_cap _ _ _ _ f2 (by omega) (by omega), ← h8]
    exact r1
  refine ⟨r, ?_, ?_, by rw [hk, hx] at r2; exact r2⟩
  · rw [conv_eq true width ws _ hw hhead hne, h1]
    have hv : value true q = some (signed neg r) := by
      unfold value
      rw [h2]
      simp only [if_true]
      rw [h3, h4, h5, h6, h7, hcap, ← signed_eq]; rfl
    simp only [hv, if_true]
  · rw [conv_eq false width ws _ hw hhead hne, h1]
    have hv : value false q = some 0 := by
      unfold value
      rw [h2]
      simp
    simp only [hv, Bool.false_eq_true, if_false]

theorem sign_head {sg t : Str} {neg : Bool} (hs : Sign sg neg) (ht : sg = [] → ∀ c, t.head? = some c → ¬ Blank c) (c : UInt8) (hc : (sg ++ t).head? = some c) : ¬ Blank c := by
  cases hs with
  | none => exact ht rfl c hc
  | plus => cases hc; unfold Blank; decide
  | minus => cases hc; unfold Blank; decide

theorem w_head {W a t : Str} {j : Nat} (hW : IsW W) (h1 : 1 ≤ a.length) (hm : a.map upper = W.take j) (c : UInt8) (hc : (a ++ t).head? = some c) :
    ¬ Blank c ∧ c ≠ 0x2B ∧ c ≠ 0x2D := by
  cases a with
  | nil => simp at h1
  | cons d a =>
    cases hc
    apply upper_word
    cases j with
    | zero => cases hm
    | succ j =>
      rcases hW with rfl | rfl
      · exact Or.inl (List.cons.inj hm).1
      · exact Or.inr (List.cons.inj hm).1

/-- sign, and a part of a word -/
theorem upto_word (sg W a t : Str) (neg : Bool) (w ch : Nat) (hs : Sign sg neg) (hW : IsW W) (h1 : 1 ≤ a.length) (h2 : a.length < W.length) (hw : (sg ++ a).length ≤ w)
    (hm : a.map upper = W.take a.length) :
    Reach (a.length + 1) ⟨{}, sg ++ (a ++ t), w, ch⟩ ⟨{ st := .word, neg := neg, word := some (W, a.length) }, t, w - (sg ++ a).length, ch + (sg ++ a).length⟩ := by
  rw [List.length_append] at hw
  have x := sign_phase sg (a ++ t) neg w ch hs (by omega) (fun _ c hc => by
    unfold Cfg.look at hc
    simp only at hc
    split at hc
    · exact (w_head hW h1 hm c hc).2
    · cases hc)
  have y := word_start W a t neg (w - sg.length) (ch + sg.length) hW h1 h2 (by omega) hm
  rw [Nat.sub_sub, Nat.add_assoc] at y
  rw [List.length_append]
  exact x.trans y (by omega)

/-- sign, and a whole word -/
theorem whole_word (sg W a t : Str) (neg : Bool) (w ch : Nat) (hs : Sign sg neg) (hW : IsW W) (hw : (sg ++ a).length ≤ w) (hm : a.map upper = W) :
    run ((sg ++ (a ++ t)).length + 10) ⟨{}, sg ++ (a ++ t), w, ch⟩ = .stop { st := .word, neg := neg, word := some (W, W.length) } t (ch + (sg ++ a).length) := by
  rw [List.length_append] at hw
  have hl : a.length = W.length := by rw [← hm, List.length_map]
  have h3 : 3 ≤ W.length := by rcases hW with rfl | rfl <;> decide
  obtain ⟨n, hn, H⟩ := sign_phase sg (a ++ t) neg w ch hs (by omega) (fun _ c hc => by
    unfold Cfg.look at hc
    simp only at hc
    split at hc
    · exact (w_head (j := W.length) hW (by omega) (by rw [List.take_length]; exact hm) c hc).2
    · cases hc)
  have := H (a.length + ((sg ++ (a ++ t)).length + 9 - n - a.length))
  have hle : a.length ≤ (sg ++ (a ++ t)).length := by simp only [List.length_append]; omega
  rw [show n + (a.length + ((sg ++ (a ++ t)).length + 9 - n - a.length)) + 1 = (sg ++ (a ++ t)).length + 10 by omega] at this
  rw [this, word_whole W a t neg _ _ hW (by omega) hm, List.length_append, Nat.add_assoc]

theorem value_word (assign neg : Bool) (W : Str) (i : Nat) (hW : IsW W) :
    value assign { st := .word, neg := neg, word := some (W, i) } = some (signed neg (if W = nan then 0x7FC00000 else inf)) := by
  unfold value
  simp only
  rw [signed_eq]
  rcases hW with rfl | rfl <;> rfl

/-- `inf`, where the next character does not go on with `infinity`, `infinity`, and `nan`, in any case, after blanks and a
sign, within the field width: the word is taken and infinity or a not-a-number of its sign is stored.  Missing: a parenthesis
after `nan`, which is not read (`c66_paren`). -/
theorem c66_words_partial (ws sg w rest : Str) (neg assign : Bool) (width : Option Nat) (n : Nat) (hw : ∀ c ∈ ws, Blank c) (hs : Sign sg neg)
    (hn : n = (sg ++ w).length) (hfit : Fits width n) :
    (Word w [0x49, 0x4E, 0x46] → (∀ c, next width n rest = some c → upper c ≠ 0x49) →
      conv assign width (ws ++ (sg ++ (w ++ rest))) = .stored (if assign then some (signed neg inf) else none) rest (ws.length + n)) ∧
    (Word w [0x49, 0x4E, 0x46, 0x49, 0x4E, 0x49, 0x54, 0x59] →
      conv assign width (ws ++ (sg ++ (w ++ rest))) = .stored (if assign then some (signed neg inf) else none) rest (ws.length + n)) ∧
    (Word w [0x4E, 0x41, 0x4E] →
      ∃ r, isNan r ∧ conv assign width (ws ++ (sg ++ (w ++ rest))) = .stored (if assign then some r else none) rest (ws.length + n)) := by
  have hsl : sg.length ≤ 1 := by cases hs <;> simp
  have hln : n = sg.length + w.length := by rw [hn, List.length_append]
  have whole : ∀ W, IsW W → Word w W → conv assign width (ws ++ (sg ++ (w ++ rest))) =
      .stored (if assign then some (signed neg (if W = nan then 0x7FC00000 else inf)) else none) rest (ws.length + n) := by
    intro W hW hm
    have hl : w.length = W.length := by rw [← hm, List.length_map]
    have h38 : 3 ≤ W.length ∧ W.length ≤ 8 := by rcases hW with rfl | rfl <;> decide
    rw [conv_eq assign width ws _ hw (sign_head hs (fun _ c hc => (w_head (j := W.length) hW (by omega) (by rw [List.take_length]; exact hm) c hc).1))
      (by intro h; have := congrArg List.length h; simp only [List.length_append, List.length_nil] at this; omega),
      whole_word sg W w rest neg _ _ hs hW (by rw [← hn]; exact fits_wd hfit (by omega)) hm]
    simp only [value_word assign neg W _ hW]
    rw [← hn]
  refine ⟨?_, whole infinity (Or.inl rfl), fun hm => ⟨signed neg 0x7FC00000, by cases neg <;> (unfold isNan inf; decide), whole nan (Or.inr rfl) hm⟩⟩
  intro hm hr
  have hl : w.length = 3 := by rw [← List.length_map, hm]; rfl
  have hm' : w.map upper = infinity.take w.length := by rw [hl]; exact hm
  have R := upto_word sg infinity w rest neg (wd width) ws.length hs (Or.inl rfl) (by omega) (by rw [hl]; decide)
    (by rw [← hn]; exact fits_wd hfit (by omega)) hm'
  obtain ⟨k, hk⟩ := R.run (F := (sg ++ (w ++ rest)).length + 10) (by simp only [List.length_append]; omega)
  rw [conv_eq assign width ws _ hw (sign_head hs (fun _ c hc => (w_head (Or.inl rfl) (by omega) hm' c hc).1))
    (by intro h; have := congrArg List.length h; simp only [List.length_append, List.length_nil] at this; omega), hk]
  rw [← hn, run_stop (q' := { st := .word, neg := neg, word := some (infinity, w.length) })]
  · simp only [value_word assign neg infinity _ (Or.inl rfl)]; rfl
  · intro b
    unfold Cfg.look
    simp only
    rw [next_look _ _ _ (by omega)]
    unfold Fscan.trans
    simp only
    rw [if_neg, if_pos hl]
    cases hc : next width n rest with
    | none => simp
    | some c =>
      rw [Option.any_some, isUp_iff, hl]
      exact hr c hc

theorem getD_some (l : Str) (i : Nat) (h : i < l.length) : l[i]? = some (l.getD i 0) := by
  rw [List.getD_eq_getElem?_getD, List.getElem?_eq_getElem h]; rfl

/-- the conversion fails -/
def Fails (width : Option Nat) (inp rest : Str) (n : Nat) : Prop :=
  ∀ assign, ∃ eof, conv assign width inp = .ret eof rest n ∧ (eof = true → rest = [])

theorem fails_of {width : Option Nat} {ws t rest : Str} {n B : Nat} {q : Q} (hw : ∀ c ∈ ws, Blank c) (ht : ∀ c, t.head? = some c → ¬ Blank c) (hne : t ≠ [])
    (hb : n < 2 ^ 31 - 1) (R : Reach B ⟨{}, t, wd width, ws.length⟩ ⟨q, rest, wd width - n, ws.length + n⟩) (hB : B < t.length + 10)
    (h1 : ∀ c, next width n rest = some c → Fscan.trans q (some c) false = .ret false)
    (h2 : ∀ b, Fscan.trans q none b = .ret (!b) ∨ Fscan.trans q none b = .ret false) : Fails width (ws ++ t) rest (ws.length + n) := by
  intro assign
  rw [conv_eq assign width ws t hw ht hne]
  obtain ⟨k, hk⟩ := R.run hB
  rw [hk]
  unfold run
  rw [loop]
  simp only
  cases hc : (if 0 < wd width - n then rest.head? else none) with
  | none =>
    rcases h2 (decide (wd width - n = 0)) with h | h
    · rw [h]
      refine ⟨_, rfl, ?_⟩
      intro he
      have h0 : 0 < wd width - n := by simp at he; omega
      rw [if_pos h0] at hc
      simpa using hc
    · rw [h]
      exact ⟨_, rfl, by simp⟩
  | some c =>
    have h0 : decide (wd width - n = 0) = false := by
      by_cases h : 0 < wd width - n
      · simp; omega
      · rw [if_neg h] at hc; cases hc
    rw [next_look _ _ _ hb] at hc
    rw [h0, h1 c hc]
    exact ⟨_, rfl, by simp⟩

/-- Input that only begins like a number (a sign, a dot, a number with half an exponent part, a part of a word), where the
next character does not go on with it or there is none: the beginning is taken, nothing is stored, and scanf returns; it
returns EOF only at the end of the input (but see `c66_eof`). -/
theorem c66_fails (ws h rest : Str) (goes : UInt8 → Prop) (width : Option Nat) (hw : ∀ c ∈ ws, Blank c) (hh : Half h goes)
    (hfit : Fits width h.length) (hb : h.length < 2 ^ 31 - 500) (hr : ∀ c, next width h.length rest = some c → ¬ goes c)
    (h0 : h = [] → ∀ c, rest.head? = some c → ¬ Blank c) : Fails width (ws ++ (h ++ rest)) rest (ws.length + h.length) := by
  have hlook : ∀ c, (if 0 < wd width - h.length then rest.head? else none) = some c → ¬ goes c := by
    rw [next_look _ _ _ (by omega)]; exact hr
  have hle := fits_wd hfit (by omega)
  have nd : ∀ c, ¬ IsDigit c → isDigit c = false := by
    intro c hc
    cases hd : isDigit c with
    | false => rfl
    | true => exact absurd ((isDigit_iff c).1 hd) hc
  have nil_digits : AllDigits [] := by intro c hc; cases hc
  cases hh with
  | none _ neg hs =>
    by_cases hne : h ++ rest = []
    · obtain ⟨rfl, rfl⟩ := List.append_eq_nil_iff.1 hne
      intro assign
      refine ⟨true, ?_, fun _ => rfl⟩
      unfold conv
      simp only
      rw [skip_ok ws _ hw (by simp)]
      simp
    · obtain ⟨q, hq, R⟩ := upto_mant h [] [] rest false neg (wd width) ws.length hs nil_digits nil_digits (fun _ => rfl)
        (by simpa [fracText] using hle)
        (by intro c hc
            have := hlook c (by simpa [fracText] using hc)
            exact nd c (fun h => this (Or.inl h)))
        (by intro c hc
            have := hlook c (by simpa [fracText] using hc)
            refine ⟨fun h => this (Or.inr (Or.inr (Or.inl h))), fun h => this (Or.inr (Or.inr (Or.inr (Or.inl h)))), fun hs => ⟨fun h => ?_, fun h => ?_⟩⟩
            · exact this (Or.inr (Or.inr (Or.inr (Or.inr ⟨hs, Or.inl h⟩))))
            · exact this (Or.inr (Or.inr (Or.inr (Or.inr ⟨hs, Or.inr h⟩)))))
      simp only [fracText, Bool.false_eq_true, if_false, List.append_nil, List.nil_append] at R
      have hst := hq.st
      have hg : q.gotint = 0 := by
        have := (hq.int rfl).1
        apply Classical.byContradiction
        intro hx
        exact this hx rfl
      simp only [Bool.false_eq_true, if_false] at hst
      refine fails_of hw (sign_head hs (fun he => h0 he)) hne (by omega) R (by simp only [List.length_nil]; omega) ?_ ?_
      · intro c hc
        have := hr c hc
        unfold Fscan.trans
        rw [hst]
        simp only
        rw [if_neg (by rw [nd c (fun h => this (Or.inl h))]; decide), if_neg (fun h => this (Or.inr (Or.inl h))), if_neg (by tauto), if_neg (by tauto)]
      · intro b
        unfold Fscan.trans
        rw [hst]
        simp only
        rw [if_neg (by tauto)]
        exact Or.inl rfl
  | dot sg neg hs =>
    simp only [List.length_append, List.length_singleton] at *
    obtain ⟨q, hq, R⟩ := upto_mant sg [] [] rest true neg (wd width) ws.length hs nil_digits nil_digits (fun h => by cases h)
      (by simpa [fracText] using hle)
      (by intro c hc
          exact nd c (hlook c (by simpa [fracText] using hc)))
      (by intro c hc
          split at hc
          · cases hc; exact ⟨by decide, by decide, fun _ => by decide⟩
          · cases hc)
    simp only [fracText, if_true, List.nil_append, List.length_append, List.length_singleton] at R
    have hst := hq.st
    have hg : ¬ (q.gotint ≠ 0 ∨ q.gotfrct ≠ 0) := by rw [hq.got]; simp
    simp only [if_true] at hst
    rw [List.append_assoc]
    refine fails_of hw (sign_head hs (fun _ c hc => by cases hc; unfold Blank; decide)) (by simp) (by omega) R (by simp only [List.length_append]; simp) ?_ ?_
    · intro c hc
      have := hr c hc
      unfold Fscan.trans
      rw [hst]
      simp only
      rw [if_neg (by rw [nd c this]; decide), if_neg (by tauto), if_neg hg]
    · intro b
      unfold Fscan.trans
      rw [hst]
      simp only
      rw [if_neg hg]
      exact Or.inl rfl
  | exp sg ip fp esg dot neg eneg x hs hf hx hsg =>
    have hl : (sg ++ (ip ++ fracText dot fp) ++ x :: esg).length = (sg ++ (ip ++ fracText dot fp)).length + (1 + esg.length) := by
      simp only [List.length_append, List.length_cons]; omega
    have hl3 : (sg ++ (ip ++ fracText dot fp)).length = sg.length + (ip ++ fracText dot fp).length := List.length_append
    rw [hl] at hle hlook hr hb ⊢
    have hdh : ∀ c, (ip ++ (fracText dot fp ++ (x :: (esg ++ rest)))).head? = some c → IsDigit c ∨ c = 0x2E := by
      intro c hc
      exact decimal_head hf (x :: (esg ++ rest)) c (by rw [List.append_nil, List.append_assoc]; exact hc)
    obtain ⟨q, hq, R⟩ := upto_mant sg ip fp (x :: (esg ++ rest)) dot neg (wd width) ws.length hs hf.hip hf.hfp hf.nodot (by omega)
      (by intro c hc
          split at hc
          · cases hc; exact (exp_not x hx).1
          · cases hc)
      (by intro c hc
          split at hc
          · have := upper_digit c (hdh c hc)
            exact ⟨this.1, this.2.1, fun _ => this.2.2.2⟩
          · cases hc)
    have E := exp_phase q x esg [] rest eneg (wd width - (sg ++ (ip ++ fracText dot fp)).length) (ws.length + (sg ++ (ip ++ fracText dot fp)).length)
      (mant_ready hq hf.hsome hf.nodot) hx hsg nil_digits hq.eneg hq.eexp (by simp only [List.length_nil]; omega)
      (fun he _ c hc => by
        subst he
        have := hlook c (by rw [List.length_nil, Nat.add_zero, ← Nat.sub_sub]; exact hc)
        exact ⟨fun h => this (Or.inr ⟨rfl, Or.inl h⟩), fun h => this (Or.inr ⟨rfl, Or.inr h⟩)⟩)
    simp only [List.length_nil, Nat.add_zero, List.nil_append] at E
    rw [Nat.sub_sub, Nat.add_assoc ws.length] at E
    have ha : sg ++ (ip ++ fracText dot fp) ++ x :: esg ++ rest = sg ++ (ip ++ (fracText dot fp ++ x :: (esg ++ rest))) := by
      simp only [List.append_assoc, List.cons_append]
    have hl2 : (sg ++ (ip ++ (fracText dot fp ++ x :: (esg ++ rest)))).length = (sg ++ (ip ++ fracText dot fp)).length + (1 + esg.length) + rest.length := by
      simp only [List.length_append, List.length_cons]; omega
    rw [ha]
    refine fails_of hw (sign_head hs (fun _ c hc => (upper_digit c (hdh c hc)).2.2.1)) (by simp) (by omega) (R.trans E (D := (ip ++ fracText dot fp).length + 6) (by omega)) (by rw [hl2]; omega) ?_ ?_
    · intro c hc
      have := hr c hc
      unfold Fscan.trans
      simp only
      rw [if_neg (by rw [nd c (fun h => this (Or.inl h))]; decide), if_neg (by decide)]
    · intro b
      exact Or.inl rfl
  | inf sg w neg n hs h1 h8 h3 hm =>
    have hl : w.length = n := by
      rw [← List.length_map, hm, List.length_take]; simp; omega
    subst hl
    have R := upto_word sg infinity w rest neg (wd width) ws.length hs (Or.inl rfl) h1 h8 hle hm
    rw [List.append_assoc]
    refine fails_of hw (sign_head hs (fun _ c hc => (w_head (Or.inl rfl) h1 hm c hc).1))
      (by intro h; have := congrArg List.length h; simp only [List.length_append, List.length_nil] at this; omega) (by omega) R (by simp only [List.length_append]; omega) ?_ ?_
    · intro c hc
      have := hr c hc
      unfold Fscan.trans
      simp only [Option.any_some]
      rw [if_neg, if_neg h3]
      rw [isUp_iff]
      intro hu
      apply this
      rw [hu]; exact getD_some infinity w.length h8
    · intro b
      right
      unfold Fscan.trans
      simp only
      rw [if_neg (by simp), if_neg h3]
  | nan sg w neg n hs h1 h3 hm =>
    have hl : w.length = n := by
      rw [← List.length_map, hm, List.length_take]; simp; omega
    subst hl
    have R := upto_word sg Fscan.nan w rest neg (wd width) ws.length hs (Or.inr rfl) h1 h3 hle hm
    rw [List.append_assoc]
    refine fails_of hw (sign_head hs (fun _ c hc => (w_head (Or.inr rfl) h1 hm c hc).1))
      (by intro h; have := congrArg List.length h; simp only [List.length_append, List.length_nil] at this; omega) (by omega) R (by simp only [List.length_append]; omega) ?_ ?_
    · intro c hc
      have := hr c hc
      unfold Fscan.trans
      simp only [Option.any_some]
      rw [if_neg, if_neg (by omega)]
      rw [isUp_iff]
      intro hu
      apply this
      rw [hu]; exact getD_some Fscan.nan w.length h3
    · intro b
      right
      unfold Fscan.trans
      simp only
      rw [if_neg (by simp), if_neg (by omega)]

/-- Whatever the input and the field width: the scanner comes to an end and writes nothing past its buffer; blanks and then
at most as many characters as the field width allows are taken, and the rest is left. -/
theorem c66_safe (assign : Bool) (width : Option Nat) (inp : Str) : ∃ ws t n, inp = ws ++ t ∧ (∀ c ∈ ws, Blank c) ∧ n ≤ t.length ∧
    (∀ w, width = some w → n ≤ w) ∧
    ((∃ eof, conv assign width inp = .ret eof (t.drop n) (ws.length + n)) ∨ ∃ v, conv assign width inp = .stored v (t.drop n) (ws.length + n)) := by
  obtain ⟨ws, t, h1, h2, h3⟩ : ∃ ws t, inp = ws ++ t ∧ (∀ c ∈ ws, Blank c) ∧ ∀ c, t.head? = some c → ¬ Blank c := by
    induction inp with
    | nil => exact ⟨[], [], rfl, by simp, by simp⟩
    | cons c s ih =>
      by_cases hb : Blank c
      · obtain ⟨ws, t, h1, h2, h3⟩ := ih
        refine ⟨c :: ws, t, by rw [h1]; rfl, ?_, h3⟩
        intro x hx
        rcases List.mem_cons.1 hx with rfl | hx
        · exact hb
        · exact h2 x hx
      · exact ⟨[], c :: s, rfl, by simp, fun x hx => by cases hx; exact hb⟩
  subst h1
  by_cases hne : t = []
  · subst hne
    refine ⟨ws, [], 0, rfl, h2, Nat.le_refl _, fun _ _ => by omega, Or.inl ⟨true, ?_⟩⟩
    unfold conv
    simp only
    rw [skip_ok ws [] h2 (by simp)]
    simp
  · have hw : ∀ n, n ≤ wd width → ∀ w, width = some w → n ≤ w := by
      rintro n hn w rfl; exact hn
    rcases loop_ok (t.length + 10) {} t (wd width) ws.length (by show t.length + 8 < _; omega)
      ⟨⟨by simp, by simp, by simp⟩, by simp, by simp, by simp⟩ with ⟨e, n, r1, r2, r3⟩ | ⟨q, n, r1, r2, r3, r4⟩
    · refine ⟨ws, t, n, rfl, h2, r2, hw n r3, Or.inl ⟨e, ?_⟩⟩
      rw [conv_eq assign width ws t h2 h3 hne]
      unfold run
      simp only [r1]
    · refine ⟨ws, t, n, rfl, h2, r2, hw n r3, Or.inr ?_⟩
      rw [conv_eq assign width ws t h2 h3 hne]
      unfold run
      simp only [r1]
      have hv : ∃ v, value assign q = some v := by
        unfold value
        split
        · exact ⟨_, rfl⟩
        · split
          · obtain ⟨r, hr, -⟩ := convert_ok q.ds r4.nine r4.len r4.head q.m (if q.eneg then -(q.eexp : Int) else q.eexp)
            rw [hr]; exact ⟨_, rfl⟩
          · exact ⟨_, rfl⟩
      obtain ⟨v, hv⟩ := hv
      simp only [hv]
      exact ⟨_, rfl⟩

/-! ### examples and witnesses -/

/-- ` -1.5e1` in a field of 6 characters, followed by a digit -/
example : Decimal [0x31] true [0x35] [0x65, 0x31] 1 ∧ Fits (some 6) ([0x2D, 0x31, 0x2E, 0x35, 0x65, 0x31] : Str).length ∧ next (some 6) 6 [0x30] = none ∧
    conv true (some 6) [0x20, 0x2D, 0x31, 0x2E, 0x35, 0x65, 0x31, 0x30] = .stored (some 0xC1700000) [0x30] 7 := by
  refine ⟨⟨?_, ?_, by simp, by simp, .plain 0x65 [0x31] (Or.inl rfl) (by simp) ?_⟩, ?_, rfl, by decide +kernel⟩
  all_goals try (intro c hc; simp at hc; subst hc; unfold IsDigit; decide)
  intro w hw; cases hw; decide

/-- `2.5.`: the second dot does not go on with the number; with `*` nothing is stored -/
example : ¬ Goes true [] 0x2E ∧ conv true none [0x32, 0x2E, 0x35, 0x2E] = .stored (some 0x40200000) [0x2E] 3 ∧
    conv false none [0x32, 0x2E, 0x35, 0x2E] = .stored none [0x2E] 3 := by
  refine ⟨?_, by decide +kernel, by decide +kernel⟩
  unfold Goes IsDigit; decide

/-- `1e2147483648`, which strtod does not read (`c65_exponent`), is infinity -/
example : conv true none [0x31, 0x65, 0x32, 0x31, 0x34, 0x37, 0x34, 0x38, 0x33, 0x36, 0x34, 0x38] = .stored (some inf) [] 12 := by decide +kernel

/-- `-InFx`, `infinityy`, `nan` -/
example : Word [0x49, 0x6E, 0x46] [0x49, 0x4E, 0x46] ∧ conv true none [0x2D, 0x49, 0x6E, 0x46, 0x78] = .stored (some (signed true inf)) [0x78] 4 ∧
    conv true none [0x69, 0x6E, 0x66, 0x69, 0x6E, 0x69, 0x74, 0x79, 0x79] = .stored (some inf) [0x79] 8 ∧
    conv true none [0x6E, 0x61, 0x6E] = .stored (some 0x7FC00000) [] 3 := by unfold Word; decide +kernel

/-- `1e+x`, `infix`, `.x`, `+x` and `x` -/
example : Half [0x31, 0x65, 0x2B] (fun c => IsDigit c ∨ (([0x2B] : Str) = [] ∧ isSign c)) ∧ conv true none [0x31, 0x65, 0x2B, 0x78] = .ret false [0x78] 3 ∧
    conv true none [0x69, 0x6E, 0x66, 0x69, 0x78] = .ret false [0x78] 4 ∧ conv true none [0x2E, 0x78] = .ret false [0x78] 1 ∧
    conv true none [0x2B, 0x78] = .ret false [0x78] 1 ∧ conv true none [0x78] = .ret false [0x78] 0 := by
  refine ⟨.exp [] [0x31] [] [0x2B] false false false 0x65 .none ⟨?_, ?_, by simp, by simp, .none⟩ (Or.inl rfl) .plus, by decide +kernel⟩
  · intro c hc; simp at hc; subst hc; unfold IsDigit; decide
  · intro c hc; cases hc

/-- `-`, `1e` and `.` at the end of the input are matching failures in C99, since the input item is not empty: scanf must
return 0, but returns EOF -/
theorem c66_eof : conv true none [0x2D] = .ret true [] 1 ∧ conv true none [0x31, 0x65] = .ret true [] 2 ∧ conv true none [0x2E] = .ret true [] 1 := by decide +kernel

/-- 1 with 112 zeroes after the dot becomes 0.1 -/
theorem c66_digits : conv true none (0x31 :: 0x2E :: List.replicate 112 0x30) = .stored (some 0x3DCCCCCD) [] 114 ∧
    ¬ RoundedDec (10 ^ 112) (-112) 0x3DCCCCCD := ⟨by decide +kernel, c65_digits.2.1⟩

/-- of `0x10`, 16 in C99, only the `0` is read -/
theorem c66_hex : conv true none [0x30, 0x78, 0x31, 0x30] = .stored (some 0) [0x78, 0x31, 0x30] 1 := by decide +kernel

/-- of `nan(1)` only the word is read -/
theorem c66_paren : conv true none [0x6E, 0x61, 0x6E, 0x28, 0x31, 0x29] = .stored (some 0x7FC00000) [0x28, 0x31, 0x29] 3 := by decide +kernel

end Smlr.Fscan
