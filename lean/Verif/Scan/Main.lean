import Verif.Scan.Text

set_option autoImplicit false
/-
Each directive, and then the whole format.
-/
namespace Smlr.Scan

open Smlr.Ctype Spec
open Smlr.Ctype.Spec (Space Digit)

/-- The model's state stands for the specification's.  Once the input is exhausted the
model's counter may be too large. -/
structure Rel (st : St) (sp : Sp) : Prop where
  inp : st.inp = sp.inp
  cnt : st.cnt = sp.cnt
  out : st.out = sp.out
  ch : sp.inp ≠ [] → st.ch = sp.n

/-- The input is made of bytes and is not absurdly long. -/
structure Ok (W : Nat) (inp : List Nat) : Prop where
  byte : ∀ c ∈ inp, c < 256
  len : inp.length < 2 ^ (W - 1) - 1

theorem Ok.drop {W : Nat} {inp : List Nat} (h : Ok W inp) (n : Nat) : Ok W (inp.drop n) :=
  ⟨fun c hc => h.byte c (List.mem_of_mem_drop hc), by
    have := h.len
    rw [List.length_drop]; omega⟩

theorem fits_iff {W : Nat} {inp : List Nat} (h : Ok W inp) (w : Option Nat) (n : Nat)
    (hn : n ≤ inp.length) : Fits w n ↔ n ≤ defWidth W w := by
  cases w with
  | none =>
    have := h.len
    simp only [Fits, defWidth]
    exact ⟨fun _ => by omega, fun _ k hk => by cases hk⟩
  | some k => simp [Fits, defWidth]

theorem bits_eq (W : Nat) (m : Mod) : bitsOf W (mcode m) = m.bits W := by
  cases m <;> rfl

/-- A longest prefix, from a non-extensible one. -/
theorem longest_width {P : List Nat → Prop} {W : Nat} {w : Option Nat} {inp a : List Nat}
    (hok : Ok W inp) (hP : ∀ p q, q <+: p → P p → P q) (h1 : a <+: inp)
    (h2 : a.length ≤ defWidth W w) (h3 : P a)
    (h4 : ∀ c, a ++ [c] <+: inp → a.length < defWidth W w → ¬ P (a ++ [c])) :
    Longest P w inp a := by
  refine longest_of hP h1 ((fits_iff hok w _ h1.length_le).2 h2) h3 ?_
  intro c hc hf
  have hl := hc.length_le
  simp only [List.length_append, List.length_cons, List.length_nil] at hl
  have := (fits_iff hok w _ hl).1 hf
  exact h4 c hc (by omega)

/-- The outcome of a conversion in the model and in the specification. -/
def ConvAgree (W : Nat) (assign : Bool) (w : Option Nat) (m : Mod) (k : Conv) (sp : Sp)
    (res : St × List Nat ⊕ Res) (rest : List Nat) : Prop :=
  (∃ s' st', Convert W assign w m k sp (.ok s') ∧ res = .inl (st', rest) ∧ Rel st' s' ∧
    ∃ n, s'.inp = sp.inp.drop n) ∨
  (∃ r i o, Convert W assign w m k sp (.fail r i o) ∧ res = .inr (.ret r i o))

theorem put_rel {inp : List Nat} {cnt n : Nat} {ch : Int} {out : List Store} (assign : Bool)
    (x : Store) (a : List Nat) (hch : ch = n) :
    Rel ⟨inp.drop a.length, cnt + assign.toNat, ch + a.length,
          if assign then out ++ [x] else out⟩
      ((Sp.take ⟨inp, n, cnt, out⟩ a).put assign x) := by
  cases assign <;>
    exact ⟨rfl, rfl, rfl, fun _ => by simp [Sp.put, Sp.take, hch]⟩

theorem put_inp (s : Sp) (assign : Bool) (x : Store) : (s.put assign x).inp = s.inp := by
  cases assign <;> rfl

theorem cntOrEof_eq (n : Nat) : cntOrEof n = eofOr n := rfl

/-- The part of `convert` after the white space has been skipped (input not exhausted). -/
theorem convert_int (W : Nat) (hW : 16 ≤ W) (assign : Bool) (w : Option Nat) (m : Mod) (k : Conv)
    (hk : k.isInt = true) (inp : List Nat) (cnt n : Nat) (ch : Int) (out : List Store)
    (hok : Ok W inp) (hch : ch = n) (rest : List Nat) :
    ConvAgree W assign w m k ⟨inp, n, cnt, out⟩
      (match numLoop W (inp.length + 5)
          ⟨.sign, inp, defWidth W w, base0 k, false, false, 0, ch⟩ with
       | .go _ => .inr .fuel
       | .ret eof r => .inr (.ret (cntOr cnt (!eof)) r out)
       | .stop t =>
         .inl (⟨t.inp, cnt + assign.toNat, t.ch,
           if assign then out ++ [.int (bitsOf W (mcode m))
             ((if t.neg then (2 ^ W - t.n) % 2 ^ W else t.n) % 2 ^ bitsOf W (mcode m))] else out⟩,
           rest)) rest := by
  obtain ⟨a, h1, h2, h3, h4, h5⟩ := scan_num W hk inp (defWidth W w) ch hok.byte (inp.length + 5)
    (by omega)
  have hL : Longest (Viable k) w inp a :=
    longest_width hok (fun p q hq hp => viable_prefix hp hq) h1 h2 h3 h4
  have hbits : m.bits W ≤ W := by cases m <;> simp [Mod.bits] <;> omega
  rcases h5 with ⟨v, t, hs, he, ht1, ht2, ht3⟩ | ⟨hno, he⟩
  · left
    rw [he]
    simp only
    rw [bits_eq]
    generalize (if t.neg = true then (2 ^ W - t.n) % 2 ^ W else t.n) = nn at ht3 ⊢
    have hv : nn % 2 ^ m.bits W = (v % 2 ^ m.bits W).toNat := by
      have hd : ((2 : Int) ^ m.bits W) ∣ (2 : Int) ^ W := by
        obtain ⟨d, hd⟩ := Nat.exists_eq_add_of_le hbits
        exact ⟨2 ^ d, by rw [← Int.pow_add, ← hd]⟩
      have e1 : v % 2 ^ m.bits W = (nn : Int) % 2 ^ m.bits W := by
        rw [ht3, Int.emod_emod_of_dvd _ hd]
      rw [e1]
      have e2 : ((nn : Int) % 2 ^ m.bits W) = ((nn % 2 ^ m.bits W : Nat) : Int) := by push_cast; rfl
      rw [e2, Int.toNat_natCast]
    rw [hv, ht1, ht2]
    exact ⟨_, _, .int (s := ⟨inp, n, cnt, out⟩) hk hL hs, rfl, put_rel assign _ a hch,
      a.length, by rw [put_inp]; rfl⟩
  · right
    rw [he]
    simp only
    by_cases hend : a = inp ∧ a.length < defWidth W w
    · refine ⟨_, _, _, .intEof (s := ⟨inp, n, cnt, out⟩) hk hL hno hend.1 ?_, ?_⟩
      · intro j hj
        have := hend.2
        rw [hj] at this; exact this
      · rw [hend.1]
        have : inp.length < defWidth W w := hend.1 ▸ hend.2
        simp [cntOr, eofOr, this]
    · refine ⟨_, _, _, .intFail (s := ⟨inp, n, cnt, out⟩) hk hL hno ?_, ?_⟩
      · rintro ⟨ha, hj⟩
        apply hend
        refine ⟨ha, ?_⟩
        cases w with
        | none => have := hok.len; simp only [defWidth]; rw [ha]; exact this
        | some j => exact hj j rfl
      · rw [decide_eq_false hend]
        simp [cntOr]

theorem convert_word (W : Nat) (assign : Bool) (w : Option Nat) (m : Mod) (inp : List Nat)
    (cnt n : Nat) (ch : Int) (out : List Store) (hok : Ok W inp) (hch : ch = n) (rest : List Nat) :
    ConvAgree W assign w m .s ⟨inp, n, cnt, out⟩
      (.inl (⟨(takeWord (defWidth W w) inp).2, cnt + assign.toNat,
          ch + (takeWord (defWidth W w) inp).1.length,
          if assign then out ++ [.str (takeWord (defWidth W w) inp).1] else out⟩, rest)) rest := by
  obtain ⟨h1, h2, h3, h4⟩ := takeWord_split (defWidth W w) inp hok.byte
  have hdrop : (takeWord (defWidth W w) inp).2 = inp.drop (takeWord (defWidth W w) inp).1.length := by
    have := congrArg (List.drop (takeWord (defWidth W w) inp).1.length) h1
    rw [List.drop_left] at this
    exact this.symm
  have hL : Longest NoSpace w inp (takeWord (defWidth W w) inp).1 := by
    refine longest_width hok all_prefix ⟨_, h1.symm⟩ h2 h3 ?_
    intro c hc hl hP
    obtain ⟨u, hu⟩ := hc
    rw [List.append_assoc] at hu
    have hu' := List.append_cancel_left (hu.trans h1)
    exact hP c (by simp) (h4 c u (by simpa using hu'.symm) hl)
  left
  refine ⟨_, _, .word (s := ⟨inp, n, cnt, out⟩) hL, rfl, ?_, _, by rw [put_inp]; rfl⟩
  rw [hdrop]
  exact put_rel assign _ _ hch

theorem convert_chars (W : Nat) (assign : Bool) (w : Option Nat) (m : Mod) (inp : List Nat)
    (cnt n : Nat) (ch : Int) (out : List Store) (hch : ch = n) (rest : List Nat) :
    ConvAgree W assign w m .c ⟨inp, n, cnt, out⟩
      (if w.getD 1 ≤ inp.length then
        .inl (⟨inp.drop (w.getD 1), cnt + assign.toNat, ch + (w.getD 1 : Nat),
          if assign then out ++ [.chars (inp.take (w.getD 1))] else out⟩, rest)
       else .inr (.ret (cntOrEof cnt) (inp.drop (w.getD 1))
          (if assign then out ++ [.part (inp.take (w.getD 1))] else out))) rest := by
  by_cases h : w.getD 1 ≤ inp.length
  · rw [if_pos h]
    have hl : (inp.take (w.getD 1)).length = w.getD 1 := by rw [List.length_take]; omega
    left
    refine ⟨_, _, .chars (s := ⟨inp, n, cnt, out⟩) (List.take_prefix _ _) hl, rfl, ?_, _,
      by rw [put_inp]; rfl⟩
    have := put_rel (inp := inp) (cnt := cnt) (out := out) assign
      (.chars (inp.take (w.getD 1))) (inp.take (w.getD 1)) hch
    rw [hl] at this
    exact this
  · rw [if_neg h]
    right
    have hd : inp.drop (w.getD 1) = [] := List.drop_eq_nil_iff.2 (by omega)
    have ht : inp.take (w.getD 1) = inp := List.take_of_length_le (by omega)
    rw [hd, ht]
    exact ⟨_, _, _, .charsFail (s := ⟨inp, n, cnt, out⟩) (by simp only; omega), rfl⟩

/-- The set and whether it is complemented, as read from the format. -/
theorem convert_set (W : Nat) (assign : Bool) (w : Option Nat) (m : Mod) (neg : Bool) (cs : List Nat)
    (set : List Nat) (hset : ∀ x, inSet set x = decide (x ∈ cs)) (inp : List Nat)
    (cnt n : Nat) (ch : Int) (out : List Store) (hok : Ok W inp) (hch : ch = n)
    (rest : List Nat) :
    ConvAgree W assign w m (.set neg cs) ⟨inp, n, cnt, out⟩
      (if (takeSet set neg (defWidth W w) inp).1 = [] then
        .inr (.ret (cnt : Int) (takeSet set neg (defWidth W w) inp).2 out)
       else
        .inl (⟨(takeSet set neg (defWidth W w) inp).2, cnt + assign.toNat,
          ch + (takeSet set neg (defWidth W w) inp).1.length,
          if assign then out ++ [.str (takeSet set neg (defWidth W w) inp).1] else out⟩, rest))
      rest := by
  obtain ⟨h1, h2, h3, h4⟩ := takeSet_split set neg (defWidth W w) inp
  have hmem : ∀ c, inSet set c ≠ neg ↔ (c ∈ cs ↔ neg = false) := by
    intro c
    rw [hset]
    cases neg <;> by_cases hc : c ∈ cs <;> simp [hc]
  have hdrop : (takeSet set neg (defWidth W w) inp).2 =
      inp.drop (takeSet set neg (defWidth W w) inp).1.length := by
    have := congrArg (List.drop (takeSet set neg (defWidth W w) inp).1.length) h1
    rw [List.drop_left] at this
    exact this.symm
  have hL : Longest (AllIn neg cs) w inp (takeSet set neg (defWidth W w) inp).1 := by
    refine longest_width hok all_prefix ⟨_, h1.symm⟩ h2
      (fun c hc => (hmem c).1 (h3 c hc)) ?_
    intro c hc hl hP
    obtain ⟨u, hu⟩ := hc
    rw [List.append_assoc] at hu
    have hu' := List.append_cancel_left (hu.trans h1)
    exact (hmem c).2 (hP c (by simp)) (h4 c u (by simpa using hu'.symm) hl)
  by_cases he : (takeSet set neg (defWidth W w) inp).1 = []
  · rw [if_pos he]
    right
    rw [he] at hL hdrop
    rw [hdrop]
    exact ⟨_, _, _, .setFail (s := ⟨inp, n, cnt, out⟩) hL, rfl⟩
  · rw [if_neg he]
    left
    refine ⟨_, _, .set (s := ⟨inp, n, cnt, out⟩) hL he, rfl, ?_, _, by rw [put_inp]; rfl⟩
    rw [hdrop]
    exact put_rel assign _ _ hch

/-- A whole conversion. -/
theorem convert_ok (W : Nat) (hW : 16 ≤ W) (assign : Bool) (w : List Nat) (m : Mod) (k : Conv)
    (hk : k.ok) (st : St) (sp : Sp) (hr : Rel st sp) (hok : Ok W sp.inp) (rest : List Nat) :
    ∃ a, (if k.skips then Longest AllSpace none sp.inp a else a = []) ∧
      ((sp.inp.drop a.length = [] ∧
        convert W assign (widthOf w) (mcode m) (ccode k) (crest k ++ rest) st =
          .inr (.ret (eofOr sp.cnt) [] sp.out)) ∨
       (sp.inp.drop a.length ≠ [] ∧
        ConvAgree W assign (widthOf w) m k (sp.take a)
          (convert W assign (widthOf w) (mcode m) (ccode k) (crest k ++ rest) st) rest)) := by
  obtain ⟨a, ha, hinp, hlen⟩ : ∃ a, (if k.skips then Longest AllSpace none sp.inp a else a = []) ∧
      (if ccode k ≠ 99 ∧ ccode k ≠ 91 then skipSpace st.inp else st.inp) = sp.inp.drop a.length ∧
      st.inp.length - (sp.inp.drop a.length).length = a.length := by
    by_cases hs : k.skips = true
    · obtain ⟨a, h1, h2, h3⟩ := skip_longest sp.inp hok.byte
      refine ⟨a, by rw [if_pos hs]; exact h1, ?_, ?_⟩
      · rw [if_pos (by cases k <;> simp [Conv.skips, ccode] at hs ⊢), hr.inp]
        exact h2
      · rw [hr.inp, ← h2]; exact h3
    · refine ⟨[], by rw [if_neg hs], ?_, by simp [hr.inp]⟩
      rw [if_neg (by cases k <;> simp [Conv.skips, ccode] at hs ⊢), hr.inp]
      simp
  refine ⟨a, ha, ?_⟩
  unfold convert
  simp only [hinp, hlen]
  have hok' : Ok W (sp.inp.drop a.length) := hok.drop _
  by_cases hnil : sp.inp.drop a.length = []
  · left
    refine ⟨hnil, ?_⟩
    rw [hnil, hr.cnt, hr.out]
    rfl
  · right
    refine ⟨hnil, ?_⟩
    have hne : sp.inp ≠ [] := by rintro h; rw [h] at hnil; simp at hnil
    have hch : st.ch + (a.length : Nat) = ((sp.n + a.length : Nat) : Int) := by
      rw [hr.ch hne]; push_cast; rfl
    have hsp : sp.take a = ⟨sp.inp.drop a.length, sp.n + a.length, sp.cnt, sp.out⟩ := rfl
    rw [hsp, hr.cnt, hr.out]
    generalize sp.inp.drop a.length = inp at *
    generalize sp.n + a.length = n at *
    generalize st.ch + (a.length : Int) = ch at *
    generalize sp.cnt = cnt at *
    generalize sp.out = out at *
    have hmatch : ∀ {α : Type} (x y : α), (match inp with | [] => x | _ => y) = y := by
      intro α x y
      cases inp with
      | nil => exact absurd rfl hnil
      | cons => rfl
    cases inp with
    | nil => exact absurd rfl hnil
    | cons i0 it =>
    simp only
    cases k with
    | c =>
      simp only [ccode, if_true, crest, List.nil_append]
      exact convert_chars W assign (widthOf w) m (i0 :: it) cnt n ch out hch rest
    | s =>
      exact convert_word W assign (widthOf w) m (i0 :: it) cnt n ch out hok' hch rest
    | set neg cs =>
      obtain ⟨hne2, hcs, h93, h94⟩ := hk
      obtain ⟨set, hrd, hset⟩ := readSet_ok cs 0 (List.replicate 32 0) rest
        (fun c hc => (hcs c hc).2) (fun _ => hne2) (by simpa using h93) (by simp)
      have hset' : ∀ x, inSet set x = decide (x ∈ cs) := by
        intro x; rw [hset, inSet_empty]; simp
      have hfm : caret (crest (.set neg cs) ++ rest) = (neg, cs ++ 93 :: rest) := by
        cases neg with
        | true => simp [crest, caret]
        | false =>
          match cs, hne2, h94 rfl with
          | c :: cs, _, h =>
            have hc : c ≠ 94 := by simpa using h
            simp only [crest, Bool.false_eq_true, if_false, List.nil_append, List.cons_append,
              List.append_assoc]
            unfold caret
            split
            · rename_i h; simp only [List.cons.injEq] at h; exact absurd h.1 hc
            · rfl
      simp only [ccode, Nat.reduceEqDiff, if_false, ne_eq, not_true_eq_false, hfm, hrd]
      exact convert_set W assign (widthOf w) m neg cs set hset' (i0 :: it) cnt n ch out hok' hch rest
    | d => exact convert_int W hW assign (widthOf w) m .d rfl (i0 :: it) cnt n ch out hok' hch rest
    | u => exact convert_int W hW assign (widthOf w) m .u rfl (i0 :: it) cnt n ch out hok' hch rest
    | i => exact convert_int W hW assign (widthOf w) m .i rfl (i0 :: it) cnt n ch out hok' hch rest
    | o => exact convert_int W hW assign (widthOf w) m .o rfl (i0 :: it) cnt n ch out hok' hch rest
    | x => exact convert_int W hW assign (widthOf w) m .x rfl (i0 :: it) cnt n ch out hok' hch rest
    | X => exact convert_int W hW assign (widthOf w) m .X rfl (i0 :: it) cnt n ch out hok' hch rest
    | p => exact convert_int W hW assign (widthOf w) m .p rfl (i0 :: it) cnt n ch out hok' hch rest

end Smlr.Scan
