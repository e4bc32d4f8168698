import Verif.Scan.Main

set_option autoImplicit false
/-
The main loop of `__doscan`, and uniqueness of the specification.
-/
namespace Smlr.Scan

open Smlr.Ctype Spec
open Smlr.Ctype.Spec (Space Digit)

theorem skipFmt_spaces : ∀ (ws rest : List Nat), (∀ c ∈ ws, Space (c : Nat)) →
    skipFmt (ws ++ rest) = skipFmt rest
  | [], rest, _ => rfl
  | c :: ws, rest, h => by
    have hc : Space (c : Int) := h c (by simp)
    rw [List.cons_append, skipFmt, if_pos ((isspace_iff (space_lt hc)).2 hc)]
    exact skipFmt_spaces ws rest (fun x hx => h x (by simp [hx]))

theorem skipFmt_char (c : Nat) (rest : List Nat) (h : isspace (c : Int) = 0) :
    skipFmt (c :: rest) = c :: rest := by
  rw [skipFmt, if_neg (by simp [h])]

theorem skipFmt_len : ∀ l : List Nat, (skipFmt l).length ≤ l.length
  | [] => Nat.le_refl _
  | c :: l => by
    unfold skipFmt
    split
    · have := skipFmt_len l; simp; omega
    · exact Nat.le_refl _

theorem render_cons (d : Dir) (ds : List Dir) : render (d :: ds) = d.text ++ render ds := rfl

theorem pct_not_space : isspace (37 : Nat) = 0 := by decide +kernel

/-- A directive other than white space begins with a character that is no white space. -/
theorem text_head (W : Nat) (d : Dir) (h : d.ok W) (hs : ∀ ws, d ≠ .space ws) :
    ∃ c t, d.text = c :: t ∧ isspace (c : Int) = 0 := by
  cases d with
  | space ws => exact absurd rfl (hs ws)
  | lit c =>
    refine ⟨c, [], rfl, ?_⟩
    have := mt (isspace_iff h.2.1).1 h.2.2.2
    simpa using this
  | pct => exact ⟨37, _, rfl, pct_not_space⟩
  | conv a w m k => exact ⟨37, _, rfl, pct_not_space⟩
  | count m => exact ⟨37, _, rfl, pct_not_space⟩

/-- One literal character of the format. -/
theorem lit_ok {W : Nat} (full : Bool) (c : Nat) (ds : List Dir) (f : Nat) (F : List Nat) (st : St) (sp : Sp)
    (hr : Rel st sp) (hok : Ok W sp.inp)
    (ih : ∀ st sp, Rel st sp → Ok W sp.inp → ∃ o, Run W full ds sp o ∧ loop W f F st = o) :
    ∃ o, Run W full (.lit c :: ds) sp o ∧
      (if (fgetc st.inp).1 = (c : Int) then
        loop W f F { st with inp := (fgetc st.inp).2, ch := st.ch + 1 }
       else if (fgetc st.inp).1 < 0 then .ret (cntOrEof st.cnt) (fgetc st.inp).2 st.out
       else .ret st.cnt (ungetc (fgetc st.inp).1 (fgetc st.inp).2) st.out) = o := by
  rw [hr.inp, hr.cnt, hr.out]
  cases hin : sp.inp with
  | nil =>
    refine ⟨_, .litEof hin, ?_⟩
    have h1 : ¬ ((-1 : Int) = (c : Int)) := by omega
    simp [fgetc_nil, h1, cntOrEof_eq]
  | cons x r =>
    by_cases hx : x = c
    · subst hx
      have hd : (sp.take [x]).inp = r := by simp [Sp.take, hin]
      obtain ⟨o, h1, h2⟩ := ih ⟨r, sp.cnt, st.ch + 1, sp.out⟩ (sp.take [x])
        ⟨hd.symm, rfl, rfl, fun _ => by
          have := hr.ch (by rw [hin]; simp)
          simp [Sp.take, this]⟩
        (by rw [hd]; have := hok.drop 1; rw [hin] at this; simpa using this)
      refine ⟨o, .lit hin h1, ?_⟩
      simp only [fgetc_cons, if_true]
      exact h2
    · refine ⟨_, .litMismatch hin hx, ?_⟩
      have h1 : ¬ ((x : Int) = (c : Int)) := by omega
      have h2 : ¬ ((x : Int) < 0) := by omega
      simp only [fgetc_cons, h1, h2, if_false, ungetc_char]
      rw [hin]

/-- The main loop follows the directives. -/
theorem loop_ok (W : Nat) (hW : 16 ≤ W) (ds : List Dir) : (∀ d ∈ ds, d.ok W) →
    (∀ f st sp, Rel st sp → Ok W sp.inp → (render ds).length < f →
      ∃ o, Run W false ds sp o ∧ loop W f (render ds) st = o) ∧
    (∀ f st sp, Rel st sp → Ok W sp.inp → (render ds).length < f →
      (∀ c r, sp.inp = c :: r → ¬ Space (c : Nat)) →
      ∃ o, Run W false ds sp o ∧ loop W f (skipFmt (render ds)) st = o) := by
  induction ds with
  | nil =>
    intro _
    have hA : ∀ f st sp, Rel st sp → Ok W sp.inp → (render []).length < f →
        ∃ o, Run W false [] sp o ∧ loop W f (render []) st = o := by
      intro f st sp hr hok hf
      obtain ⟨f, rfl⟩ : ∃ g, f = g + 1 := ⟨f - 1, by omega⟩
      refine ⟨_, .nil, ?_⟩
      rw [← hr.inp, ← hr.cnt, ← hr.out]
      rfl
    exact ⟨hA, fun f st sp hr hok hf _ => hA f st sp hr hok hf⟩
  | cons d ds ih =>
    intro hds
    obtain ⟨ihA, ihB⟩ := ih (fun x hx => hds x (by simp [hx]))
    have hd : d.ok W := hds d (by simp)
    have hA : ∀ f st sp, Rel st sp → Ok W sp.inp → (render (d :: ds)).length < f →
        ∃ o, Run W false (d :: ds) sp o ∧ loop W f (render (d :: ds)) st = o := by
      intro f st sp hr hok hf
      obtain ⟨f, rfl⟩ : ∃ g, f = g + 1 := ⟨f - 1, by omega⟩
      rw [render_cons] at hf ⊢
      rw [List.length_append] at hf
      cases d with
      | space ws =>
        obtain ⟨hne, hws⟩ := hd
        match ws, hne with
        | c :: ws, _ =>
          have hc : Space (c : Int) := hws c (by simp)
          obtain ⟨a, ha1, ha2, ha3⟩ := skip_longest sp.inp hok.byte
          simp only [Dir.text, List.cons_append, List.length_cons] at hf ⊢
          rw [loop, if_pos ((isspace_iff (space_lt hc)).2 hc)]
          simp only
          rw [hr.inp, skipFmt_spaces ws _ (fun x hx => hws x (by simp [hx])), ha3]
          have hdrop : (sp.take a).inp = skipSpace sp.inp := by rw [ha2]; rfl
          obtain ⟨o, h1, h2⟩ := ihB f
            ⟨skipSpace sp.inp, st.cnt,
              st.ch + (a.length : Nat) + (if skipSpace sp.inp = [] then 1 else 0), st.out⟩ (sp.take a)
            ⟨hdrop.symm, hr.cnt, hr.out, fun hne' => by
              rw [hdrop] at hne'
              have hne2 : sp.inp ≠ [] := by rintro h; rw [h] at hne'; exact hne' rfl
              rw [if_neg hne', hr.ch hne2]
              simp [Sp.take]⟩
            (hok.drop _) (by omega) (by
              rw [hdrop]
              obtain ⟨_, _, _, h3⟩ := skip_split sp.inp hok.byte
              exact h3)
          exact ⟨o, .space ha1 h1, h2⟩
      | lit c =>
        simp only [Dir.text, List.cons_append, List.nil_append, List.length_cons, List.length_nil] at hf ⊢
        have hsp : isspace (c : Int) = 0 := by
          have := mt (isspace_iff hd.2.1).1 hd.2.2.2
          simpa using this
        have h37 : c ≠ 37 := hd.2.2.1
        rw [loop, if_neg (by simp [hsp]), if_pos (Or.inl h37)]
        simp only [h37, if_false]
        exact lit_ok false c ds f (render ds) st sp hr hok
          (fun st sp hr hok => ihA f st sp hr hok (by omega))
      | pct =>
        simp only [Dir.text, List.cons_append, List.nil_append, List.length_cons, List.length_nil] at hf ⊢
        rw [loop, if_neg (fun h => h pct_not_space), if_pos (Or.inr (show (37 :: render ds).head? = some 37 from rfl))]
        simp only [if_true, List.tail_cons]
        obtain ⟨o, h1, h2⟩ := lit_ok false 37 ds f (render ds) st sp hr hok
          (fun st sp hr hok => ihA f st sp hr hok (by omega))
        refine ⟨o, .pct (a := []) (by simp) ?_, h2⟩
        have : sp.take [] = sp := by simp [Sp.take]
        rw [this]; exact h1
      | conv assign w m k =>
        simp only [Dir.text, List.cons_append, List.length_cons] at hf ⊢
        obtain ⟨hs, hh⟩ := spec_conv W assign w m k hd (render ds) st
        rw [loop, if_neg (fun h => h pct_not_space), if_neg (by
          rintro (h | h)
          · exact h rfl
          · exact hh h)]
        simp only [hs]
        obtain ⟨a, ha, hcase⟩ := convert_ok W hW assign w m k hd.2.2 st sp hr hok (render ds)
        rcases hcase with ⟨hnil, he⟩ | ⟨hne, ⟨s', st', hC, he, hr', n, hn⟩ | ⟨r, i, o, hC, he⟩⟩
        · rw [he]
          exact ⟨_, .convEof ha hnil, rfl⟩
        · rw [he]
          obtain ⟨o, h1, h2⟩ := ihA f st' s' hr' (by
            rw [hn]; exact (hok.drop _).drop _) (by omega)
          exact ⟨o, .conv ha hne hC h1, h2⟩
        · rw [he]
          exact ⟨_, .convFail ha hne hC, rfl⟩
      | count m =>
        simp only [Dir.text, List.cons_append, List.length_cons] at hf ⊢
        obtain ⟨hs, hh⟩ := spec_count W m hd (render ds) st
        rw [loop, if_neg (fun h => h pct_not_space), if_neg (by
          rintro (h | h)
          · exact h rfl
          · exact hh h)]
        simp only [hs]
        obtain ⟨o, h1, h2⟩ := ihA f (countStore W (mcode m) st)
          { sp with out := sp.out ++ [.count (m.bits W) (st.ch % 2 ^ m.bits W).toNat] }
          ⟨hr.inp, hr.cnt, by simp only [countStore, hr.out, bits_eq], fun h => hr.ch h⟩ hok (by omega)
        refine ⟨o, .count (v := (st.ch % 2 ^ m.bits W).toNat) ?_ h1, h2⟩
        rintro (h | h)
        · cases h
        · rw [hr.ch h]
          have e2 : ((sp.n : Int) % 2 ^ m.bits W) = ((sp.n % 2 ^ m.bits W : Nat) : Int) := by
            push_cast; rfl
          rw [e2, Int.toNat_natCast]
    refine ⟨hA, ?_⟩
    intro f st sp hr hok hf hns
    by_cases hs : ∃ ws, d = .space ws
    · obtain ⟨ws, rfl⟩ := hs
      rw [render_cons] at hf ⊢
      rw [List.length_append] at hf
      rw [show (Dir.space ws).text = ws from rfl, skipFmt_spaces ws _ hd.2]
      obtain ⟨o, h1, h2⟩ := ihB f st sp hr hok (by omega) hns
      refine ⟨o, .space (a := []) ?_ ?_, h2⟩
      · refine longest_of all_prefix (by simp) (by intro k h; cases h) (by simp [AllSpace]) ?_
        intro c hc _ hP
        obtain ⟨u, hu⟩ := hc
        exact hns c u (by simpa using hu.symm) (hP c (by simp))
      · have : sp.take [] = sp := by simp [Sp.take]
        rw [this]; exact h1
    · obtain ⟨c, t, ht, hc⟩ := text_head W d hd (fun ws h => hs ⟨ws, h⟩)
      have e : skipFmt (render (d :: ds)) = render (d :: ds) := by
        rw [render_cons, ht, List.cons_append, skipFmt_char c _ hc]
      rw [e]
      exact hA f st sp hr hok hf

/-! ### The specification determines the outcome -/

theorem body_det {k : Conv} {s : List Nat} {v v' : Nat} (h : Body k s v) (h' : Body k s v') :
    v = v' := by
  have hx : ∀ v v', Body .x s v → Body .x s v' → v = v' := by
    intro v v' h h'
    rw [body_x] at h h'
    rcases h with ⟨_, hd, rfl⟩ | ⟨x, t, hx, he, _, hd, rfl⟩ <;>
      rcases h' with ⟨_, hd', rfl⟩ | ⟨x', t', hx', he', _, hd', rfl⟩
    · rfl
    · rw [he', digs_cons, digs_cons, not_digX (by omega) hx'] at hd
      cases hd.2.1
    · rw [he, digs_cons, digs_cons, not_digX (by omega) hx] at hd'
      cases hd'.2.1
    · rw [he] at he'
      simp only [List.cons.injEq, true_and] at he'
      rw [he'.2]
  cases k with
  | d => rw [((body_plain rfl _ _).1 h).2.2, ((body_plain rfl _ _).1 h').2.2]
  | u => rw [((body_plain rfl _ _).1 h).2.2, ((body_plain rfl _ _).1 h').2.2]
  | o => rw [((body_plain rfl _ _).1 h).2.2, ((body_plain rfl _ _).1 h').2.2]
  | x => exact hx _ _ h h'
  | X => exact hx _ _ ((body_hexy rfl _ _).1 h) ((body_hexy rfl _ _).1 h')
  | p => exact hx _ _ ((body_hexy rfl _ _).1 h) ((body_hexy rfl _ _).1 h')
  | i =>
    rw [body_i] at h h'
    rcases h with ⟨c, t, he, hc, hd, rfl⟩ | ⟨t, he, hd, rfl⟩ | ⟨x, t, hx, he, _, hd, rfl⟩ <;>
      rcases h' with ⟨c', t', he', hc', hd', rfl⟩ | ⟨t', he', hd', rfl⟩ | ⟨x', t', hx', he', _, hd', rfl⟩
    · rfl
    · rw [he] at he'; simp only [List.cons.injEq] at he'; exact absurd he'.1 hc
    · rw [he] at he'; simp only [List.cons.injEq] at he'; exact absurd he'.1 hc
    · rw [he] at he'; simp only [List.cons.injEq] at he'; exact absurd he'.1.symm hc'
    · rw [he] at he'; simp only [List.cons.injEq, true_and] at he'; rw [he']
    · rw [he] at he'; simp only [List.cons.injEq, true_and] at he'
      rw [he', digs_cons, not_digX (by omega) hx'] at hd
      cases hd.1
    · rw [he] at he'; simp only [List.cons.injEq] at he'; exact absurd he'.1.symm hc'
    · rw [he] at he'; simp only [List.cons.injEq, true_and] at he'
      rw [← he', digs_cons, not_digX (by omega) hx] at hd'
      cases hd'.1
    · rw [he] at he'; simp only [List.cons.injEq, true_and] at he'; rw [he'.2]
  | c => cases h
  | s => cases h
  | set n cs => cases h

theorem subject_det {k : Conv} {s : List Nat} {v v' : Int} (h : Subject k s v) (h' : Subject k s v') :
    v = v' := by
  match s with
  | [] => exact absurd h subject_nil
  | c :: s =>
    by_cases hc : c = 43 ∨ c = 45
    · obtain ⟨u, hu, rfl⟩ := (subject_sign hc).1 h
      obtain ⟨u', hu', rfl⟩ := (subject_sign hc).1 h'
      rw [body_det hu hu']
    · obtain ⟨u, hu, rfl⟩ := (subject_plain hc).1 h
      obtain ⟨u', hu', rfl⟩ := (subject_plain hc).1 h'
      rw [body_det hu hu']

theorem convert_det {W : Nat} {assign : Bool} {w : Option Nat} {m : Mod} {k : Conv} {s : Sp}
    {o o' : Outc} (h : Convert W assign w m k s o) (h' : Convert W assign w m k s o') : o = o' := by
  cases h with
  | int hk hl hs =>
    cases h' with
    | int _ hl' hs' =>
      have := longest_unique hl hl'; subst this
      rw [subject_det hs hs']
    | intFail _ hl' hno => rw [← longest_unique hl hl'] at hno; exact absurd hs (hno _)
    | intEof _ hl' hno => rw [← longest_unique hl hl'] at hno; exact absurd hs (hno _)
    | word => cases hk
    | chars => cases hk
    | charsFail => cases hk
    | set => cases hk
    | setFail => cases hk
  | intFail hk hl hno hne =>
    cases h' with
    | int _ hl' hs' => rw [longest_unique hl hl'] at hno; exact absurd hs' (hno _)
    | intFail _ hl' => rw [longest_unique hl hl']
    | intEof _ hl' _ h1 h2 =>
      have := longest_unique hl hl'; subst this
      exact absurd ⟨h1, h2⟩ hne
    | word => cases hk
    | chars => cases hk
    | charsFail => cases hk
    | set => cases hk
    | setFail => cases hk
  | intEof hk hl hno h1 h2 =>
    cases h' with
    | int _ hl' hs' => rw [longest_unique hl hl'] at hno; exact absurd hs' (hno _)
    | intFail _ hl' _ hne =>
      have := longest_unique hl hl'; subst this
      exact absurd ⟨h1, h2⟩ hne
    | intEof => rfl
    | word => cases hk
    | chars => cases hk
    | charsFail => cases hk
    | set => cases hk
    | setFail => cases hk
  | word hl =>
    cases h' with
    | word hl' => rw [longest_unique hl hl']
    | int hk => cases hk
    | intFail hk => cases hk
    | intEof hk => cases hk
  | chars hp hl =>
    cases h' with
    | chars hp' hl' =>
      obtain ⟨t, ht⟩ := List.prefix_of_prefix_length_le hp hp' (by omega)
      have : t = [] := by
        have := congrArg List.length ht
        simp only [List.length_append] at this
        exact List.length_eq_zero_iff.1 (by omega)
      rw [← ht, this, List.append_nil]
    | charsFail hl' => have := hp.length_le; omega
    | int hk => cases hk
    | intFail hk => cases hk
    | intEof hk => cases hk
  | charsFail hl =>
    cases h' with
    | chars hp' hl' => have := hp'.length_le; omega
    | charsFail => rfl
    | int hk => cases hk
    | intFail hk => cases hk
    | intEof hk => cases hk
  | set hl hne =>
    cases h' with
    | set hl' => rw [longest_unique hl hl']
    | setFail hl' => exact absurd (longest_unique hl hl') hne
    | int hk => cases hk
    | intFail hk => cases hk
    | intEof hk => cases hk
  | setFail hl =>
    cases h' with
    | set hl' hne' => exact absurd (longest_unique hl' hl) hne'
    | setFail => rfl
    | int hk => cases hk
    | intFail hk => cases hk
    | intEof hk => cases hk

theorem skip_det {b : Bool} {inp a a' : List Nat}
    (h : if b then Longest AllSpace none inp a else a = [])
    (h' : if b then Longest AllSpace none inp a' else a' = []) : a = a' := by
  cases b with
  | true => exact longest_unique h h'
  | false =>
    simp only [Bool.false_eq_true, if_false] at h h'
    rw [h, h']

theorem run_det {W : Nat} {ds : List Dir} {sp : Sp} {o o' : Res} (h : Run W true ds sp o)
    (h' : Run W true ds sp o') : o = o' := by
  induction h generalizing o' with
  | nil => cases h'; rfl
  | space ha _ ih =>
    cases h' with
    | space ha' hr => rw [← longest_unique ha ha'] at hr; exact ih hr
  | lit hin _ ih =>
    cases h' with
    | lit _ hr => exact ih hr
    | litMismatch hin' hne =>
      rw [hin] at hin'; simp only [List.cons.injEq] at hin'; exact absurd hin'.1.symm hne
    | litEof hin' => rw [hin] at hin'; cases hin'
  | litMismatch hin hne =>
    cases h' with
    | lit hin' hr => rw [hin] at hin'; simp only [List.cons.injEq] at hin'; exact absurd hin'.1 hne
    | litMismatch => rfl
    | litEof hin' => rw [hin] at hin'; cases hin'
  | litEof hin =>
    cases h' with
    | lit hin' hr => rw [hin] at hin'; cases hin'
    | litMismatch hin' => rw [hin] at hin'; cases hin'
    | litEof => rfl
  | pct ha _ ih =>
    cases h' with
    | pct ha' hr => rw [← skip_det (b := true) ha ha'] at hr; exact ih hr
  | count hv _ ih =>
    cases h' with
    | count hv' hr =>
      rw [hv' (Or.inl rfl), ← hv (Or.inl rfl)] at hr; exact ih hr
  | convEof ha hn =>
    cases h' with
    | convEof => rfl
    | conv ha' hne => rw [← skip_det ha ha'] at hne; exact absurd hn hne
    | convFail ha' hne => rw [← skip_det ha ha'] at hne; exact absurd hn hne
  | conv ha hne hC _ ih =>
    cases h' with
    | convEof ha' hn => rw [← skip_det ha ha'] at hn; exact absurd hn hne
    | conv ha' _ hC' hr =>
      rw [← skip_det ha ha'] at hC'
      have := convert_det hC hC'
      injection this with this
      subst this
      exact ih hr
    | convFail ha' _ hC' =>
      rw [← skip_det ha ha'] at hC'
      have := convert_det hC hC'
      cases this
  | convFail ha hne hC =>
    cases h' with
    | convEof ha' hn => rw [← skip_det ha ha'] at hn; exact absurd hn hne
    | conv ha' _ hC' hr =>
      rw [← skip_det ha ha'] at hC'
      have := convert_det hC hC'
      cases this
    | convFail ha' _ hC' =>
      rw [← skip_det ha ha'] at hC'
      have := convert_det hC hC'
      injection this with h1 h2 h3
      rw [h1, h2, h3]

/-- Without `%%` and `%n` the two readings agree. -/
theorem run_full {W : Nat} {ds : List Dir} {sp : Sp} {o : Res} (h : Run W false ds sp o)
    (hd : ∀ d ∈ ds, d ≠ .pct ∧ ∀ m, d ≠ .count m) : Run W true ds sp o := by
  induction h with
  | nil => exact .nil
  | space ha _ ih => exact .space ha (ih (fun d h => hd d (by simp [h])))
  | lit hin _ ih => exact .lit hin (ih (fun d h => hd d (by simp [h])))
  | litMismatch hin hne => exact .litMismatch hin hne
  | litEof hin => exact .litEof hin
  | pct ha _ ih => exact absurd rfl (hd _ (by simp)).1
  | count hv _ ih => exact absurd rfl ((hd _ List.mem_cons_self).2 _)
  | convEof ha hn => exact .convEof ha hn
  | conv ha hne hC _ ih => exact .conv ha hne hC (ih (fun d h => hd d (by simp [h])))
  | convFail ha hne hC => exact .convFail ha hne hC

end Smlr.Scan
