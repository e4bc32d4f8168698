import Verif.Scan.Body

set_option autoImplicit false
/-
The integer scanner for the conversions that allow a `0x` prefix.
-/
namespace Smlr.Scan

open Smlr.Ctype Spec

theorem e16 : (if (16 : Nat) = 0 then 10 else 16) = 16 := rfl
theorem e16' : (if (16 : Nat) = 0 then 8 else 16) = 16 := rfl
theorem e8 : (if (8 : Nat) = 0 then 10 else 8) = 8 := rfl

/-- The digits after a `0x` prefix. -/
theorem hex_tail {k : Conv} (W : Nat) (hk : hexy k = true ∨ k = .i) (f : Nat) (x : Nat)
    (hx : x = 120 ∨ x = 88) (t : List Nat) (w : Nat) (neg : Bool) (ch : Int)
    (hb : ∀ c ∈ t, c < 256) (hf : t.length < f) :
    ∃ b, BodyRes k (48 :: x :: t) (w + 2) b ∧
    Result W k (48 :: x :: t) (w + 2) neg ch
      (numLoop W f ⟨.digit, t, w, 16, neg, false, 0, ch + 1 + 1⟩) b := by
  have hnd : ∀ r s, r ≤ 16 → ¬ Digs r (x :: s) := by
    intro r s hr h
    rw [digs_cons, not_digX hr hx] at h
    cases h.1
  have hvb : ∀ s, VB k (48 :: x :: s) ↔ Digs 16 s := by
    intro s
    constructor
    · intro h
      rcases hk with hk | rfl
      · rw [vb_hexy hk] at h
        rcases h with h | ⟨y, u, hy, he, h⟩
        · rw [digs_cons] at h; exact absurd h.2 (hnd _ _ (by omega))
        · simp only [List.cons.injEq, true_and] at he
          rw [he.2]; exact h
      · rw [vb_i] at h
        rcases h with h | ⟨c, u, he, hc, _⟩ | ⟨u, he, h⟩ | ⟨y, u, hy, he, h⟩
        · cases h
        · simp only [List.cons.injEq] at he; exact absurd he.1.symm hc
        · simp only [List.cons.injEq, true_and] at he
          rw [← he] at h; exact absurd h (hnd _ _ (by omega))
        · simp only [List.cons.injEq, true_and] at he
          rw [he.2]; exact h
    · intro h
      rcases hk with hk | rfl
      · exact (vb_hexy hk _).2 (Or.inr ⟨x, s, hx, rfl, h⟩)
      · exact (vb_i _).2 (Or.inr (Or.inr (Or.inr ⟨x, s, hx, rfl, h⟩)))
  have hbody : ∀ s v, Body k (48 :: x :: s) v ↔ s ≠ [] ∧ Digs 16 s ∧ v = posVal 16 s := by
    intro s v
    constructor
    · intro h
      rcases hk with hk | rfl
      · rw [body_hexy hk, body_x] at h
        rcases h with ⟨_, h, _⟩ | ⟨y, u, hy, he, h⟩
        · rw [digs_cons] at h; exact absurd h.2 (hnd _ _ (by omega))
        · simp only [List.cons.injEq, true_and] at he
          rw [he.2]; exact h
      · rw [body_i] at h
        rcases h with ⟨c, u, he, hc, _⟩ | ⟨u, he, h, _⟩ | ⟨y, u, hy, he, h⟩
        · simp only [List.cons.injEq] at he; exact absurd he.1.symm hc
        · simp only [List.cons.injEq, true_and] at he
          rw [← he] at h; exact absurd h (hnd _ _ (by omega))
        · simp only [List.cons.injEq, true_and] at he
          rw [he.2]; exact h
    · intro h
      rcases hk with hk | rfl
      · exact (body_hexy hk _ _).2 ((body_x _ _).2 (Or.inr ⟨x, s, hx, rfl, h⟩))
      · exact (body_i _ _).2 (Or.inr (Or.inr ⟨x, s, hx, rfl, h⟩))
  have hd := dspan_digs 16 w t
  refine ⟨48 :: x :: dspan 16 w t, ⟨?_, ?_, (hvb _).2 hd, ?_⟩, ?_⟩
  · exact (List.prefix_cons_inj _).2 ((List.prefix_cons_inj _).2 (dspan_prefix _ _ _))
  · simpa using dspan_len 16 w t
  · intro c hc hl hv
    simp only [List.cons_append] at hv hc
    rw [hvb, digs_append, digs_cons] at hv
    have hn := dspan_next 16 w t c (by simpa using hc) (by simpa using hl)
    rw [hv.2.1] at hn; cases hn
  · rw [loop_digit W f t w 16 neg false 0 _ hb hf]
    simp only [e16]
    by_cases he : dspan 16 w t = []
    · right
      refine ⟨fun v hv => ((hbody _ _).1 hv).1 he, ?_⟩
      rw [if_neg (by simp [he]), he]
      simp only [List.length_cons, List.length_nil, List.drop_succ_cons, List.drop_zero]
      congr 1
      apply decide_eq_decide.2
      constructor
      · rintro ⟨a, rfl⟩; exact ⟨rfl, by omega⟩
      · rintro ⟨a, b⟩
        simp only [List.cons.injEq, true_and] at a
        exact ⟨by omega, a.symm⟩
    · left
      rw [if_pos (Or.inr he)]
      refine ⟨_, _, (hbody _ _).2 ⟨he, hd, rfl⟩, rfl, ?_, ?_, rfl, fold_val W 16 _⟩
      · simp
      · simp; omega

/-- `%x`, `%X`, `%p`. -/
theorem scan_hexy {k : Conv} (W : Nat) (hk : hexy k = true) (f : Nat) (inp : List Nat)
    (w : Nat) (neg : Bool) (ch : Int) (hb : ∀ c ∈ inp, c < 256) (hf : inp.length + 2 < f) :
    ∃ b, BodyRes k inp w b ∧
    Result W k inp w neg ch (numLoop W f ⟨.zero, inp, w, base0 k, neg, false, 0, ch⟩) b := by
  have hbase : base0 k = 16 := by cases k <;> simp [hexy] at hk <;> rfl
  rw [hbase]
  obtain ⟨f, rfl⟩ : ∃ g, f = g + 1 := ⟨f - 1, by omega⟩
  unfold numLoop
  rw [step_zero]
  have hnil : ∀ v, ¬ Body k [] v := by
    intro v hv
    rw [body_hexy hk, body_x] at hv
    rcases hv with ⟨h, _⟩ | ⟨_, _, _, h, _⟩
    · exact h rfl
    · cases h
  have hvnil : VB k [] := (vb_hexy hk _).2 (Or.inl (digs_nil _))
  have hdig : ∀ s, Digs 16 s → VB k s := fun s h => (vb_hexy hk _).2 (Or.inl h)
  have hdb : ∀ s, s ≠ [] → Digs 16 s → Body k s (posVal 16 s) := fun s h1 h2 =>
    (body_hexy hk _ _).2 ((body_x _ _).2 (Or.inl ⟨h1, h2, rfl⟩))
  match w, inp with
  | 0, inp =>
    exact ⟨[], ⟨by simp, by simp, hvnil, fun c _ hl => by simp at hl⟩, Or.inr ⟨hnil, by simp⟩⟩
  | w + 1, [] =>
    exact ⟨[], ⟨by simp, by simp, hvnil, fun c hc => by simp at hc⟩, Or.inr ⟨hnil, by simp⟩⟩
  | w + 1, c :: t =>
    have hbt : ∀ c ∈ t, c < 256 := fun x hx => hb x (by simp [hx])
    by_cases h48 : c = 48
    · subst h48
      have h16 : (16 ||| 16 : Nat) = 16 := by decide
      simp only [if_true, h16]
      obtain ⟨f, rfl⟩ : ∃ g, f = g + 1 := ⟨f - 1, by omega⟩
      unfold numLoop
      rw [step_x W t w 16 neg true 0 _ hbt]
      have h0 : Body k [48] 0 := hdb [48] (by simp) (digs_cons.2 ⟨isDig48 (by omega), digs_nil _⟩)
      match w, t with
      | 0, t =>
        refine ⟨[48], ⟨by simp, by simp, ⟨[], _, h0⟩, fun c _ hl => by simp at hl⟩,
          Or.inl ⟨_, _, h0, rfl, ?_, ?_, rfl, ?_⟩⟩
        · simp
        · simp
        · simp
      | w + 1, [] =>
        refine ⟨[48], ⟨by simp, by simp, ⟨[], _, h0⟩, fun c hc => by simp at hc⟩,
          Or.inl ⟨_, _, h0, rfl, ?_, ?_, rfl, ?_⟩⟩
        · simp
        · simp
        · simp
      | w + 1, x :: t =>
        by_cases hx : x = 120 ∨ x = 88
        · simp only [hx, if_true]
          exact hex_tail W (Or.inl hk) f x hx t w neg ch (fun y hy => hbt y (by simp [hy]))
            (by simp at hf; omega)
        · simp only [hx, if_false]
          simp only [e16']
          rw [loop_digit W f (x :: t) (w + 1) 16 neg true 0 _ hbt (by simp at hf ⊢; omega)]
          have hd := dspan_digs 16 (w + 1) (x :: t)
          simp only [true_or, if_true, e16]
          refine ⟨48 :: dspan 16 (w + 1) (x :: t), ⟨(List.prefix_cons_inj _).2 (dspan_prefix _ _ _),
            ?_, ?_, ?_⟩, Or.inl ?_⟩
          · simpa using dspan_len 16 (w + 1) (x :: t)
          · exact hdig _ (digs_cons.2 ⟨isDig48 (by omega), hd⟩)
          · intro c hc hl hv
            have hn := dspan_next 16 (w + 1) (x :: t) c (by simpa using hc) (by simpa using hl)
            rw [vb_hexy hk] at hv
            rcases hv with hv | ⟨y, u, hy, he, _⟩
            · rw [List.cons_append, digs_cons, digs_append, digs_cons] at hv
              rw [hv.2.2.1] at hn; cases hn
            · rw [List.cons_append] at hc
              have hp := (List.prefix_cons_inj 48).1 hc
              simp only [List.cons_append, List.cons.injEq, true_and] at he
              rw [he] at hp
              have := (List.cons_prefix_cons.1 hp).1
              exact hx (this ▸ hy)
          · refine ⟨_, _, hdb _ (by simp) (digs_cons.2 ⟨isDig48 (by omega), hd⟩), rfl, ?_, ?_, rfl, ?_⟩
            · simp
            · simp; omega
            · rw [posVal_zero]; exact fold_val W 16 _
    · simp only [h48, if_false]
      refine ⟨dspan 16 (w + 1) (c :: t), ⟨dspan_prefix _ _ _, dspan_len _ _ _,
        hdig _ (dspan_digs _ _ _), ?_⟩, ?_⟩
      · intro d hc hl hv
        have hn := dspan_next 16 (w + 1) (c :: t) d hc hl
        rw [vb_hexy hk] at hv
        rcases hv with hv | ⟨y, u, hy, he, _⟩
        · rw [digs_append, digs_cons] at hv
          rw [hv.2.1] at hn; cases hn
        · rw [he] at hc
          exact h48 (List.cons_prefix_cons.1 hc).1.symm
      · rw [loop_digit W f (c :: t) (w + 1) 16 neg false 0 ch hb (by omega)]
        simp only [e16]
        by_cases he : dspan 16 (w + 1) (c :: t) = []
        · right
          refine ⟨fun v hv => hnil v (he ▸ hv), ?_⟩
          rw [if_neg (by simp [he]), he]
          simp
        · left
          rw [if_pos (Or.inr he)]
          exact ⟨_, _, hdb _ he (dspan_digs _ _ _), rfl, rfl, rfl, rfl, fold_val W 16 _⟩

/-- `%i`. -/
theorem scan_i (W : Nat) (f : Nat) (inp : List Nat)
    (w : Nat) (neg : Bool) (ch : Int) (hb : ∀ c ∈ inp, c < 256) (hf : inp.length + 2 < f) :
    ∃ b, BodyRes .i inp w b ∧
    Result W .i inp w neg ch (numLoop W f ⟨.zero, inp, w, base0 .i, neg, false, 0, ch⟩) b := by
  have hbase : base0 .i = 0 := rfl
  rw [hbase]
  obtain ⟨f, rfl⟩ : ∃ g, f = g + 1 := ⟨f - 1, by omega⟩
  unfold numLoop
  rw [step_zero]
  have hnil : ∀ v, ¬ Body .i [] v := by
    intro v hv
    rw [body_i] at hv
    rcases hv with ⟨_, _, h, _⟩ | ⟨_, h, _⟩ | ⟨_, _, _, h, _⟩ <;> cases h
  have hvnil : VB .i [] := (vb_i _).2 (Or.inl rfl)
  match w, inp with
  | 0, inp =>
    exact ⟨[], ⟨by simp, by simp, hvnil, fun c _ hl => by simp at hl⟩, Or.inr ⟨hnil, by simp⟩⟩
  | w + 1, [] =>
    exact ⟨[], ⟨by simp, by simp, hvnil, fun c hc => by simp at hc⟩, Or.inr ⟨hnil, by simp⟩⟩
  | w + 1, c :: t =>
    have hbt : ∀ c ∈ t, c < 256 := fun x hx => hb x (by simp [hx])
    by_cases h48 : c = 48
    · subst h48
      have h16 : (0 ||| 16 : Nat) = 16 := by decide
      simp only [if_true, h16]
      obtain ⟨f, rfl⟩ : ∃ g, f = g + 1 := ⟨f - 1, by omega⟩
      unfold numLoop
      rw [step_x W t w 0 neg true 0 _ hbt]
      have h0 : Body .i [48] 0 := (body_i _ _).2 (Or.inr (Or.inl ⟨[], rfl, digs_nil _, rfl⟩))
      match w, t with
      | 0, t =>
        refine ⟨[48], ⟨by simp, by simp, ⟨[], _, h0⟩, fun c _ hl => by simp at hl⟩,
          Or.inl ⟨_, _, h0, rfl, ?_, ?_, rfl, ?_⟩⟩
        · simp
        · simp
        · simp
      | w + 1, [] =>
        refine ⟨[48], ⟨by simp, by simp, ⟨[], _, h0⟩, fun c hc => by simp at hc⟩,
          Or.inl ⟨_, _, h0, rfl, ?_, ?_, rfl, ?_⟩⟩
        · simp
        · simp
        · simp
      | w + 1, x :: t =>
        by_cases hx : x = 120 ∨ x = 88
        · simp only [hx, if_true]
          exact hex_tail W (Or.inr rfl) f x hx t w neg ch (fun y hy => hbt y (by simp [hy]))
            (by simp at hf; omega)
        · simp only [hx, if_false, if_true]
          rw [loop_digit W f (x :: t) (w + 1) 8 neg true 0 _ hbt (by simp at hf ⊢; omega)]
          have hd := dspan_digs 8 (w + 1) (x :: t)
          simp only [true_or, if_true, e8]
          refine ⟨48 :: dspan 8 (w + 1) (x :: t), ⟨(List.prefix_cons_inj _).2 (dspan_prefix _ _ _),
            ?_, ?_, ?_⟩, Or.inl ?_⟩
          · simpa using dspan_len 8 (w + 1) (x :: t)
          · exact (vb_i _).2 (Or.inr (Or.inr (Or.inl ⟨_, rfl, hd⟩)))
          · intro c hc hl hv
            have hn := dspan_next 8 (w + 1) (x :: t) c (by simpa using hc) (by simpa using hl)
            rw [vb_i] at hv
            rcases hv with hv | ⟨a, u, he, ha, _⟩ | ⟨u, he, hv⟩ | ⟨y, u, hy, he, _⟩
            · simp at hv
            · simp only [List.cons_append, List.cons.injEq] at he
              exact ha he.1.symm
            · simp only [List.cons_append, List.cons.injEq, true_and] at he
              rw [← he, digs_append, digs_cons] at hv
              rw [hv.2.1] at hn; cases hn
            · rw [List.cons_append] at hc
              have hp := (List.prefix_cons_inj 48).1 hc
              simp only [List.cons_append, List.cons.injEq, true_and] at he
              rw [he] at hp
              have := (List.cons_prefix_cons.1 hp).1
              exact hx (this ▸ hy)
          · refine ⟨_, _, (body_i _ _).2 (Or.inr (Or.inl ⟨_, rfl, hd, rfl⟩)), rfl, ?_, ?_, rfl, ?_⟩
            · simp
            · simp; omega
            · exact fold_val W 8 _
    · simp only [h48, if_false]
      have hhead : dspan 10 (w + 1) (c :: t) = [] ∨
          ∃ u, dspan 10 (w + 1) (c :: t) = c :: u := by
        unfold dspan
        split
        · exact Or.inr ⟨_, rfl⟩
        · exact Or.inl rfl
      have hd := dspan_digs 10 (w + 1) (c :: t)
      refine ⟨dspan 10 (w + 1) (c :: t), ⟨dspan_prefix _ _ _, dspan_len _ _ _, ?_, ?_⟩, ?_⟩
      · rcases hhead with h | ⟨u, h⟩
        · rw [h]; exact hvnil
        · exact (vb_i _).2 (Or.inr (Or.inl ⟨c, u, h, h48, hd⟩))
      · intro d hc hl hv
        have hn := dspan_next 10 (w + 1) (c :: t) d hc hl
        rw [vb_i] at hv
        rcases hv with hv | ⟨a, u, _, _, hv⟩ | ⟨u, he, _⟩ | ⟨y, u, hy, he, _⟩
        · simp at hv
        · rw [digs_append, digs_cons] at hv
          rw [hv.2.1] at hn; cases hn
        · rw [he] at hc
          exact h48 (List.cons_prefix_cons.1 hc).1.symm
        · rw [he] at hc
          exact h48 (List.cons_prefix_cons.1 hc).1.symm
      · rw [loop_digit W f (c :: t) (w + 1) 0 neg false 0 ch hb (by omega)]
        simp only [if_true]
        rcases hhead with he | ⟨u, he⟩
        · right
          refine ⟨fun v hv => hnil v (he ▸ hv), ?_⟩
          rw [if_neg (by simp [he]), he]
          simp
        · left
          rw [if_pos (Or.inr (by simp [he]))]
          exact ⟨_, _, (body_i _ _).2 (Or.inl ⟨c, u, he, h48, hd, rfl⟩), rfl, rfl, rfl, rfl,
            fold_val W 10 _⟩

end Smlr.Scan
