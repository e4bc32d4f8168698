import Verif.Lex.Gap
set_option autoImplicit false
/-! Identifiers, keywords, punctuators. -/
namespace Smlr.Lex

open Lit (peek)

theorem byte_forall (P : UInt8 → Prop) (h : ∀ n < 256, P (UInt8.ofNat n)) (c : UInt8) : P c := by
  have := h c.toNat c.toNat_lt
  rwa [UInt8.ofNat_toNat] at this

theorem isDigit_iff (c : UInt8) : isDigit c = true ↔ c ∈ digits :=
  byte_forall (fun c => isDigit c = true ↔ c ∈ digits) (by decide +kernel) c

theorem start_iff (c : UInt8) : (c = 0x5F ∨ isAlpha c = true) ↔ c ∈ letters :=
  byte_forall (fun c => (c = 0x5F ∨ isAlpha c = true) ↔ c ∈ letters) (by decide +kernel) c

theorem isWord_iff (c : UInt8) : isWord c = true ↔ c ∈ letters ++ digits :=
  byte_forall (fun c => isWord c = true ↔ c ∈ letters ++ digits) (by decide +kernel) c

theorem identLoop_ok (w r : Str) (hw : ∀ c ∈ w, c ∈ letters ++ digits) (hr : ∀ c, r.head? = some c → c ∉ letters ++ digits) :
    ∀ len, len + w.length ≤ maxIdent → identLoop len (w ++ r) = .ok (w, r) := by
  induction w with
  | nil =>
    intro len _
    cases r with
    | nil => rfl
    | cons c r =>
      have : ¬ isWord c = true := fun h => hr c rfl ((isWord_iff c).1 h)
      simp only [List.nil_append]
      unfold identLoop
      rw [if_neg this]
  | cons c w ih =>
    intro len hl
    simp only [List.length_cons] at hl
    have h1 : isWord c = true := (isWord_iff c).2 (hw c List.mem_cons_self)
    simp only [List.cons_append]
    unfold identLoop
    rw [if_pos h1, if_neg (by omega), ih (fun c h => hw c (List.mem_cons_of_mem _ h)) (len + 1) (by omega)]

theorem identLoop_inv (s : Str) : ∀ (len : Nat) (w r : Str), identLoop len s = .ok (w, r) → len ≤ maxIdent →
    s = w ++ r ∧ (∀ c ∈ w, c ∈ letters ++ digits) ∧ (∀ c, r.head? = some c → c ∉ letters ++ digits) ∧ len + w.length ≤ maxIdent := by
  induction s with
  | nil =>
    intro len w r h hl
    cases h
    exact ⟨rfl, by simp, by simp, by simpa using hl⟩
  | cons c s ih =>
    intro len w r h hl
    unfold identLoop at h
    by_cases hc : isWord c = true
    · rw [if_pos hc] at h
      split at h
      · cases h
      · cases hi : identLoop (len + 1) s with
        | error e => rw [hi] at h; cases h
        | ok x =>
          obtain ⟨w', r'⟩ := x
          rw [hi] at h
          cases h
          obtain ⟨h1, h2, h3, h4⟩ := ih (len + 1) w' r hi (by omega)
          refine ⟨by rw [h1]; rfl, ?_, h3, by simp only [List.length_cons]; omega⟩
          intro d hd
          rcases List.mem_cons.1 hd with rfl | hd
          · exact (isWord_iff _).1 hc
          · exact h2 d hd
    · rw [if_neg hc] at h
      cases h
      refine ⟨rfl, by simp, ?_, by simpa using hl⟩
      intro d hd
      injection hd with hd
      subst hd
      exact fun h => hc ((isWord_iff _).2 h)

theorem getIdent_ok {s w r : Str} (h : Word s w r) (hl : w.length ≤ 63) : getIdent s = .ok (w, r) := by
  obtain ⟨rfl, ⟨c, w, rfl, hc⟩, h2, h3, -⟩ := h
  have h1 := (start_iff c).2 hc
  have hn : ¬ (c ≠ 0x5F ∧ isAlpha c = false) := by
    rintro ⟨a, b⟩
    rcases h1 with h | h
    · exact a h
    · rw [b] at h; cases h
  simp only [List.length_cons] at hl
  have key := identLoop_ok w r (fun c h => h2 c (List.mem_cons_of_mem _ h)) h3 1 (by unfold maxIdent; omega)
  unfold getIdent
  show (if c ≠ 0x5F ∧ isAlpha c = false then _ else match identLoop 1 (w ++ r) with | .error e => _ | .ok (w, r) => _) = _
  rw [if_neg hn, key]
  rfl

theorem getIdent_inv {s w r : Str} (h : getIdent s = .ok (w, r)) (hL : peek s = 0x4C → isQuote (peek s.tail) = false) :
    Word s w r ∧ w.length ≤ 63 := by
  cases s with
  | nil => cases h
  | cons c s =>
    unfold getIdent at h
    change (if c ≠ 0x5F ∧ isAlpha c = false then _ else match identLoop 1 s with | .error e => _ | .ok (w, r) => _) = _ at h
    by_cases hc : c ≠ 0x5F ∧ isAlpha c = false
    · rw [if_pos hc] at h; cases h
    · rw [if_neg hc] at h
      cases hi : identLoop 1 s with
      | error e => rw [hi] at h; cases h
      | ok x =>
        obtain ⟨w', r'⟩ := x
        rw [hi] at h
        cases h
        obtain ⟨h1, h2, h3, h4⟩ := identLoop_inv s 1 w' r hi (by decide)
        have hcl : c ∈ letters := by
          refine (start_iff c).1 ?_
          by_cases h5 : c = 0x5F
          · exact Or.inl h5
          · refine Or.inr ?_
            cases h6 : isAlpha c with
            | true => rfl
            | false => exact absurd ⟨h5, h6⟩ hc
        refine ⟨⟨by rw [h1]; rfl, ⟨c, w', rfl, hcl⟩, ?_, h3, ?_⟩, ?_⟩
        · intro d hd
          rcases List.mem_cons.1 hd with rfl | hd
          · exact List.mem_append_left _ hcl
          · exact h2 d hd
        · intro hw d hd
          have : c = 0x4C ∧ w' = [] := by
            have : str "L" = [0x4C] := by decide
            rw [this] at hw
            injection hw with a b
            exact ⟨a, b⟩
          obtain ⟨rfl, rfl⟩ := this
          have hq := hL rfl
          rw [h1] at hq
          cases r with
          | nil => cases hd
          | cons e r =>
            injection hd with hd
            subst hd
            change isQuote e = false at hq
            unfold isQuote at hq
            simp only [Bool.or_eq_false_iff, decide_eq_false_iff_not] at hq
            exact hq
        · unfold maxIdent at h4
          show w'.length + 1 ≤ 63
          omega

/-! keywords -/

theorem keyword_ok : ∀ p ∈ keywords, getTokenByWord p.1 = p.2 ∧ p.2 ≠ .Ident ∧ p.1.length ≤ 63 ∧ (ignored p.2 = true ↔ p.1 ∈ dropped) := by decide +kernel

theorem dropped_kw (w : Str) (h : w ∈ dropped) : ∃ t, (w, t) ∈ keywords := by
  have : ∀ w ∈ dropped, ∃ p ∈ keywords, p.1 = w := by decide +kernel
  obtain ⟨p, h1, rfl⟩ := this w h
  exact ⟨p.2, h1⟩

theorem rws_kw : ∀ w ∈ rws, ∃ p ∈ keywords, p.1 = w := by decide +kernel

theorem not_keyword {w : Str} (h : ∀ t, (w, t) ∉ keywords) : getTokenByWord w = .Ident := by
  unfold getTokenByWord
  rw [List.idxOf?_eq_none_iff.2]
  intro hw
  obtain ⟨p, h1, h2⟩ := rws_kw w hw
  exact h p.2 (by rw [← h2]; exact h1)

/-! punctuators -/

/-- the two-character ones -/
def twos : List (UInt8 × UInt8) := [(0x2D, 0x3E), (0x2B, 0x2B), (0x2D, 0x2D), (0x3C, 0x3C), (0x3E, 0x3E), (0x3C, 0x3D), (0x3E, 0x3D), (0x3D, 0x3D), (0x21, 0x3D),
  (0x26, 0x26), (0x7C, 0x7C), (0x2A, 0x3D), (0x2F, 0x3D), (0x25, 0x3D), (0x2B, 0x3D), (0x2D, 0x3D), (0x26, 0x3D), (0x5E, 0x3D), (0x7C, 0x3D)]

def threes : List (UInt8 × UInt8 × UInt8) := [(0x2E, 0x2E, 0x2E), (0x3C, 0x3C, 0x3D), (0x3E, 0x3E, 0x3D)]

theorem puncts_shape : ∀ p ∈ puncts, (∃ c, p.1 = [c] ∧ c ≠ 0) ∨ (∃ q ∈ twos, p.1 = [q.1, q.2]) ∨ (∃ q ∈ threes, p.1 = [q.1, q.2.1, q.2.2]) := by
  have : ∀ p ∈ puncts, (p.1.length = 1 ∧ p.1.headD 0 ≠ 0) ∨ (∃ q ∈ twos, p.1 = [q.1, q.2]) ∨ (∃ q ∈ threes, p.1 = [q.1, q.2.1, q.2.2]) := by decide +kernel
  intro p hp
  rcases this p hp with ⟨h, h'⟩ | h
  · obtain ⟨c, hc⟩ := List.length_eq_one_iff.1 h
    rw [hc] at h'
    exact Or.inl ⟨c, hc, h'⟩
  · exact Or.inr h

/-- `t` is the longest punctuator at the beginning of `s`, of `k` characters -/
def Longest (s : Str) (t : Tk) (k : Nat) : Prop :=
  ∃ w r, s = w ++ r ∧ w.length = k ∧ (w, t) ∈ puncts ∧ (∀ p ∈ puncts, p.1 <+: w ++ r → p.1.length ≤ w.length) ∧
    (w = str "." → ∀ c, r.head? = some c → c ∉ digits)

theorem str_dot : str "." = [0x2E] := by decide

theorem longest1 (s : Str) (c : UInt8) (h : peek s = c) (h0 : c ≠ 0) (hp : ([c], Tk.chr c) ∈ puncts) (h2 : (c, peek s.tail) ∉ twos)
    (h3 : (c, peek s.tail, peek s.tail.tail) ∉ threes) (hd : c = 0x2E → ¬ isDigit (peek s.tail) = true) : Longest s (.chr c) 1 := by
  cases s with
  | nil => exact absurd h.symm h0
  | cons c' s =>
    have : c' = c := h
    subst this
    refine ⟨[c'], s, rfl, rfl, hp, ?_, ?_⟩
    · intro p hp' hpre
      rcases puncts_shape p hp' with ⟨a, ha, -⟩ | ⟨q, hq, ha⟩ | ⟨q, hq, ha⟩
      · rw [ha]; exact Nat.le_refl 1
      · exfalso
        rw [ha] at hpre
        obtain ⟨z, hz⟩ := hpre
        simp only [List.cons_append, List.nil_append] at hz
        injection hz with e1 e2
        refine h2 ?_
        rw [← e1, List.tail_cons, ← e2]
        exact hq
      · exfalso
        rw [ha] at hpre
        obtain ⟨z, hz⟩ := hpre
        simp only [List.cons_append, List.nil_append] at hz
        injection hz with e1 e2
        refine h3 ?_
        rw [← e1, List.tail_cons, ← e2]
        exact hq
    · intro hw d hd'
      rw [str_dot] at hw
      injection hw with hw _
      have := hd hw
      cases s with
      | nil => cases hd'
      | cons e s =>
        injection hd' with hd'
        subst hd'
        exact fun h => this ((isDigit_iff _).2 h)

theorem longest2 (s : Str) (t : Tk) (c d : UInt8) (h : peek s = c) (hd : peek s.tail = d) (h0 : c ≠ 0 ∧ d ≠ 0) (hp : ([c, d], t) ∈ puncts)
    (h3 : (c, d, peek s.tail.tail) ∉ threes) : Longest s t 2 := by
  cases s with
  | nil => exact absurd h.symm h0.1
  | cons c' s =>
    cases s with
    | nil => exact absurd hd.symm h0.2
    | cons d' s =>
      have : c' = c := h
      subst this
      have : d' = d := hd
      subst this
      refine ⟨[c', d'], s, rfl, rfl, hp, ?_, ?_⟩
      · intro p hp' hpre
        rcases puncts_shape p hp' with ⟨a, ha, -⟩ | ⟨q, hq, ha⟩ | ⟨q, hq, ha⟩
        · rw [ha]; exact Nat.le_succ 1
        · rw [ha]; exact Nat.le_refl 2
        · exfalso
          rw [ha] at hpre
          obtain ⟨z, hz⟩ := hpre
          simp only [List.cons_append, List.nil_append] at hz
          injection hz with e1 e2
          injection e2 with e2 e3
          refine h3 ?_
          rw [← e1, ← e2, List.tail_cons, List.tail_cons, ← e3]
          exact hq
      · intro hw
        rw [str_dot] at hw
        injection hw with _ hw
        cases hw

theorem longest3 (s : Str) (t : Tk) (c d e : UInt8) (h : peek s = c) (hd : peek s.tail = d) (he : peek s.tail.tail = e) (h0 : c ≠ 0 ∧ d ≠ 0 ∧ e ≠ 0)
    (hp : ([c, d, e], t) ∈ puncts) : Longest s t 3 := by
  cases s with
  | nil => exact absurd h.symm h0.1
  | cons c' s =>
    cases s with
    | nil => exact absurd hd.symm h0.2.1
    | cons d' s =>
      cases s with
      | nil => exact absurd he.symm h0.2.2
      | cons e' s =>
        have : c' = c := h
        subst this
        have : d' = d := hd
        subst this
        have : e' = e := he
        subst this
        refine ⟨[c', d', e'], s, rfl, rfl, hp, ?_, ?_⟩
        · intro p hp' _
          rcases puncts_shape p hp' with ⟨a, ha, -⟩ | ⟨q, hq, ha⟩ | ⟨q, hq, ha⟩
          · rw [ha]; exact Nat.le_add_left 1 2
          · rw [ha]; exact Nat.le_succ 2
          · rw [ha]; exact Nat.le_refl 3
        · intro hw
          rw [str_dot] at hw
          injection hw with _ hw
          cases hw

theorem single_ok : ∀ c ∈ singles, c ≠ 0 ∧ ([c], Tk.chr c) ∈ puncts ∧ (∀ q ∈ twos, q.1 ≠ c) ∧ (∀ q ∈ threes, q.1 ≠ c) ∧ c ≠ 0x2E := by decide +kernel

theorem oper_some (s : Str) (t : Tk) (k : Nat) (h : oper s = some (t, k)) : Longest s t k := by
  unfold oper at h
  dsimp only at h
  by_cases hs : peek s ∈ singles
  · rw [if_pos hs] at h
    cases h
    obtain ⟨h0, h1, h2, h3, h4⟩ := single_ok _ hs
    exact longest1 s _ rfl h0 h1 (fun h => h2 _ h rfl) (fun h => h3 _ h rfl) (fun h => absurd h h4)
  rw [if_neg hs] at h
  clear hs
  have l1 : ∀ c, peek s = c → c ≠ 0 → ([c], Tk.chr c) ∈ puncts → (c, peek s.tail) ∉ twos → (c, peek s.tail, peek s.tail.tail) ∉ threes →
      (c = 0x2E → ¬ isDigit (peek s.tail) = true) → Longest s (.chr (peek s)) 1 := by
    intro c h
    rw [h]
    exact longest1 s c h
  by_cases hc : peek s = 0x2B
  · rw [if_pos hc] at h
    repeat' split at h
    all_goals injection h with h
    all_goals injection h with h1 h2
    all_goals subst h1
    all_goals subst h2
    all_goals first
      | exact longest2 s _ _ _ hc (by assumption) (by decide) (by decide +kernel) (by simp [threes, *])
      | exact longest3 s _ _ _ _ hc (by assumption) (Decidable.not_not.1 (by assumption)) (by decide) (by decide +kernel)
      | exact longest3 s _ _ _ _ hc (And.left (by assumption)) (And.right (by assumption)) (by decide) (by decide +kernel)
      | exact l1 _ hc (by decide) (by decide +kernel) (by simp [twos, *]) (by simp [threes, *]) (fun h => absurd h (by decide))
  rw [if_neg hc] at h
  clear hc
  by_cases hc : peek s = 0x2D
  · rw [if_pos hc] at h
    repeat' split at h
    all_goals injection h with h
    all_goals injection h with h1 h2
    all_goals subst h1
    all_goals subst h2
    all_goals first
      | exact longest2 s _ _ _ hc (by assumption) (by decide) (by decide +kernel) (by simp [threes, *])
      | exact longest3 s _ _ _ _ hc (by assumption) (Decidable.not_not.1 (by assumption)) (by decide) (by decide +kernel)
      | exact longest3 s _ _ _ _ hc (And.left (by assumption)) (And.right (by assumption)) (by decide) (by decide +kernel)
      | exact l1 _ hc (by decide) (by decide +kernel) (by simp [twos, *]) (by simp [threes, *]) (fun h => absurd h (by decide))
  rw [if_neg hc] at h
  clear hc
  by_cases hc : peek s = 0x21
  · rw [if_pos hc] at h
    repeat' split at h
    all_goals injection h with h
    all_goals injection h with h1 h2
    all_goals subst h1
    all_goals subst h2
    all_goals first
      | exact longest2 s _ _ _ hc (by assumption) (by decide) (by decide +kernel) (by simp [threes, *])
      | exact longest3 s _ _ _ _ hc (by assumption) (Decidable.not_not.1 (by assumption)) (by decide) (by decide +kernel)
      | exact longest3 s _ _ _ _ hc (And.left (by assumption)) (And.right (by assumption)) (by decide) (by decide +kernel)
      | exact l1 _ hc (by decide) (by decide +kernel) (by simp [twos, *]) (by simp [threes, *]) (fun h => absurd h (by decide))
  rw [if_neg hc] at h
  clear hc
  by_cases hc : peek s = 0x3D
  · rw [if_pos hc] at h
    repeat' split at h
    all_goals injection h with h
    all_goals injection h with h1 h2
    all_goals subst h1
    all_goals subst h2
    all_goals first
      | exact longest2 s _ _ _ hc (by assumption) (by decide) (by decide +kernel) (by simp [threes, *])
      | exact longest3 s _ _ _ _ hc (by assumption) (Decidable.not_not.1 (by assumption)) (by decide) (by decide +kernel)
      | exact longest3 s _ _ _ _ hc (And.left (by assumption)) (And.right (by assumption)) (by decide) (by decide +kernel)
      | exact l1 _ hc (by decide) (by decide +kernel) (by simp [twos, *]) (by simp [threes, *]) (fun h => absurd h (by decide))
  rw [if_neg hc] at h
  clear hc
  by_cases hc : peek s = 0x3C
  · rw [if_pos hc] at h
    repeat' split at h
    all_goals injection h with h
    all_goals injection h with h1 h2
    all_goals subst h1
    all_goals subst h2
    all_goals first
      | exact longest2 s _ _ _ hc (by assumption) (by decide) (by decide +kernel) (by simp [threes, *])
      | exact longest3 s _ _ _ _ hc (by assumption) (Decidable.not_not.1 (by assumption)) (by decide) (by decide +kernel)
      | exact longest3 s _ _ _ _ hc (And.left (by assumption)) (And.right (by assumption)) (by decide) (by decide +kernel)
      | exact l1 _ hc (by decide) (by decide +kernel) (by simp [twos, *]) (by simp [threes, *]) (fun h => absurd h (by decide))
  rw [if_neg hc] at h
  clear hc
  by_cases hc : peek s = 0x3E
  · rw [if_pos hc] at h
    repeat' split at h
    all_goals injection h with h
    all_goals injection h with h1 h2
    all_goals subst h1
    all_goals subst h2
    all_goals first
      | exact longest2 s _ _ _ hc (by assumption) (by decide) (by decide +kernel) (by simp [threes, *])
      | exact longest3 s _ _ _ _ hc (by assumption) (Decidable.not_not.1 (by assumption)) (by decide) (by decide +kernel)
      | exact longest3 s _ _ _ _ hc (And.left (by assumption)) (And.right (by assumption)) (by decide) (by decide +kernel)
      | exact l1 _ hc (by decide) (by decide +kernel) (by simp [twos, *]) (by simp [threes, *]) (fun h => absurd h (by decide))
  rw [if_neg hc] at h
  clear hc
  by_cases hc : peek s = 0x26
  · rw [if_pos hc] at h
    repeat' split at h
    all_goals injection h with h
    all_goals injection h with h1 h2
    all_goals subst h1
    all_goals subst h2
    all_goals first
      | exact longest2 s _ _ _ hc (by assumption) (by decide) (by decide +kernel) (by simp [threes, *])
      | exact longest3 s _ _ _ _ hc (by assumption) (Decidable.not_not.1 (by assumption)) (by decide) (by decide +kernel)
      | exact longest3 s _ _ _ _ hc (And.left (by assumption)) (And.right (by assumption)) (by decide) (by decide +kernel)
      | exact l1 _ hc (by decide) (by decide +kernel) (by simp [twos, *]) (by simp [threes, *]) (fun h => absurd h (by decide))
  rw [if_neg hc] at h
  clear hc
  by_cases hc : peek s = 0x7C
  · rw [if_pos hc] at h
    repeat' split at h
    all_goals injection h with h
    all_goals injection h with h1 h2
    all_goals subst h1
    all_goals subst h2
    all_goals first
      | exact longest2 s _ _ _ hc (by assumption) (by decide) (by decide +kernel) (by simp [threes, *])
      | exact longest3 s _ _ _ _ hc (by assumption) (Decidable.not_not.1 (by assumption)) (by decide) (by decide +kernel)
      | exact longest3 s _ _ _ _ hc (And.left (by assumption)) (And.right (by assumption)) (by decide) (by decide +kernel)
      | exact l1 _ hc (by decide) (by decide +kernel) (by simp [twos, *]) (by simp [threes, *]) (fun h => absurd h (by decide))
  rw [if_neg hc] at h
  clear hc
  by_cases hc : peek s = 0x5E
  · rw [if_pos hc] at h
    repeat' split at h
    all_goals injection h with h
    all_goals injection h with h1 h2
    all_goals subst h1
    all_goals subst h2
    all_goals first
      | exact longest2 s _ _ _ hc (by assumption) (by decide) (by decide +kernel) (by simp [threes, *])
      | exact longest3 s _ _ _ _ hc (by assumption) (Decidable.not_not.1 (by assumption)) (by decide) (by decide +kernel)
      | exact longest3 s _ _ _ _ hc (And.left (by assumption)) (And.right (by assumption)) (by decide) (by decide +kernel)
      | exact l1 _ hc (by decide) (by decide +kernel) (by simp [twos, *]) (by simp [threes, *]) (fun h => absurd h (by decide))
  rw [if_neg hc] at h
  clear hc
  by_cases hc : peek s = 0x2E
  · rw [if_pos hc] at h
    repeat' split at h
    all_goals first | (cases h; done) | skip
    all_goals injection h with h
    all_goals injection h with h1 h2
    all_goals subst h1
    all_goals subst h2
    all_goals first
      | exact longest2 s _ _ _ hc (by assumption) (by decide) (by decide +kernel) (by simp [threes, *])
      | exact longest3 s _ _ _ _ hc (by assumption) (Decidable.not_not.1 (by assumption)) (by decide) (by decide +kernel)
      | exact longest3 s _ _ _ _ hc (And.left (by assumption)) (And.right (by assumption)) (by decide) (by decide +kernel)
      | exact l1 _ hc (by decide) (by decide +kernel) (by simp [twos, *]) (by simp [threes, *]) (fun h => absurd h (by decide))
      | exact l1 _ hc (by decide) (by decide +kernel) (by simp [twos]) (by simp only [threes, List.mem_cons, Prod.mk.injEq, List.not_mem_nil, or_false]; rintro (⟨-, h⟩ | ⟨h, -⟩ | ⟨h, -⟩); contradiction; exact absurd h (by decide); exact absurd h (by decide)) (fun _ => by assumption)
  rw [if_neg hc] at h
  clear hc
  by_cases hc : peek s = 0x2A
  · rw [if_pos hc] at h
    repeat' split at h
    all_goals injection h with h
    all_goals injection h with h1 h2
    all_goals subst h1
    all_goals subst h2
    all_goals first
      | exact longest2 s _ _ _ hc (by assumption) (by decide) (by decide +kernel) (by simp [threes, *])
      | exact longest3 s _ _ _ _ hc (by assumption) (Decidable.not_not.1 (by assumption)) (by decide) (by decide +kernel)
      | exact longest3 s _ _ _ _ hc (And.left (by assumption)) (And.right (by assumption)) (by decide) (by decide +kernel)
      | exact l1 _ hc (by decide) (by decide +kernel) (by simp [twos, *]) (by simp [threes, *]) (fun h => absurd h (by decide))
  rw [if_neg hc] at h
  clear hc
  by_cases hc : peek s = 0x25
  · rw [if_pos hc] at h
    repeat' split at h
    all_goals injection h with h
    all_goals injection h with h1 h2
    all_goals subst h1
    all_goals subst h2
    all_goals first
      | exact longest2 s _ _ _ hc (by assumption) (by decide) (by decide +kernel) (by simp [threes, *])
      | exact longest3 s _ _ _ _ hc (by assumption) (Decidable.not_not.1 (by assumption)) (by decide) (by decide +kernel)
      | exact longest3 s _ _ _ _ hc (And.left (by assumption)) (And.right (by assumption)) (by decide) (by decide +kernel)
      | exact l1 _ hc (by decide) (by decide +kernel) (by simp [twos, *]) (by simp [threes, *]) (fun h => absurd h (by decide))
  rw [if_neg hc] at h
  clear hc
  by_cases hc : peek s = 0x2F
  · rw [if_pos hc] at h
    repeat' split at h
    all_goals injection h with h
    all_goals injection h with h1 h2
    all_goals subst h1
    all_goals subst h2
    all_goals first
      | exact longest2 s _ _ _ hc (by assumption) (by decide) (by decide +kernel) (by simp [threes, *])
      | exact longest3 s _ _ _ _ hc (by assumption) (Decidable.not_not.1 (by assumption)) (by decide) (by decide +kernel)
      | exact longest3 s _ _ _ _ hc (And.left (by assumption)) (And.right (by assumption)) (by decide) (by decide +kernel)
      | exact l1 _ hc (by decide) (by decide +kernel) (by simp [twos, *]) (by simp [threes, *]) (fun h => absurd h (by decide))
  rw [if_neg hc] at h
  clear hc
  cases h

/-- first characters of punctuators -/
def firsts : Str := str "[](){}.-+&*~!/%<>=^|?:;,"

theorem puncts_first : ∀ p ∈ puncts, ∃ c ∈ firsts, p.1.head? = some c := by decide +kernel

theorem firsts_split : ∀ c ∈ firsts, c ∈ singles ∨ c ∈ [0x2B, 0x2D, 0x21, 0x3D, 0x3C, 0x3E, 0x26, 0x7C, 0x5E, 0x2E, 0x2A, 0x25, 0x2F] := by decide +kernel

theorem oper_none (s : Str) (h : oper s = none) : peek s ∉ firsts ∨ (peek s = 0x2E ∧ isDigit (peek s.tail) = true) := by
  by_cases hf : peek s ∈ firsts
  · refine Or.inr ?_
    have := firsts_split _ hf
    clear hf
    unfold oper at h
    dsimp only at h
    rcases this with hs | hs
    · rw [if_pos hs] at h; cases h
    · by_cases hs' : peek s ∈ singles
      · rw [if_pos hs'] at h; cases h
      rw [if_neg hs'] at h
      clear hs'
      simp only [List.mem_cons, List.not_mem_nil, or_false] at hs
      by_cases hc : peek s = 0x2B
      · rw [if_pos hc] at h; repeat' split at h
        all_goals cases h
      rw [if_neg hc] at h
      by_cases hc : peek s = 0x2D
      · rw [if_pos hc] at h; repeat' split at h
        all_goals cases h
      rw [if_neg hc] at h
      by_cases hc : peek s = 0x21
      · rw [if_pos hc] at h; repeat' split at h
        all_goals cases h
      rw [if_neg hc] at h
      by_cases hc : peek s = 0x3D
      · rw [if_pos hc] at h; repeat' split at h
        all_goals cases h
      rw [if_neg hc] at h
      by_cases hc : peek s = 0x3C
      · rw [if_pos hc] at h; repeat' split at h
        all_goals cases h
      rw [if_neg hc] at h
      by_cases hc : peek s = 0x3E
      · rw [if_pos hc] at h; repeat' split at h
        all_goals cases h
      rw [if_neg hc] at h
      by_cases hc : peek s = 0x26
      · rw [if_pos hc] at h; repeat' split at h
        all_goals cases h
      rw [if_neg hc] at h
      by_cases hc : peek s = 0x7C
      · rw [if_pos hc] at h; repeat' split at h
        all_goals cases h
      rw [if_neg hc] at h
      by_cases hc : peek s = 0x5E
      · rw [if_pos hc] at h; repeat' split at h
        all_goals cases h
      rw [if_neg hc] at h
      by_cases hc : peek s = 0x2E
      · rw [if_pos hc] at h
        split at h
        · cases h
        · split at h
          · exact ⟨hc, by assumption⟩
          · cases h
      rw [if_neg hc] at h
      by_cases hc : peek s = 0x2A
      · rw [if_pos hc] at h; repeat' split at h
        all_goals cases h
      rw [if_neg hc] at h
      by_cases hc : peek s = 0x25
      · rw [if_pos hc] at h; repeat' split at h
        all_goals cases h
      rw [if_neg hc] at h
      by_cases hc : peek s = 0x2F
      · rw [if_pos hc] at h; repeat' split at h
        all_goals cases h
      exfalso
      simp_all
  · exact Or.inl hf

theorem puncts_fun : ∀ p ∈ puncts, ∀ q ∈ puncts, p.1 = q.1 → p.2 = q.2 := by decide +kernel

theorem longest_unique {s : Str} {t t' : Tk} {k k' : Nat} (h : Longest s t k) (h' : Longest s t' k') : t = t' ∧ k = k' := by
  obtain ⟨w, r, e, hk, hp, hm, -⟩ := h
  obtain ⟨w', r', e', hk', hp', hm', -⟩ := h'
  have a := hm _ hp' (by rw [← e, e']; exact List.prefix_append _ _)
  have b := hm' _ hp (by rw [← e', e]; exact List.prefix_append _ _)
  have hl : w.length = w'.length := by dsimp only at a b; omega
  have : w = w' := by
    have := congrArg (List.take w.length) (e.symm.trans e')
    rw [List.take_left] at this
    rw [this, hl, List.take_left]
  subst this
  exact ⟨puncts_fun _ hp _ hp' rfl, by omega⟩

theorem oper_iff (s : Str) (t : Tk) (k : Nat) : oper s = some (t, k) ↔ Longest s t k := by
  refine ⟨oper_some s t k, fun h => ?_⟩
  cases ho : oper s with
  | none =>
    exfalso
    obtain ⟨w, r, e, hk, hp, hm, hd⟩ := h
    obtain ⟨c, hc, hw⟩ := puncts_first _ hp
    have hps : peek s = c := by
      rw [e]
      cases w with
      | nil => cases hw
      | cons d w => injection hw
    rcases oper_none s ho with h | ⟨h1, h2⟩
    · exact h (by rw [hps]; exact hc)
    · have hw1 : w = str "." := by
        rw [str_dot]
        rcases puncts_shape _ hp with ⟨a, ha, -⟩ | ⟨q, hq, ha⟩ | ⟨q, hq, ha⟩
        · dsimp only at ha
          rw [ha] at hw
          injection hw with hw
          rw [ha, hw, ← hps, h1]
        · exfalso
          dsimp only at ha
          have : ∀ q ∈ twos, q.1 ≠ 0x2E := by decide
          refine this q hq ?_
          rw [ha] at hw
          injection hw with hw
          rw [hw, ← hps, h1]
        · exfalso
          dsimp only at ha
          have : ∀ q ∈ threes, q.1 = 0x2E → isDigit q.2.1 = false := by decide
          rw [ha] at hw e
          injection hw with hw
          have h3 := this q hq (by rw [hw, ← hps, h1])
          rw [e] at h2
          change isDigit q.2.1 = true at h2
          rw [h2] at h3
          cases h3
      subst hw1
      rw [e, str_dot] at h2
      change isDigit (peek r) = true at h2
      cases r with
      | nil => exact absurd h2 (by decide)
      | cons d r => exact hd rfl d rfl ((isDigit_iff d).1 h2)
  | some x =>
    obtain ⟨t', k'⟩ := x
    obtain ⟨rfl, rfl⟩ := longest_unique h (oper_some s t' k' ho)
    rfl

end Smlr.Lex
