import Verif.Lex.Word
import Verif.Number.Props
import Verif.Lit.Props
set_option autoImplicit false
/-! Tokens one by one. -/
namespace Smlr.Lex

open Lit (peek)

/-! ### names that stand for something -/

theorem lab2str_digits (fuel : Nat) : ∀ (n : Nat) (ds : List Char),
    (Nat.toDigitsCore 10 fuel n ds).map (fun c => UInt8.ofNat c.toNat) = lab2str fuel n (ds.map (fun c => UInt8.ofNat c.toNat)) := by
  have hd : ∀ m < 10, UInt8.ofNat (Nat.digitChar m).toNat = UInt8.ofNat (0x30 + m) := by decide
  induction fuel with
  | zero => intro n ds; rfl
  | succ fuel ih =>
    intro n ds
    unfold Nat.toDigitsCore lab2str
    dsimp only
    split
    · rw [List.map_cons, hd _ (Nat.mod_lt _ (by omega))]
    · rw [ih, List.map_cons, hd _ (Nat.mod_lt _ (by omega))]

theorem lab2str_eq (n : Nat) : lab2str (n + 1) n [] = decimal n := (lab2str_digits (n + 1) n []).symm

theorem str_quote : str "\"" = [0x22] := by decide

theorem expansion_iff (T : Cfg) (n : Nat) (w e : Str) : expansion T n w = some e ↔ Expands T n w e := by
  unfold expansion Expands
  split
  · rw [str_quote]
    constructor
    · intro h; injection h with h; exact h.symm
    · intro h; rw [h]; rfl
  · split
    · rw [lab2str_eq]
      constructor
      · intro h; injection h with h; exact h.symm
      · intro h; rw [h]
    · rfl

theorem plain_iff (T : Cfg) (n : Nat) (w : Str) : expansion T n w = none ↔ Plain T w := by
  constructor
  · intro h m e he
    have h1 := (expansion_iff T m w e).2 he
    unfold expansion at h h1
    split at h
    · cases h
    · rename_i h2
      rw [if_neg h2] at h1
      split at h
      · cases h
      · rename_i h3
        rw [if_neg h3, h] at h1
        cases h1
  · intro h
    cases he : expansion T n w with
    | none => rfl
    | some e => exact absurd ((expansion_iff T n w e).1 he) (h n e)

/-! ### the value of a float is unique -/

theorem rounded_lt {num den r s : Nat} (hr : Number.Rounded num den r) (hs : Number.Rounded num den s) (hd : 0 < den) (hlt : r < s) : False := by
  by_cases hi : s = Number.inf
  · have := hr.over.2 (hs.over.1 hi)
    omega
  · have hs' : s < Number.inf := by have := hs.le; omega
    have hri : r ≠ Number.inf := by omega
    have a := hr.near hri s hs'
    have b := hs.near hi r (by omega)
    have e := hr.tie hri s hs' (by omega) (by omega)
    have e' := hs.tie hi r (by omega) (by omega) (by omega)
    have c := hr.near hri (r + 1) (by omega)
    have f1 := Number.fval_succ r
    have f2 : Number.fval (r + 1) < Number.fval s := by
      have := Number.fval_succ (r + 1)
      have := Number.fval_mono (show r + 1 + 1 ≤ s by omega)
      omega
    have g1 : Number.fval r * den < Number.fval (r + 1) * den := Nat.mul_lt_mul_of_pos_right f1 hd
    have g2 : Number.fval (r + 1) * den < Number.fval s * den := Nat.mul_lt_mul_of_pos_right f2 hd
    have p1 : ((Number.fval r * den : Nat) : Int) = (Number.fval r : Int) * den := Int.natCast_mul _ _
    have p2 : ((Number.fval (r + 1) * den : Nat) : Int) = (Number.fval (r + 1) : Int) * den := Int.natCast_mul _ _
    have p3 : ((Number.fval s * den : Nat) : Int) = (Number.fval s : Int) * den := Int.natCast_mul _ _
    rw [← p1] at a b c
    rw [← p3] at a b
    rw [← p2] at c
    omega

theorem rounded_unique {num den r s : Nat} (hr : Number.Rounded num den r) (hs : Number.Rounded num den s) (hd : 0 < den) : r = s := by
  rcases Nat.lt_trichotomy r s with h | h | h
  · exact (rounded_lt hr hs hd h).elim
  · exact h
  · exact (rounded_lt hs hr hd h).elim

/-! ### number literals -/

theorem not_continues {c : UInt8} (h : c ∉ letters ++ digits) (h' : c ≠ 0x2E) : ¬ Number.Continues c := by
  have key1 : ∀ n < 256, UInt8.ofNat n ∉ letters ++ digits → ¬ ((0x30 ≤ n ∧ n ≤ 0x39) ∨ (0x41 ≤ n ∧ n ≤ 0x46) ∨ (0x61 ≤ n ∧ n ≤ 0x66)) := by decide +kernel
  have key2 : ∀ n < 256, UInt8.ofNat n ∉ letters ++ digits → UInt8.ofNat n ∉ [0x65, 0x45, 0x75, 0x55, 0x6C, 0x4C, 0x78, 0x58] := by decide +kernel
  have h1 := key1 c.toNat c.toNat_lt
  have h2 := key2 c.toNat c.toNat_lt
  rw [UInt8.ofNat_toNat] at h1 h2
  replace h1 := h1 h
  replace h2 := h2 h
  simp only [List.mem_cons, List.not_mem_nil, or_false, not_or] at h2
  unfold Number.Continues Number.HexDigit
  rintro (⟨d, hd⟩ | hd)
  · omega
  · rcases hd with hd | hd | hd | hd | hd | hd | hd | hd | hd
    · exact h' hd
    all_goals simp_all

theorem not_digit {c : UInt8} (h : c ∉ letters ++ digits) : ¬ Number.IsDigit c ∧ ¬ (c = 0x66 ∨ c = 0x46 ∨ c = 0x6C ∨ c = 0x4C) ∧ c ≠ 0x65 ∧ c ≠ 0x45 := by
  have key : ∀ n < 256, UInt8.ofNat n ∉ letters ++ digits → ¬ (0x30 ≤ n ∧ n ≤ 0x39) ∧ UInt8.ofNat n ∉ [0x66, 0x46, 0x6C, 0x4C, 0x65, 0x45] := by decide +kernel
  have := key c.toNat c.toNat_lt
  rw [UInt8.ofNat_toNat] at this
  obtain ⟨h1, h2⟩ := this h
  simp only [List.mem_cons, List.not_mem_nil, or_false, not_or] at h2
  obtain ⟨a, b, c', d, e, f⟩ := h2
  refine ⟨h1, ?_, e, f⟩
  rintro (h | h | h | h)
  · exact a h
  · exact b h
  · exact c' h
  · exact d h

theorem isDigit_of {c : UInt8} (h : Number.IsDigit c) : isDigit c = true := by
  have key : ∀ n < 256, 0x30 ≤ n ∧ n ≤ 0x39 → isDigit (UInt8.ofNat n) = true := by decide +kernel
  have := key c.toNat c.toNat_lt h
  rwa [UInt8.ofNat_toNat] at this

/-- what is known of the number literals -/
structure NumOk (T : Cfg) (num : Str → Number.Tok → Nat → Str → Prop) : Prop where
  run : ∀ s t v r, num s t v r → Number.getNumber true T.W s = .ok (t, v, r)
  start : ∀ s t v r, num s t v r → isDigit (peek s) = true ∨ (peek s = 0x2E ∧ isDigit (peek s.tail) = true)

theorem num_start {T : Cfg} {s : Str} {t : Number.Tok} {v : Nat} {r : Str} (h : Num T s t v r) :
    isDigit (peek s) = true ∨ (peek s = 0x2E ∧ isDigit (peek s.tail) = true) := by
  cases h with
  | int text k ds suf u l t r hi _ _ _ =>
    refine Or.inl ?_
    cases hi with
    | dec c s h _ _ => exact isDigit_of h
    | oct s _ _ => show isDigit 0x30 = true; decide
    | hex x s ds _ _ _ => show isDigit 0x30 = true; decide
  | float ip dot fp ex e suf r v hf _ _ _ _ _ =>
    cases ip with
    | cons c ip => exact Or.inl (isDigit_of (hf.hip c List.mem_cons_self))
    | nil =>
      refine Or.inr ?_
      cases fp with
      | nil => exact absurd hf.hsome (by simp)
      | cons d fp =>
        cases dot with
        | false => exact absurd (hf.nodot rfl) (by simp)
        | true => exact ⟨rfl, isDigit_of (hf.hfp d List.mem_cons_self)⟩

theorem num_ok (T : Cfg) (hW : T.W = 2 ∨ T.W = 4) : NumOk T (Num T) := by
  refine ⟨?_, fun s t v r h => num_start h⟩
  intro s t v r h
  cases h with
  | int text k ds suf u l t r hi hs he ht =>
    exact (Number.c16_int T.W hW text k ds hi suf u l hs r (fun c hc => not_continues (he.stop c hc).1 (he.stop c hc).2)).1 t ht
  | float ip dot fp ex e suf r v hf hs he hl hx hv =>
    have haf : Number.AfterFloat ex suf r := by
      intro _ c hc
      obtain ⟨h1, h2, h3⟩ := not_digit (he.stop c hc).1
      exact ⟨h1, h2, fun _ => h3⟩
    rcases Number.c17_float T.W ip fp ex suf r dot e hf hs haf hl with ⟨v', h1, h2⟩ | ⟨-, h⟩
    · rw [h1, rounded_unique h2 hv (Nat.pos_of_ne_zero (by
        have : 0 < 10 ^ (-(e - (fp.length : Int))).toNat := Nat.pow_pos (by omega)
        omega))]
    · omega

/-! ### something appended -/

/-- what may be appended to a text without touching its last token: nothing, or a space and something -/
def Sep (z : Str) : Prop := z = [] ∨ ∃ z', z = 0x20 :: z'

theorem Sep.head {z r : Str} (hz : Sep z) {c : UInt8} (h : (r ++ z).head? = some c) : r.head? = some c ∨ c = 0x20 := by
  cases r with
  | nil =>
    rcases hz with rfl | ⟨z', rfl⟩
    · cases h
    · injection h with h; exact Or.inr h.symm
  | cons d r => exact Or.inl h

theorem NumEnd.append {w r z : Str} (h : NumEnd w r) (hz : Sep z) : NumEnd w (r ++ z) := by
  refine ⟨?_, ?_⟩
  · intro c hc
    rcases hz.head hc with h' | rfl
    · exact h.stop c h'
    · decide
  · intro c hc hs
    rcases hz.head hc with h' | rfl
    · exact h.sign c h' hs
    · rcases hs with hs | hs <;> exact absurd hs (by decide)

theorem Num.append {T : Cfg} {s : Str} {t : Number.Tok} {v : Nat} {r z : Str} (h : Num T s t v r) (hz : Sep z) : Num T (s ++ z) t v (r ++ z) := by
  cases h with
  | int text k ds suf u l t r hi hs he ht =>
    rw [List.append_assoc]
    exact .int _ _ _ _ _ _ _ _ hi hs (he.append hz) ht
  | float ip dot fp ex e suf r v hf hs he hl hx hv =>
    rw [List.append_assoc]
    exact .float _ _ _ _ _ _ _ _ hf hs (he.append hz) hl hx hv

theorem Word.append {s w r z : Str} (h : Word s w r) (hz : Sep z) : Word (s ++ z) w (r ++ z) := by
  refine ⟨by rw [h.text, List.append_assoc], h.first, h.all, ?_, ?_⟩
  · intro c hc
    rcases hz.head hc with h' | rfl
    · exact h.stop c h'
    · decide
  · intro hw c hc
    rcases hz.head hc with h' | rfl
    · exact h.notWide hw c h'
    · decide

theorem elem_append {n m : Nat} {s : Str} {v : Nat} {r z : Str} (h : Lit.Elem n m s v r) (hz : Sep z) : Lit.Elem n m (s ++ z) v (r ++ z) := by
  cases h with
  | plain c r h1 h2 h3 => exact .plain _ _ h1 h2 h3
  | simple c v r h1 => exact .simple _ _ _ h1
  | other c r h1 h2 h3 h4 h5 => exact .other _ _ h1 h2 h3 h4 h5
  | oct ds r h1 h2 h3 h4 h5 =>
    rw [List.cons_append, List.append_assoc]
    refine .oct _ _ h1 h2 h3 ?_ h5
    rcases h4 with h4 | h4
    · exact Or.inl h4
    · refine Or.inr ?_
      intro d hd
      rcases hz.head hd with h' | rfl
      · exact h4 d h'
      · unfold Lit.octDigit; decide
  | hex ds r h1 h2 h3 h4 =>
    rw [List.cons_append, List.cons_append, List.append_assoc]
    refine .hex _ _ h1 h2 ?_ h4
    intro d hd
    rcases hz.head hd with h' | rfl
    · exact h3 d h'
    · unfold Lit.hexDigit; decide

theorem body_append {n m : Nat} {t : UInt8} {s : Str} {vs : List Nat} {r z : Str} (h : Lit.Body n m t s vs r) (hz : Sep z) :
    Lit.Body n m t (s ++ z) vs (r ++ z) := by
  induction h with
  | done r => exact .done _
  | elem s v s' vs r h1 h2 _ ih =>
    refine .elem _ _ _ _ _ ?_ (elem_append h2 hz) ih
    cases s with
    | nil => cases h2
    | cons c s => exact h1

theorem body_suffix {n m : Nat} {t : UInt8} {s : Str} {vs : List Nat} {r : Str} (h : Lit.Body n m t s vs r) : ∃ w, s = w ++ r := by
  induction h with
  | done r => exact ⟨[t], rfl⟩
  | elem s v s' vs r _ h2 _ ih =>
    obtain ⟨w, rfl⟩ := ih
    cases h2 with
    | plain c r h1 h2 h3 => exact ⟨c :: w, rfl⟩
    | simple c v r h1 => exact ⟨0x5C :: c :: w, rfl⟩
    | other c r h1 h2 h3 h4 h5 => exact ⟨0x5C :: c :: w, rfl⟩
    | oct ds r h1 h2 h3 h4 h5 => exact ⟨0x5C :: (ds ++ w), by simp⟩
    | hex ds r h1 h2 h3 h4 => exact ⟨0x5C :: 0x78 :: (ds ++ w), by simp⟩

/-- what is needed of number literals for the theorem: they may be followed by a space -/
def NumApp (num : Str → Number.Tok → Nat → Str → Prop) : Prop :=
  ∀ s t v r z, num s t v r → Sep z → num (s ++ z) t v (r ++ z)

theorem punct_append : ∀ p ∈ puncts, 0x20 ∉ p.1 := by decide +kernel

theorem prefix_append_sep {p w r z : Str} (hp : 0x20 ∉ p) (hz : Sep z) (h : p <+: w ++ (r ++ z)) : p <+: w ++ r := by
  rcases hz with rfl | ⟨z', rfl⟩
  · rwa [List.append_nil] at h
  · rw [← List.append_assoc] at h
    generalize w ++ r = a at h ⊢
    induction p generalizing a with
    | nil => exact List.nil_prefix
    | cons c p ih =>
      obtain ⟨y, hy⟩ := h
      cases a with
      | nil =>
        exfalso
        simp only [List.cons_append, List.nil_append] at hy
        injection hy with e _
        exact hp (by rw [e]; exact List.mem_cons_self)
      | cons d a =>
        simp only [List.cons_append] at hy
        injection hy with e1 e2
        rw [e1]
        exact List.cons_prefix_cons.2 ⟨rfl, ih (fun h => hp (List.mem_cons_of_mem _ h)) a ⟨y, e2⟩⟩

theorem Lexeme.append {T : Cfg} {num : Str → Number.Tok → Nat → Str → Prop} (happ : NumApp num) {s : Str} {t : Token} {r z : Str}
    (h : Lexeme T num s t r) (hz : Sep z) : Lexeme T num (s ++ z) t (r ++ z) := by
  cases h with
  | punct w t r h1 h2 h3 h4 =>
    rw [List.append_assoc]
    refine .punct _ _ _ h1 ?_ ?_ ?_
    · intro p hp hpre
      exact h2 p hp (prefix_append_sep (punct_append p hp) hz hpre)
    · intro hw c hc
      rcases hz.head hc with h' | rfl
      · exact h3 hw c h'
      · decide
    · intro hw c hc
      rcases hz.head hc with h' | rfl
      · exact h4 hw c h'
      · decide
  | keyword s w t r h1 h2 h3 h4 => exact .keyword _ _ _ _ (h1.append hz) h2 h3 h4
  | ident s w r h1 h2 h3 h4 => exact .ident _ _ _ (h1.append hz) h2 h3 h4
  | num s t v r h1 => exact .num _ _ _ _ (happ _ _ _ _ _ h1 hz)
  | char wide s vs r h1 h2 h3 =>
    rw [List.append_assoc]
    exact .char _ _ _ _ h1 (body_append h2 hz) h3
  | string wide s vs r h1 h2 =>
    rw [List.append_assoc]
    exact .string _ _ _ _ (body_append h1 hz) h2

theorem Lexeme.suffix {T : Cfg} {num : Str → Number.Tok → Nat → Str → Prop} (hsuf : ∀ s t v r, num s t v r → ∃ w, s = w ++ r) {s : Str} {t : Token} {r : Str}
    (h : Lexeme T num s t r) : ∃ w, s = w ++ r := by
  cases h with
  | punct w t r h1 h2 h3 h4 => exact ⟨w, rfl⟩
  | keyword s w t r h1 h2 h3 h4 => exact ⟨w, h1.text⟩
  | ident s w r h1 h2 h3 h4 => exact ⟨w, h1.text⟩
  | num s t v r h1 => exact hsuf _ _ _ _ h1
  | char wide s vs r h1 h2 h3 =>
    obtain ⟨w, rfl⟩ := body_suffix h2
    exact ⟨prefixL wide ++ 0x27 :: w, by simp⟩
  | string wide s vs r h1 h2 =>
    obtain ⟨w, rfl⟩ := body_suffix h1
    exact ⟨prefixL wide ++ 0x22 :: w, by simp⟩

theorem num_suffix (T : Cfg) (s : Str) (t : Number.Tok) (v : Nat) (r : Str) (h : Num T s t v r) : ∃ w, s = w ++ r := by
  cases h with
  | int text k ds suf u l t r hi hs he ht => exact ⟨_, rfl⟩
  | float ip dot fp ex e suf r v hf hs he hl hx hv => exact ⟨_, rfl⟩

end Smlr.Lex
