import Verif.Lex.Run
set_option autoImplicit false
/-! The text of a macro. -/
namespace Smlr.Lex

open Lit (peek)

/-! ### `SkipSpace(0)` -/

theorem block_false (f : Nat) : ∀ (s : Str) (n : Nat) (r : Str) (m : Nat), block true f s n = .ok (r, m) → n ≤ m ∧ (m = n → block false f s n = .ok (r, n)) := by
  induction f with
  | zero => intro s n r m h; cases h
  | succ f ih =>
    intro s n r m h
    unfold block at h ⊢
    by_cases h0 : peek s = 0
    · rw [if_pos h0] at h; cases h
    · rw [if_neg h0] at h ⊢
      by_cases h1 : peek s = 0x2A ∧ peek s.tail = 0x2F
      · rw [if_pos h1] at h ⊢
        cases h
        exact ⟨Nat.le_refl _, fun _ => rfl⟩
      · rw [if_neg h1] at h ⊢
        by_cases h2 : peek s = 0x0D ∨ peek s = 0x0A
        · rw [if_pos h2] at h
          have h : block true f (newline s) (n + 1) = .ok (r, m) := h
          have := (ih _ _ _ _ h).1
          exact ⟨by omega, fun _ => by omega⟩
        · rw [if_neg h2] at h ⊢
          exact ih _ _ _ _ h

/-- `SkipSpace(0)` -/
def skipF (s : Str) : Except Err (Str × Nat) := skipSpace false (s.length + 1) s 0

theorem skipF_fuel (f : Nat) (s : Str) (h : s.length < f) : skipSpace false f s 0 = skipF s := skipSpace_fuel false f s 0 _ h (by omega)

theorem skipF_cons (c : UInt8) (s : Str) : skipF (c :: s) =
    if c = 0 then .ok (c :: s, 0)
    else if c ∈ [0x20, 9, 0x0C, 0x0B] then skipF s
    else if c = 0x0D ∨ c = 0x0A then .ok (c :: s, 0)
    else if c = 0x2F ∧ peek s = 0x2F then skipF (toEol s.tail)
    else if c = 0x2F ∧ peek s = 0x2A then
      match block false (s.length + 1) s.tail 0 with
      | .error e => .error e
      | .ok (s, n) => skipSpace false (s.length + 1) s n
    else .ok (c :: s, 0) := by
  have hu : skipF (c :: s) = if c = 0 then .ok (c :: s, 0)
    else if c ∈ [0x20, 9, 0x0C, 0x0B] then skipSpace false (s.length + 1) s 0
    else if c = 0x0D ∨ c = 0x0A then .ok (c :: s, 0)
    else if c = 0x2F ∧ peek s = 0x2F then skipSpace false (s.length + 1) (toEol s.tail) 0
    else if c = 0x2F ∧ peek s = 0x2A then
      match block false (s.length + 1) s.tail 0 with
      | .error e => .error e
      | .ok (s', n) => skipSpace false (s.length + 1) s' n
    else .ok (c :: s, 0) := rfl
  have h1 : s.tail.length ≤ s.length := by rw [List.length_tail]; omega
  have h2 := toEol_len s.tail
  rw [hu, skipF_fuel _ (toEol s.tail) (by omega)]
  cases hb : block false (s.length + 1) s.tail 0 with
  | error e => rfl
  | ok x =>
    obtain ⟨r, m⟩ := x
    have := block_len _ _ _ _ _ _ hb
    dsimp only
    rw [skipSpace_fuel false (s.length + 1) r m (r.length + 1) (by omega) (by omega)]
    rfl

theorem InLine.right {u s : Str} (h : InLine (u ++ s)) : InLine s :=
  ⟨fun h' => h.nul (List.mem_append_right _ h'), fun h' => h.lf (List.mem_append_right _ h'), fun h' => h.cr (List.mem_append_right _ h')⟩

theorem InLine.left {u s : Str} (h : InLine (u ++ s)) : InLine u :=
  ⟨fun h' => h.nul (List.mem_append_left _ h'), fun h' => h.lf (List.mem_append_left _ h'), fun h' => h.cr (List.mem_append_left _ h')⟩

theorem InLine.tail {c : UInt8} {s : Str} (h : InLine (c :: s)) : InLine s := InLine.right (u := [c]) h

theorem lineEnds_in {b : Str} (h : InLine b) : lineEnds b = 0 := by
  induction b with
  | nil => rfl
  | cons c b ih =>
    unfold lineEnds
    rw [if_neg, ih h.tail]
    rintro (rfl | ⟨rfl, -⟩)
    · exact h.lf List.mem_cons_self
    · exact h.cr List.mem_cons_self

theorem mem_blanks (c : UInt8) : c ∈ [0x20, 9, 0x0C, 0x0B] ↔ c ∈ blanks := by
  unfold blanks
  simp only [List.mem_cons, List.not_mem_nil, or_false]
  constructor
  · rintro (h | h | h | h) <;> simp [h]
  · rintro (h | h | h | h) <;> simp [h]

theorem skipF_gap {s r : Str} {k : Nat} (h : Gap true s k r) (z : Str) (hz : Eol z) : InLine s → k = 0 ∧ InLine r ∧ skipF (s ++ z) = skipF (r ++ z) := by
  induction h with
  | nil r => intro hs; exact ⟨rfl, hs, rfl⟩
  | blank c s k r hc _ ih =>
    intro hs
    obtain ⟨h1, h2, h3⟩ := ih hs.tail
    refine ⟨h1, h2, ?_⟩
    rw [List.cons_append, skipF_cons, if_neg (fun h => hs.nul (by rw [h]; exact List.mem_cons_self)), if_pos ((mem_blanks c).2 hc), h3]
  | newline e s k r _ he _ ih =>
    intro hs
    exfalso
    rcases he with rfl | rfl | ⟨rfl, -⟩
    · exact hs.lf (by simp)
    · exact hs.lf (by simp)
    · exact hs.cr (by simp)
  | line b s k r _ h1 h2 h3 hg ih =>
    intro hs
    have hs' := hs.right
    obtain ⟨i1, i2, i3⟩ := ih hs'
    refine ⟨i1, i2, ?_⟩
    have hnil : s = [] := by
      cases s with
      | nil => rfl
      | cons c s =>
        exfalso
        rcases h3 c rfl with rfl | rfl
        · exact hs'.lf (by simp)
        · exact hs'.cr (by simp)
    subst hnil
    rw [← i3, List.append_nil, List.append_assoc, str_line, List.cons_append, skipF_cons, if_neg (by decide), if_neg (by decide), if_neg (by decide),
      if_pos ⟨rfl, rfl⟩]
    show skipF (toEol (b ++ z)) = skipF z
    rw [toEol_line b z h1 h2 (fun h => hs.left.right.nul h) hz]
  | block b s k r _ hc _ ih =>
    intro hs
    have hs' := hs.right
    have hb := hs.left.left.right
    obtain ⟨i1, i2, i3⟩ := ih hs'
    refine ⟨by rw [lineEnds_in hb, i1], i2, ?_⟩
    rw [← i3]
    have e : str "/*" ++ b ++ str "*/" ++ s ++ z = 0x2F :: 0x2A :: (b ++ [0x2A, 0x2F] ++ (s ++ z)) := by
      rw [str_open, str_close]; simp
    rw [e, skipF_cons, if_neg (by decide), if_neg (by decide), if_neg (by decide), if_neg (by intro h; exact absurd h.2 (show ¬ (0x2A : UInt8) = 0x2F by decide)),
      if_pos ⟨rfl, rfl⟩]
    have hbl := block_ok b (s ++ z) 0 ((0x2A :: (b ++ [0x2A, 0x2F] ++ (s ++ z))).length + 1) hc hb.nul (by simp only [List.length_cons]; omega)
    rw [lineEnds_in hb] at hbl
    show (match block false _ (b ++ [0x2A, 0x2F] ++ (s ++ z)) 0 with
      | .error e => Except.error e
      | .ok (s, n) => skipSpace false (s.length + 1) s n) = _
    rw [(block_false _ _ _ _ _ hbl).2 rfl]
    rfl

theorem skipF_stuck {r z : Str} (h : Stuck r) (hr : InLine r) (hz : Eol z) : skipF (r ++ z) = .ok (r ++ z, 0) := by
  cases r with
  | nil =>
    cases z with
    | nil => rfl
    | cons c z =>
      rw [List.nil_append, skipF_cons]
      rcases hz c rfl with rfl | rfl
      · rfl
      · rfl
  | cons c r =>
    rw [List.cons_append, skipF_cons, if_neg (fun e => hr.nul (by rw [e]; exact List.mem_cons_self)), if_neg (fun e => h.blank ((mem_blanks c).1 e)),
      if_neg (by rintro (e | e); exact h.cr e; exact h.lf e)]
    have key : ∀ d : UInt8, (d = 0x2F ∨ d = 0x2A) → peek (r ++ z) = d → peek r = d := by
      intro d hd hp
      cases r with
      | cons => exact hp
      | nil =>
        exfalso
        cases z with
        | nil =>
          have hp : (0 : UInt8) = d := hp
          rw [← hp] at hd
          revert hd; decide
        | cons e z =>
          have hp : e = d := hp
          rw [← hp] at hd
          rcases hz e rfl with rfl | rfl <;> (revert hd; decide)
    rw [if_neg (fun e => (h.slash e.1).1 (key _ (Or.inl rfl) e.2)), if_neg (fun e => (h.slash e.1).2 (key _ (Or.inr rfl) e.2))]

/-! ### the loop -/

/-- a blank or comment comes next -/
def Trig (s : Str) : Prop := peek s ≠ 0 ∧ ((peek s = 0x20 ∨ peek s = 9) ∨ (peek s = 0x2F ∧ (peek s.tail = 0x2F ∨ peek s.tail = 0x2A)))

instance (s : Str) : Decidable (Trig s) := by unfold Trig; infer_instance

/-- the loop after a character -/
def after (f : Nat) (s : Str) : Except Err (Str × Str) :=
  if Trig s then
    match skipF s with
    | .error e => .error e
    | .ok (s, _) => (defineBody f s).map fun p => (0x20 :: p.1, p.2)
  else defineBody f s

theorem defineBody_cons (f : Nat) (c : UInt8) (s : Str) (h : Lit.eol c = false) :
    defineBody (f + 1) (c :: s) = (after f s).map fun p => (c :: p.1, p.2) := by
  have hu : defineBody (f + 1) (c :: s) = if Lit.eol c then .ok ([], c :: s) else
      if Trig s then
        match skipF s with
        | .error e => .error e
        | .ok (s, _) => (defineBody f s).map fun p => (c :: 0x20 :: p.1, p.2)
      else (defineBody f s).map fun p => (c :: p.1, p.2) := rfl
  rw [hu, h]
  simp only [Bool.false_eq_true, if_false]
  unfold after
  by_cases ht : Trig s
  · rw [if_pos ht, if_pos ht]
    cases skipF s with
    | error e => rfl
    | ok x =>
      obtain ⟨r, m⟩ := x
      dsimp only
      cases defineBody f r <;> rfl
  · rw [if_neg ht, if_neg ht]

theorem eol_in {c : UInt8} {s : Str} (h : InLine (c :: s)) : Lit.eol c = false := by
  have h1 : c ≠ 0 := fun e => h.nul (by rw [e]; exact List.mem_cons_self)
  have h2 : c ≠ lf := fun e => h.lf (by rw [e]; exact List.mem_cons_self)
  have h3 : c ≠ cr := fun e => h.cr (by rw [e]; exact List.mem_cons_self)
  unfold lf at h2
  unfold cr at h3
  unfold Lit.eol
  simp [h1, h2, h3]

theorem defineBody_eol (f : Nat) (z : Str) (hz : Eol z) : defineBody (f + 1) z = .ok ([], z) := by
  have : Lit.eol (peek z) = true := by
    cases z with
    | nil => rfl
    | cons c z => rcases hz c rfl with rfl | rfl <;> rfl
  unfold defineBody
  rw [if_pos this]

theorem eol_trig {z : Str} (hz : Eol z) : ¬ Trig z := by
  cases z with
  | nil => exact fun h => h.1 rfl
  | cons c z =>
    rintro ⟨-, h⟩
    rcases hz c rfl with rfl | rfl
    · exact absurd h (by rintro ((h | h) | ⟨h, -⟩) <;> exact absurd h (show ¬ lf = _ by decide))
    · exact absurd h (by rintro ((h | h) | ⟨h, -⟩) <;> exact absurd h (show ¬ cr = _ by decide))

/-- the characters of a token -/
theorem defineBody_token (w : Str) : ∀ (f : Nat) (c : UInt8) (s : Str), InLine (c :: w) → (∀ d ∈ w, d ≠ 0x20 ∧ d ≠ 9 ∧ d ≠ 0x2F) →
    defineBody (f + w.length + 1) (c :: (w ++ s)) = (after f s).map fun p => (c :: (w ++ p.1), p.2) := by
  induction w with
  | nil =>
    intro f c s hi _
    exact defineBody_cons f c s (eol_in hi)
  | cons d w ih =>
    intro f c s hi hw
    rw [show f + (d :: w).length + 1 = (f + w.length + 1) + 1 from rfl, defineBody_cons _ _ _ (eol_in hi)]
    have hd := hw d List.mem_cons_self
    have : ¬ Trig (d :: w ++ s) := by
      rintro ⟨-, (h | h) | ⟨h, -⟩⟩
      · exact hd.1 h
      · exact hd.2.1 h
      · exact hd.2.2 h
    unfold after
    rw [if_neg this, List.cons_append, ih f d s hi.tail (fun e he => hw e (List.mem_cons_of_mem _ he))]
    unfold after
    cases (if Trig s then
        match skipF s with
        | .error e => .error e
        | .ok (s, _) => (defineBody f s).map fun p => (0x20 :: p.1, p.2)
      else defineBody f s : Except Err (Str × Str)) <;> rfl

/-! ### a text and what is stored of it -/

/-- the texts agree up to some point, from which on one of them has a space, or both have nothing -/
def Like (r e : Str) : Prop := ∃ c g z, r = c ++ g ∧ e = c ++ z ∧ ((z = [] ∧ g = []) ∨ ∃ z', z = 0x20 :: z')

theorem Like.nil : Like [] [] := ⟨[], [], [], rfl, rfl, Or.inl ⟨rfl, rfl⟩⟩
theorem Like.space (r e : Str) : Like r (0x20 :: e) := ⟨[], r, 0x20 :: e, rfl, rfl, Or.inr ⟨e, rfl⟩⟩
theorem Like.append (w : Str) {r e : Str} (h : Like r e) : Like (w ++ r) (w ++ e) := by
  obtain ⟨c, g, z, rfl, rfl, h⟩ := h
  exact ⟨w ++ c, g, z, by simp, by simp, h⟩

theorem Like.head {r e : Str} (h : Like r e) {d : UInt8} (hd : e.head? = some d) : r.head? = some d ∨ d = 0x20 := by
  obtain ⟨c, g, z, rfl, rfl, h⟩ := h
  cases c with
  | cons c' c => exact Or.inl hd
  | nil =>
    rcases h with ⟨rfl, rfl⟩ | ⟨z', rfl⟩
    · cases hd
    · injection hd with hd; exact Or.inr hd.symm

theorem Like.prefix {r e : Str} (h : Like r e) {p w : Str} (hp : 0x20 ∉ p) (h' : p <+: w ++ e) : p <+: w ++ r := by
  obtain ⟨c, g, z, rfl, rfl, h⟩ := h
  have hs : Sep z := by
    rcases h with ⟨h, -⟩ | h
    · exact Or.inl h
    · exact Or.inr h
  obtain ⟨y, hy⟩ := prefix_append_sep hp hs h'
  exact ⟨y ++ g, by rw [← List.append_assoc, hy, List.append_assoc]⟩

theorem Like.word {s w r e : Str} (h : Word s w r) (hl : Like r e) : Word (w ++ e) w e := by
  refine ⟨rfl, h.first, h.all, ?_, ?_⟩
  · intro c hc
    rcases hl.head hc with h' | rfl
    · exact h.stop c h'
    · decide
  · intro hw c hc
    rcases hl.head hc with h' | rfl
    · exact h.notWide hw c h'
    · decide

theorem Like.numEnd {w r e : Str} (h : NumEnd w r) (hl : Like r e) : NumEnd w e := by
  refine ⟨?_, ?_⟩
  · intro c hc
    rcases hl.head hc with h' | rfl
    · exact h.stop c h'
    · decide
  · intro c hc hs
    rcases hl.head hc with h' | rfl
    · exact h.sign c h' hs
    · rcases hs with hs | hs <;> exact absurd hs (by decide)

/-- no blank or slash -/
def Solid (w : Str) : Prop := ∀ d ∈ w, d ≠ 0x20 ∧ d ≠ 9 ∧ d ≠ 0x2F

theorem Solid.append {u v : Str} (hu : Solid u) (hv : Solid v) : Solid (u ++ v) := by
  intro d hd
  rcases List.mem_append.1 hd with h | h
  · exact hu d h
  · exact hv d h

theorem solid_word {s w r : Str} (h : Word s w r) : Solid w := by
  intro d hd
  have key : ∀ d ∈ letters ++ digits, d ≠ 0x20 ∧ d ≠ 9 ∧ d ≠ 0x2F := by decide +kernel
  exact key d (h.all d hd)

theorem solid_digit {c : UInt8} (h : Number.IsDigit c) : c ≠ 0x20 ∧ c ≠ 9 ∧ c ≠ 0x2F := by
  unfold Number.IsDigit at h
  refine ⟨?_, ?_, ?_⟩ <;> (rintro rfl; revert h; decide)

theorem solid_hex (s : Str) (ds : List Nat) (h : Number.HexDigits s ds) : Solid s := by
  induction h with
  | nil => intro d hd; cases hd
  | cons c d s ds h1 _ ih =>
    intro x hx
    rcases List.mem_cons.1 hx with rfl | hx
    · unfold Number.HexDigit at h1
      refine ⟨?_, ?_, ?_⟩ <;> (rintro rfl; have e1 : (0x20 : UInt8).toNat = 32 := rfl; have e2 : (9 : UInt8).toNat = 9 := rfl; have e3 : (0x2F : UInt8).toNat = 47 := rfl; omega)
    · exact ih x hx

theorem solid_num {T : Cfg} {s : Str} {t : Number.Tok} {v : Nat} {r : Str} (h : Num T s t v r) :
    ∃ w, s = w ++ r ∧ w ≠ [] ∧ Solid w ∧ ∀ e, Like r e → Num T (w ++ e) t v e := by
  cases h with
  | int text k ds suf u l t r hi hs he ht =>
    refine ⟨text ++ suf, rfl, ?_, ?_, fun e hl => .int _ _ _ _ _ _ _ _ hi hs (hl.numEnd he) ht⟩
    · cases hi <;> simp
    · refine Solid.append ?_ ?_
      · cases hi with
        | dec c s h1 h2 h3 =>
          intro d hd
          rcases List.mem_cons.1 hd with rfl | hd
          · exact solid_digit h1
          · exact solid_digit (h3 d hd)
        | oct s h1 h2 =>
          intro d hd
          rcases List.mem_cons.1 hd with rfl | hd
          · decide
          · exact solid_digit (h1 d hd)
        | hex x s ds h1 h2 h3 =>
          intro d hd
          rcases List.mem_cons.1 hd with rfl | hd
          · decide
          · rcases List.mem_cons.1 hd with rfl | hd
            · rcases h1 with rfl | rfl <;> decide
            · exact solid_hex _ _ h3 d hd
      · intro d hd
        cases hs with
        | none => cases hd
        | u c h => rw [List.mem_singleton.1 hd]; rcases h with rfl | rfl <;> decide
        | l c h => rw [List.mem_singleton.1 hd]; rcases h with rfl | rfl <;> decide
        | ul c e h h' =>
          rcases List.mem_cons.1 hd with rfl | hd
          · rcases h with rfl | rfl <;> decide
          · rw [List.mem_singleton.1 hd]; rcases h' with rfl | rfl <;> decide
        | lu c e h h' =>
          rcases List.mem_cons.1 hd with rfl | hd
          · rcases h with rfl | rfl <;> decide
          · rw [List.mem_singleton.1 hd]; rcases h' with rfl | rfl <;> decide
  | float ip dot fp ex e suf r v hf hs he hl hx hv =>
    refine ⟨_, rfl, ?_, ?_, fun e hl' => .float _ _ _ _ _ _ _ _ hf hs (hl'.numEnd he) hl hx hv⟩
    · rcases hf.hsome with h | h
      · simp [h]
      · have : dot = true := by
          cases dot with
          | true => rfl
          | false => exact absurd (hf.nodot rfl) h
        simp [this, Number.fracText]
    · refine Solid.append (Solid.append (Solid.append ?_ ?_) ?_) ?_
      · intro d hd; exact solid_digit (hf.hip d hd)
      · intro d hd
        unfold Number.fracText at hd
        split at hd
        · rcases List.mem_cons.1 hd with rfl | hd
          · decide
          · exact solid_digit (hf.hfp d hd)
        · cases hd
      · have h := hf.hex
        intro d hd
        cases h with
        | none => cases hd
        | plain e s h1 h2 h3 =>
          rcases List.mem_cons.1 hd with rfl | hd
          · rcases h1 with rfl | rfl <;> decide
          · exact solid_digit (h3 d hd)
        | plus e s h1 h2 h3 =>
          rcases List.mem_cons.1 hd with rfl | hd
          · rcases h1 with rfl | rfl <;> decide
          · rcases List.mem_cons.1 hd with rfl | hd
            · decide
            · exact solid_digit (h3 d hd)
        | minus e s h1 h2 h3 =>
          rcases List.mem_cons.1 hd with rfl | hd
          · rcases h1 with rfl | rfl <;> decide
          · rcases List.mem_cons.1 hd with rfl | hd
            · decide
            · exact solid_digit (h3 d hd)
      · intro d hd
        rcases hs with rfl | ⟨c, rfl, h⟩
        · cases hd
        · rw [List.mem_singleton.1 hd]; rcases h with rfl | rfl | rfl | rfl <;> decide

/-- a token without quotes: its text, in which only the first character may be a slash -/
theorem lexeme_text {T : Cfg} {s : Str} {t : Token} {r : Str} (h : Lexeme T (Num T) s t r) (hq : 0x22 ∉ s ∧ 0x27 ∉ s) :
    ∃ c w, s = c :: w ++ r ∧ Solid w ∧ ∀ e, Like r e → Lexeme T (Num T) (c :: w ++ e) t e := by
  cases h with
  | punct w t r h1 h2 h3 h4 =>
    have hk : ∀ p ∈ puncts, p.1 ≠ [] ∧ ∀ d ∈ p.1.tail, d ≠ 0x20 ∧ d ≠ 9 ∧ d ≠ 0x2F := by decide +kernel
    obtain ⟨k1, k2⟩ := hk _ h1
    cases w with
    | nil => exact absurd rfl k1
    | cons c w =>
      refine ⟨c, w, rfl, k2, fun e hl => .punct _ _ _ h1 ?_ ?_ ?_⟩
      · intro p hp hpre
        exact h2 p hp (hl.prefix (punct_append p hp) hpre)
      · intro hw c hc
        rcases hl.head hc with h' | rfl
        · exact h3 hw c h'
        · decide
      · intro hw c hc
        rcases hl.head hc with h' | rfl
        · exact h4 hw c h'
        · decide
  | keyword s w t r h1 h2 h3 h4 =>
    obtain ⟨c, w', e, -⟩ := h1.first
    exact ⟨c, w', by rw [h1.text, e], fun d hd => solid_word h1 d (by rw [e]; exact List.mem_cons_of_mem _ hd),
      fun e' hl => by rw [← e]; exact .keyword _ _ _ _ (hl.word h1) h2 h3 h4⟩
  | ident s w r h1 h2 h3 h4 =>
    obtain ⟨c, w', e, -⟩ := h1.first
    exact ⟨c, w', by rw [h1.text, e], fun d hd => solid_word h1 d (by rw [e]; exact List.mem_cons_of_mem _ hd),
      fun e' hl => by rw [← e]; exact .ident _ _ _ (hl.word h1) h2 h3 h4⟩
  | num s t v r h1 =>
    obtain ⟨w, e, hne, hs, hl⟩ := solid_num h1
    cases w with
    | nil => exact absurd rfl hne
    | cons c w => exact ⟨c, w, e, fun d hd => hs d (List.mem_cons_of_mem _ hd), fun e' h => .num _ _ _ _ (hl e' h)⟩
  | char wide s vs r h1 h2 h3 => exact absurd (by cases wide <;> simp [prefixL]) hq.2
  | string wide s vs r h1 h2 => exact absurd (by cases wide <;> simp [prefixL]) hq.1

theorem defineBody_more (f : Nat) : ∀ (s : Str) (x : Str × Str) (g : Nat), defineBody f s = .ok x → f ≤ g → defineBody g s = .ok x := by
  induction f with
  | zero => intro s x g h; cases h
  | succ f ih =>
    intro s x g h hg
    obtain ⟨g, rfl⟩ : ∃ g', g = g' + 1 := ⟨g - 1, by omega⟩
    unfold defineBody at h ⊢
    dsimp only at h ⊢
    split at h
    · rename_i h1; rw [if_pos h1]; exact h
    · rename_i h1
      rw [if_neg h1]
      have mapc : ∀ (s : Str) (F : Str × Str → Str × Str), (defineBody f s).map F = .ok x → (defineBody g s).map F = .ok x := by
        intro s F hm
        cases hd : defineBody f s with
        | error e => rw [hd] at hm; cases hm
        | ok y => rw [ih s y g hd (by omega)]; rw [hd] at hm; exact hm
      split at h
      · rename_i h2
        rw [if_pos h2]
        split at h
        · cases h
        · exact mapc _ _ h
      · rename_i h2
        rw [if_neg h2]
        exact mapc _ _ h

theorem defineBody_fuel {s : Str} {k : Nat} {x : Str × Str} (h : defineBody (k + 1) s = .ok x) (f : Nat) (hf : k < f) : defineBody f s = .ok x :=
  defineBody_more _ _ _ _ h (by omega)

/-! ### bodies without quotes -/

theorem gap_stuck {full : Bool} {s r : Str} {k : Nat} (hs : Stuck s) (h : Gap full s k r) : r = s ∧ k = 0 := by
  cases h with
  | nil => exact ⟨rfl, rfl⟩
  | blank c s k r hc _ => exact absurd hc hs.blank
  | newline e s k r _ he _ =>
    exfalso
    rcases he with rfl | rfl | ⟨rfl, -⟩
    · exact hs.lf rfl
    · exact hs.cr rfl
    · exact hs.cr rfl
  | line b s k r _ _ _ _ _ => exact absurd rfl (hs.slash rfl).1
  | block b s k r _ _ _ => exact absurd rfl (hs.slash rfl).2

theorem stuck_nil : Stuck [] := ⟨by decide, by decide, by decide, by decide⟩

theorem lexes_blank {T : Cfg} {num : Str → Number.Tok → Nat → Str → Prop} {full : Bool} {c : UInt8} {s : Str} {n : Nat} {ts : List (Token × Nat)}
    (hc : c ∈ blanks) (h : Lexes T num full s n ts) : Lexes T num full (c :: s) n ts := by
  cases h with
  | done _ _ k _ hg => exact .done _ _ k _ (.blank _ _ _ _ hc hg)
  | token _ _ k s' _ t r ts hg h1 h2 => exact .token _ _ k _ _ _ _ _ (.blank _ _ _ _ hc hg) h1 h2
  | drop _ _ k s' _ w r ts hg h1 h2 h3 h4 => exact .drop _ _ k _ _ _ _ _ (.blank _ _ _ _ hc hg) h1 h2 h3 h4
  | «macro» _ _ k s' _ w e r ts ts' hg h1 h2 h3 h4 h5 => exact .macro _ _ k _ _ _ _ _ _ _ (.blank _ _ _ _ hc hg) h1 h2 h3 h4 h5

theorem word_stuck {s w r : Str} (h : Word s w r) : Stuck s := by
  have key : ∀ c ∈ letters, c ∉ blanks ∧ c ≠ cr ∧ c ≠ lf ∧ c ≠ 0x2F := by decide +kernel
  obtain ⟨a, b, c, d⟩ := key _ h.peek
  exact ⟨a, b, c, fun e => absurd e d⟩

theorem lexes_gap {T : Cfg} (hW : T.W = 2 ∨ T.W = 4) (hw : T.wcs = 2 ∨ T.wcs = 4) {s : Str} {n : Nat} {ts : List (Token × Nat)}
    (h : Lexes T (Num T) true s n ts) : ∃ k s', Gap true s k s' ∧ Stuck s' ∧ Lexes T (Num T) true s' (n + k) ts := by
  cases h with
  | done _ _ k _ hg => exact ⟨k, [], hg, stuck_nil, .done _ _ 0 _ (.nil _)⟩
  | token _ _ k s' _ t r ts hg h1 h2 =>
    exact ⟨k, s', hg, (lexeme_step T hW hw (num_ok T hW) h1 0 0).1, .token true s' 0 s' (n + k) t r ts (.nil _) h1 h2⟩
  | drop _ _ k s' _ w r ts hg h1 h2 h3 h4 => exact ⟨k, s', hg, word_stuck h1, .drop true s' 0 s' (n + k) w r ts (.nil _) h1 h2 h3 h4⟩
  | «macro» _ _ k s' _ w e r ts ts' hg h1 h2 h3 h4 h5 =>
    exact ⟨k, s', hg, word_stuck h1, .macro true s' 0 s' (n + k) w e r ts ts' (.nil _) h1 h2 h3 h4 h5⟩

theorem gap_blank_inv {c : UInt8} {s s' : Str} {k : Nat} (hc : c ∈ blanks) (hst : Stuck s') (h : Gap true (c :: s) k s') : Gap true s k s' := by
  generalize hq : c :: s = q at h
  have hne : c ≠ 0x2F ∧ c ≠ lf ∧ c ≠ cr := by
    have key : ∀ c ∈ blanks, c ≠ 0x2F ∧ c ≠ lf ∧ c ≠ cr := by decide
    exact key c hc
  cases h with
  | nil =>
    rw [← hq] at hst
    exact absurd hc hst.blank
  | blank d q k r hd hg =>
    injection hq with e1 e2
    rw [e2]; exact hg
  | newline e q k r _ he _ =>
    exfalso
    rcases he with rfl | rfl | ⟨rfl, -⟩
    · injection hq with e1; exact hne.2.1 e1
    · injection hq with e1; exact hne.2.2 e1
    · injection hq with e1; exact hne.2.2 e1
  | line b q k r _ _ _ _ _ =>
    rw [str_line] at hq
    injection hq with e1
    exact absurd e1 hne.1
  | block b q k r _ _ _ =>
    rw [str_open] at hq
    injection hq with e1
    exact absurd e1 hne.1

theorem lexes_blank_inv {T : Cfg} (hW : T.W = 2 ∨ T.W = 4) (hw : T.wcs = 2 ∨ T.wcs = 4) {c : UInt8} {s : Str} {n : Nat} {ts : List (Token × Nat)}
    (hc : c ∈ blanks) (h : Lexes T (Num T) true (c :: s) n ts) : Lexes T (Num T) true s n ts := by
  cases h with
  | done _ _ k _ hg => exact .done _ _ k _ (gap_blank_inv hc stuck_nil hg)
  | token _ _ k s' _ t r ts hg h1 h2 =>
    exact .token _ _ k _ _ _ _ _ (gap_blank_inv hc (lexeme_step T hW hw (num_ok T hW) h1 0 0).1 hg) h1 h2
  | drop _ _ k s' _ w r ts hg h1 h2 h3 h4 => exact .drop _ _ k _ _ _ _ _ (gap_blank_inv hc (word_stuck h1) hg) h1 h2 h3 h4
  | «macro» _ _ k s' _ w e r ts ts' hg h1 h2 h3 h4 h5 => exact .macro _ _ k _ _ _ _ _ _ _ (gap_blank_inv hc (word_stuck h1) hg) h1 h2 h3 h4 h5

theorem stuck_or {s z : Str} (hi : InLine s) (ht : ¬ Trig (s ++ z)) : Stuck s ∨ ∃ c s', s = c :: s' ∧ c ∈ blanks := by
  cases s with
  | nil => exact Or.inl stuck_nil
  | cons c s =>
    by_cases hc : c ∈ blanks
    · exact Or.inr ⟨c, s, rfl, hc⟩
    · refine Or.inl ⟨hc, fun h => ?_, fun h => ?_, fun h => ?_⟩
      · exact hi.cr (List.mem_cons.2 (Or.inl (Eq.symm h)))
      · exact hi.lf (List.mem_cons.2 (Or.inl (Eq.symm h)))
      · have hc : c = 0x2F := h
        have key : peek s = 0x2F ∨ peek s = 0x2A → False := by
          intro hp
          refine ht ⟨?_, Or.inr ⟨h, ?_⟩⟩
          · show c ≠ 0
            rw [hc]; decide
          · cases s with
            | nil => exact absurd hp (by decide)
            | cons d s => exact hp
        exact ⟨fun e => key (Or.inl e), fun e => key (Or.inr e)⟩

theorem NoQuotes.right {u s : Str} (h : NoQuotes (u ++ s)) : NoQuotes s :=
  ⟨fun h' => h.dq (List.mem_append_right _ h'), fun h' => h.sq (List.mem_append_right _ h')⟩

theorem map_ok {α β : Type} {x : Except Err α} {f : α → β} {y : α} (h : x = .ok y) : x.map f = .ok (f y) := by rw [h]; rfl

theorem body_main (T : Cfg) (hW : T.W = 2 ∨ T.W = 4) (hw : T.wcs = 2 ∨ T.wcs = 4) (z : Str) (hz : Eol z) (N : Nat) :
    ∀ (s : Str) (n : Nat) (ts : List (Token × Nat)), s.length = N → InLine s → NoQuotes s → Lexes T (Num T) true s n ts →
      (Stuck s → ∀ f, s.length < f → ∃ e, defineBody f (s ++ z) = .ok (e, z) ∧ Lexes T (Num T) false e n ts ∧ Like s e) ∧
      (∀ f, s.length < f → ∃ e, after f (s ++ z) = .ok (e, z) ∧ Lexes T (Num T) false e n ts ∧ Like s e) := by
  induction N using Nat.strongRecOn with
  | ind N ih =>
    have part : ∀ (s : Str) (n : Nat) (ts : List (Token × Nat)), s.length ≤ N → InLine s → NoQuotes s → Lexes T (Num T) true s n ts →
        Stuck s → ∀ f, s.length < f → ∃ e, defineBody f (s ++ z) = .ok (e, z) ∧ Lexes T (Num T) false e n ts ∧ Like s e := by
      intro s n ts hN hi hq h hst f hf
      have hword : ∀ w r n' ts', Word s w r → Lexes T (Num T) true r n' ts' → ∃ e, defineBody f (s ++ z) = .ok (w ++ e, z) ∧
          Lexes T (Num T) false e n' ts' ∧ Word (w ++ e) w e ∧ Like s (w ++ e) := by
        intro w r n' ts' h1 h2
        obtain ⟨c, w', hw', -⟩ := h1.first
        have hsol := solid_word h1
        have htx := h1.text
        subst hw'
        subst htx
        simp only [List.length_append, List.length_cons] at hN hf
        obtain ⟨f, rfl⟩ : ∃ g, f = g + w'.length + 1 := ⟨f - w'.length - 1, by omega⟩
        obtain ⟨e, i1, i2, i3⟩ := (ih r.length (by omega) r n' ts' rfl hi.right hq.right h2).2 f (by omega)
        refine ⟨e, ?_, i2, i3.word h1, i3.append _⟩
        rw [List.append_assoc, List.cons_append, defineBody_token w' f c (r ++ z) hi.left (fun d hd => hsol d (List.mem_cons_of_mem _ hd)), map_ok i1]
        rfl
      cases h with
      | done _ _ k _ hg =>
        obtain ⟨rfl, -⟩ := gap_stuck hst hg
        obtain ⟨f, rfl⟩ : ∃ g, f = g + 1 := ⟨f - 1, by omega⟩
        exact ⟨[], defineBody_eol f z hz, .done _ _ 0 _ (.nil _), .nil⟩
      | token _ _ k s' _ t r ts hg h1 h2 =>
        obtain ⟨rfl, rfl⟩ := gap_stuck hst hg
        obtain ⟨c, w, rfl, hsol, hlike⟩ := lexeme_text h1 ⟨hq.dq, hq.sq⟩
        simp only [List.length_append, List.length_cons] at hN hf
        obtain ⟨f, rfl⟩ : ∃ g, f = g + w.length + 1 := ⟨f - w.length - 1, by omega⟩
        obtain ⟨e, i1, i2, i3⟩ := (ih r.length (by omega) r _ ts rfl hi.right hq.right h2).2 f (by omega)
        refine ⟨c :: w ++ e, ?_, .token _ _ 0 _ _ _ _ _ (.nil _) (hlike e i3) i2, i3.append _⟩
        rw [List.append_assoc, List.cons_append, defineBody_token w f c (r ++ z) hi.left hsol, map_ok i1]
        rfl
      | drop _ _ k s' _ w r ts hg h1 h2 h3 h4 =>
        obtain ⟨rfl, rfl⟩ := gap_stuck hst hg
        obtain ⟨e, i1, i2, i3, i4⟩ := hword _ _ _ _ h1 h4
        exact ⟨w ++ e, i1, .drop _ _ 0 _ _ _ _ _ (.nil _) i3 h2 h3 i2, i4⟩
      | «macro» _ _ k s' _ w e' r ts ts' hg h1 h2 h3 h4 h5 =>
        obtain ⟨rfl, rfl⟩ := gap_stuck hst hg
        obtain ⟨e, i1, i2, i3, i4⟩ := hword _ _ _ _ h1 h5
        exact ⟨w ++ e, i1, .macro _ _ 0 _ _ _ _ _ _ _ (.nil _) i3 h2 h3 h4 i2, i4⟩
    intro s n ts hN hi hq h
    refine ⟨part s n ts (by omega) hi hq h, ?_⟩
    intro f hf
    obtain ⟨k, s', hg, hst, hl⟩ := lexes_gap hW hw h
    obtain ⟨hk, hi', hsk⟩ := skipF_gap hg z hz hi
    obtain ⟨g, hsuf⟩ := gap_suffix hg
    by_cases ht : Trig (s ++ z)
    · have hq' : NoQuotes s' := by rw [hsuf] at hq; exact hq.right
      have hlen : s'.length ≤ s.length := by rw [hsuf, List.length_append]; omega
      subst hk
      obtain ⟨e, i1, i2, -⟩ := part s' n ts (by omega) hi' hq' hl hst f (by omega)
      refine ⟨0x20 :: e, ?_, lexes_blank (by decide) i2, .space _ _⟩
      unfold after
      rw [if_pos ht, hsk, skipF_stuck hst hi' hz]
      dsimp only
      rw [map_ok i1]
    · rcases stuck_or hi ht with hst' | ⟨c, s1, rfl, hc⟩
      · obtain ⟨e, i1, i2, i3⟩ := part s n ts (by omega) hi hq h hst' f hf
        refine ⟨e, ?_, i2, i3⟩
        unfold after
        rw [if_neg ht, i1]
      · have hl1 : Lexes T (Num T) true s1 n ts := lexes_blank_inv hW hw hc h
        simp only [List.length_cons] at hN hf
        obtain ⟨f, rfl⟩ : ∃ g, f = g + 1 := ⟨f - 1, by omega⟩
        obtain ⟨e, i1, i2, i3⟩ := (ih s1.length (by omega) s1 n ts rfl hi.tail (hq.right (u := [c])) hl1).2 f (by omega)
        refine ⟨c :: e, ?_, lexes_blank hc i2, i3.append [c]⟩
        unfold after
        rw [if_neg ht, List.cons_append, defineBody_cons f c _ (eol_in hi), map_ok i1]

/-! ### bodies that are stored as they are -/

theorem infix_right {p u s : Str} (h : p <:+: s) : p <:+: u ++ s := by
  obtain ⟨a, b, rfl⟩ := h
  exact ⟨u ++ a, b, by simp⟩

theorem Tidy.right {u s : Str} (h : Tidy (u ++ s)) : Tidy s :=
  ⟨fun h' => h.tab (List.mem_append_right _ h'), fun c hc h' => h.single c hc (infix_right h'), fun h' => h.line (infix_right h'),
    fun h' => h.block (infix_right h')⟩

theorem tidy_body (z : Str) (hz : Eol z) (b : Str) : ∀ f, b.length < f → InLine b → Tidy b → defineBody f (b ++ z) = .ok (b, z) := by
  induction hl : b.length using Nat.strongRecOn generalizing b with
  | ind k ih =>
    intro f hf hi ht
    obtain ⟨f, rfl⟩ : ∃ g, f = g + 1 := ⟨f - 1, by omega⟩
    cases b with
    | nil => exact defineBody_eol f z hz
    | cons c b =>
      simp only [List.length_cons] at hl
      rw [List.cons_append, defineBody_cons f c _ (eol_in hi)]
      have ht1 : Tidy b := Tidy.right (u := [c]) ht
      have slash : ∀ s : Str, Tidy s → peek s = 0x2F → peek s.tail ≠ 0x2F ∧ peek s.tail ≠ 0x2A := by
        intro s hs h1
        cases s with
        | nil => exact absurd h1 (by decide)
        | cons d s =>
          have h1 : d = 0x2F := h1
          subst h1
          cases s with
          | nil => exact ⟨by decide, by decide⟩
          | cons e s =>
            refine ⟨?_, ?_⟩
            · intro h2
              have h2 : e = 0x2F := h2
              subst h2
              exact hs.line ⟨[], s, rfl⟩
            · intro h2
              have h2 : e = 0x2A := h2
              subst h2
              exact hs.block ⟨[], s, rfl⟩
      by_cases hs : peek b = 0x20
      · cases b with
        | nil => exact absurd hs (by decide)
        | cons d b =>
          have hs : d = 0x20 := hs
          subst hs
          have ht2 : Tidy b := Tidy.right (u := [0x20]) ht1
          have hi2 := hi.tail.tail
          have hst : Stuck b := by
            refine ⟨?_, ?_, ?_, slash b ht2⟩
            · intro hb
              cases b with
              | nil => exact absurd hb (by decide)
              | cons e b => exact ht1.single e hb ⟨[], b, rfl⟩
            · intro hb
              cases b with
              | nil => exact absurd hb (by decide)
              | cons e b => exact hi2.cr (List.mem_cons.2 (Or.inl (Eq.symm hb)))
            · intro hb
              cases b with
              | nil => exact absurd hb (by decide)
              | cons e b => exact hi2.lf (List.mem_cons.2 (Or.inl (Eq.symm hb)))
          simp only [List.length_cons] at hl
          have hsk : skipF (0x20 :: b ++ z) = .ok (b ++ z, 0) := by
            rw [List.cons_append, skipF_cons, if_neg (by decide), if_pos (by decide), skipF_stuck hst hi2 hz]
          have htr : Trig (0x20 :: b ++ z) := ⟨show (0x20 : UInt8) ≠ 0 by decide, Or.inl (Or.inl rfl)⟩
          have : after f (0x20 :: b ++ z) = .ok (0x20 :: b, z) := by
            unfold after
            rw [if_pos htr, hsk]
            dsimp only
            rw [map_ok (ih b.length (by omega) b rfl f (by omega) hi2 ht2)]
          rw [map_ok this]
      · have hn : ¬ Trig (b ++ z) := by
          cases b with
          | nil => exact eol_trig hz
          | cons d b =>
            rintro ⟨-, (h | h) | ⟨h, h'⟩⟩
            · exact hs h
            · exact ht1.tab (List.mem_cons.2 (Or.inl (Eq.symm h)))
            · have h2 := slash _ ht1 h
              have key : peek (b ++ z) = peek b ∨ peek (b ++ z) = 0 ∨ peek (b ++ z) = lf ∨ peek (b ++ z) = cr := by
                cases b with
                | cons => exact Or.inl rfl
                | nil =>
                  cases z with
                  | nil => exact Or.inl rfl
                  | cons e z => exact Or.inr (Or.inr (hz e rfl))
              have h' : peek (b ++ z) = 0x2F ∨ peek (b ++ z) = 0x2A := h'
              rcases key with e | e | e | e
              · rw [e] at h'
                rcases h' with h' | h'
                · exact h2.1 h'
                · exact h2.2 h'
              all_goals (rw [e] at h'; revert h'; decide)
        have : after f (b ++ z) = .ok (b, z) := by
          unfold after
          rw [if_neg hn, ih b.length (by omega) b rfl f (by omega) hi.tail ht1]
        rw [map_ok this]

theorem gap_tidy {s r : Str} {k : Nat} {full : Bool} (h : Gap full s k r) : InLine s → Tidy s → k = 0 ∧ Gap false s 0 r := by
  induction h with
  | nil r => intro _ _; exact ⟨rfl, .nil _⟩
  | blank c s k r hc _ ih =>
    intro hi ht
    obtain ⟨h1, h2⟩ := ih hi.tail (Tidy.right (u := [c]) ht)
    exact ⟨h1, .blank _ _ _ _ hc h2⟩
  | newline e s k r _ he _ ih =>
    intro hi _
    exfalso
    rcases he with rfl | rfl | ⟨rfl, -⟩
    · exact hi.lf (by simp)
    · exact hi.lf (by simp)
    · exact hi.cr (by simp)
  | line b s k r _ _ _ _ _ ih => intro _ ht; exact absurd ⟨[], b ++ s, by simp⟩ ht.line
  | block b s k r _ _ _ ih => intro _ ht; exact absurd ⟨[], b ++ str "*/" ++ s, by simp⟩ ht.block

theorem lexes_tidy {T : Cfg} {full : Bool} {s : Str} {n : Nat} {ts : List (Token × Nat)} (h : Lexes T (Num T) full s n ts) :
    full = true → InLine s → Tidy s → Lexes T (Num T) false s n ts := by
  induction h with
  | done full s k n hg =>
    intro _ hi ht
    exact .done _ _ 0 _ (gap_tidy hg hi ht).2
  | token full s k s' n t r ts hg h1 h2 ih =>
    intro hf hi ht
    obtain ⟨rfl, hg'⟩ := gap_tidy hg hi ht
    obtain ⟨g, rfl⟩ := gap_suffix hg
    obtain ⟨w, rfl⟩ := h1.suffix (num_suffix T)
    exact .token _ _ 0 _ _ _ _ _ hg' h1 (ih hf hi.right.right ht.right.right)
  | drop full s k s' n w r ts hg h1 h2 h3 h4 ih =>
    intro hf hi ht
    obtain ⟨rfl, hg'⟩ := gap_tidy hg hi ht
    obtain ⟨g, rfl⟩ := gap_suffix hg
    have := h1.text
    subst this
    exact .drop _ _ 0 _ _ _ _ _ hg' h1 h2 h3 (ih hf hi.right.right ht.right.right)
  | «macro» full s k s' n w e r ts ts' hg h1 h2 h3 h4 h5 _ ih =>
    intro hf hi ht
    obtain ⟨rfl, hg'⟩ := gap_tidy hg hi ht
    obtain ⟨g, rfl⟩ := gap_suffix hg
    have := h1.text
    subst this
    exact .macro _ _ 0 _ _ _ _ _ _ _ hg' h1 h2 h3 h4 (ih hf hi.right.right ht.right.right)

end Smlr.Lex
