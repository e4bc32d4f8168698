import Verif.Macro.Spec
set_option autoImplicit false
namespace Smlr.Macro

abbrev Ent := Str × Str

/-- bytes of an entry -/
def enc1 (e : Ent) : Str := UInt8.ofNat (e.1.length + 1) :: (e.1 ++ 0 :: UInt8.ofNat e.2.length :: e.2)

def enc : List Ent → Str
  | [] => []
  | e :: es => enc1 e ++ enc es

def EntOk (e : Ent) : Prop := NoNul e.1 ∧ e.1.length ≤ 126 ∧ e.2.length ≤ 127

/-- the table holds the entries `es` -/
structure Holds (t : Tab) (es : List Ent) : Prop where
  cap : t.mem.length = maxLen
  len : t.len = (enc es).length
  pre : ∃ junk, t.mem = enc es ++ junk
  ok : ∀ e ∈ es, EntOk e

theorem enc_append (a b : List Ent) : enc (a ++ b) = enc a ++ enc b := by
  induction a with
  | nil => rfl
  | cons e a ih => simp [enc, ih]

theorem enc1_len (e : Ent) : (enc1 e).length = size e.1 e.2 := by
  simp [enc1, size]; omega

theorem rd_at (t : Tab) (a : Str) (x : UInt8) (b : Str) (h : t.mem = a ++ x :: b) (i : Nat) (hi : i = a.length) : rd t i = .ok x := by
  unfold rd; rw [h, hi]; simp

theorem strEq_ok (t : Tab) (a s b : Str) (h : t.mem = a ++ (s ++ 0 :: b)) (i : Nat) (hi : i = a.length) (hs : NoNul s) (name : Str) (hn : NoNul name) :
    strEq t i name = .ok (decide (s = name)) := by
  induction name generalizing a s i with
  | nil =>
    cases s with
    | nil =>
      unfold strEq
      rw [rd_at t a 0 b (by simpa using h) i hi]
      simp
    | cons c s =>
      unfold strEq
      rw [rd_at t a c (s ++ 0 :: b) (by simpa using h) i hi]
      have := hs c (by simp)
      simp [this]
  | cons x xs ih =>
    have hx := hn x (by simp)
    cases s with
    | nil =>
      unfold strEq
      rw [rd_at t a 0 b (by simpa using h) i hi]
      simp only
      rw [if_neg (by exact fun h => hx h.symm)]
      simp
    | cons c s =>
      unfold strEq
      rw [rd_at t a c (s ++ 0 :: b) (by simpa using h) i hi]
      simp only
      by_cases hc : c = x
      · rw [if_pos hc, ih (a ++ [c]) s (by rw [h]; simp) (i + 1) (by simp [hi]) (fun d hd => hs d (by simp [hd])) (fun d hd => hn d (by simp [hd]))]
        subst hc
        simp
      · rw [if_neg hc]; simp [hc]

theorem ofNat_toNat (n : Nat) (h : n ≤ 127) : (UInt8.ofNat n).toNat = n := by
  rw [UInt8.toNat_ofNat']; exact Nat.mod_eq_of_lt (by omega)

/-- reading an entry -/
theorem entry (t : Tab) (p q : Str) (e : Ent) (he : EntOk e) (h : t.mem = p ++ (enc1 e ++ q)) (name : Str) (hn : NoNul name) :
    strEq t (p.length + 1) name = .ok (decide (e.1 = name)) ∧
    rd t p.length = .ok (UInt8.ofNat (e.1.length + 1)) ∧
    rd t (p.length + 1 + (e.1.length + 1)) = .ok (UInt8.ofNat e.2.length) ∧
    t.mem = (p ++ UInt8.ofNat (e.1.length + 1) :: (e.1 ++ 0 :: [UInt8.ofNat e.2.length])) ++ (e.2 ++ q) := by
  refine ⟨?_, ?_, ?_, ?_⟩
  · exact strEq_ok t (p ++ [UInt8.ofNat (e.1.length + 1)]) e.1 (UInt8.ofNat e.2.length :: (e.2 ++ q)) (by rw [h]; simp [enc1]) _ (by simp) he.1 name hn
  · exact rd_at t p _ (e.1 ++ 0 :: UInt8.ofNat e.2.length :: (e.2 ++ q)) (by rw [h]; simp [enc1]) _ rfl
  · exact rd_at t (p ++ UInt8.ofNat (e.1.length + 1) :: (e.1 ++ [0])) _ (e.2 ++ q) (by rw [h]; simp [enc1]) _ (by simp; omega)
  · rw [h]; simp [enc1]

/-- index of the length byte of the body of the first entry for `name` -/
def indexOf (name : Str) : List Ent → Nat → Option Nat
  | [], _ => none
  | e :: es, i => if e.1 = name then some (i + 1 + (e.1.length + 1)) else indexOf name es (i + size e.1 e.2)

theorem find_ok (t : Tab) (es : List Ent) (hok : ∀ e ∈ es, EntOk e) (name : Str) (hn : NoNul name) : ∀ (p q : Str), t.mem = p ++ (enc es ++ q) → t.len = p.length + (enc es).length →
    find t name p.length = .ok (indexOf name es p.length) := by
  induction es with
  | nil =>
    intro p q _ hl
    unfold find
    rw [if_neg (by rw [hl]; simp [enc])]
    rfl
  | cons e es ih =>
    intro p q h hl
    have heok := hok e (by simp)
    simp only [enc] at h hl
    obtain ⟨h1, h2, h3, h4⟩ := entry t p (enc es ++ q) e heok (by rw [h]; simp) name hn
    have hsz := enc1_len e
    unfold size at hsz
    rw [List.length_append] at hl
    unfold find
    rw [if_pos (by omega), h1]
    simp only
    rw [h2]
    simp only
    rw [ofNat_toNat _ (by have := heok.2.1; omega), h3]
    simp only [indexOf, decide_eq_true_eq]
    by_cases hc : e.1 = name
    · rw [if_pos hc, if_pos hc]
    · rw [if_neg hc, if_neg hc, ofNat_toNat _ heok.2.2]
      have := ih (fun x hx => hok x (by simp [hx])) (p ++ enc1 e) q (by rw [h]; simp) (by rw [List.length_append]; omega)
      rw [List.length_append, enc1_len] at this
      rw [← this]
      unfold size
      congr 1
      omega

def lookup (name : Str) : List Ent → Option Str
  | [] => none
  | e :: es => if e.1 = name then some e.2 else lookup name es

theorem rds_ok (t : Tab) (s : Str) : ∀ (p q : Str), t.mem = p ++ (s ++ q) → rds t p.length s.length = .ok s := by
  induction s with
  | nil => intro p q _; rfl
  | cons c s ih =>
    intro p q h
    rw [List.length_cons]
    unfold rds
    rw [rd_at t p c (s ++ q) (by simpa using h) _ rfl]
    simp only
    have := ih (p ++ [c]) q (by rw [h]; simp)
    rw [List.length_append] at this
    rw [show p.length + 1 = p.length + [c].length by rfl, this]

theorem expand_at (t : Tab) (es : List Ent) (hok : ∀ e ∈ es, EntOk e) (name : Str) : ∀ (p q : Str), t.mem = p ++ (enc es ++ q) →
    (lookup name es = none ↔ indexOf name es p.length = none) ∧
    ∀ i, indexOf name es p.length = some i → ∃ s, lookup name es = some s ∧ rd t i = .ok (UInt8.ofNat s.length) ∧ s.length ≤ 127 ∧ rds t (i + 1) s.length = .ok s := by
  induction es with
  | nil => intro p q _; simp [lookup, indexOf]
  | cons e es ih =>
    intro p q h
    simp only [enc] at h
    have heok := hok e (by simp)
    simp only [lookup, indexOf]
    by_cases hc : e.1 = name
    · obtain ⟨_, _, h3, h4⟩ := entry t p (enc es ++ q) e heok (by rw [h]; simp) [] (by intro c hc; simp at hc)
      rw [if_pos hc, if_pos hc]
      refine ⟨by simp, ?_⟩
      intro i hi
      cases hi
      refine ⟨e.2, rfl, h3, heok.2.2, ?_⟩
      have := rds_ok t e.2 _ _ h4
      rw [← this]
      congr 1
      simp; omega
    · rw [if_neg hc, if_neg hc]
      have := ih (fun x hx => hok x (by simp [hx])) (p ++ enc1 e) q (by rw [h]; simp)
      rw [List.length_append, enc1_len] at this
      exact this

theorem expand_ok (t : Tab) (es : List Ent) (h : Holds t es) (name : Str) (hn : NoNul name) : expand t name = .ok (lookup name es) := by
  obtain ⟨junk, hj⟩ := h.pre
  have h1 := find_ok t es h.ok name hn [] junk (by simpa using hj) (by simpa using h.len)
  obtain ⟨h2, h3⟩ := expand_at t es h.ok name [] junk (by simpa using hj)
  rw [List.length_nil] at h1 h2 h3
  unfold expand
  rw [h1]
  cases hi : indexOf name es 0 with
  | none => rw [h2.2 hi]
  | some i =>
    obtain ⟨s, e1, e2, e3, e4⟩ := h3 i hi
    simp only
    rw [e2]
    simp only
    rw [ofNat_toNat _ e3, e4, e1]

theorem find_iff (t : Tab) (es : List Ent) (h : Holds t es) (name : Str) (hn : NoNul name) :
    (lookup name es = none → find t name 0 = .ok none) ∧ (lookup name es ≠ none → ∃ i, find t name 0 = .ok (some i)) := by
  obtain ⟨junk, hj⟩ := h.pre
  have h1 := find_ok t es h.ok name hn [] junk (by simpa using hj) (by simpa using h.len)
  obtain ⟨h2, h3⟩ := expand_at t es h.ok name [] junk (by simpa using hj)
  rw [List.length_nil] at h1 h2 h3
  refine ⟨fun hl => ?_, fun hl => ?_⟩
  · rw [h1, h2.1 hl]
  · cases hi : indexOf name es 0 with
    | none => exact absurd (h2.2 hi) hl
    | some i => exact ⟨i, by rw [h1, hi]⟩

/-! ### removing -/

def remove (name : Str) : List Ent → List Ent
  | [] => []
  | e :: es => if e.1 = name then es else e :: remove name es

theorem move_ok (t : Tab) (p a q j : Str) (h : t.mem = p ++ (a ++ (q ++ j))) :
    ∃ j', move t p.length (p.length + a.length) q.length = .ok { t with mem := p ++ (q ++ j') } ∧ (p ++ (q ++ j')).length = t.mem.length := by
  unfold move
  have hl : t.mem.length = p.length + a.length + q.length + j.length := by rw [h]; simp; omega
  rw [if_pos (by omega)]
  refine ⟨t.mem.drop (p.length + q.length), ?_, ?_⟩
  · have h1 : t.mem.take p.length = p := by rw [h]; simp
    have h2 : (t.mem.drop (p.length + a.length)).take q.length = q := by
      rw [h, ← List.append_assoc, ← List.length_append, List.drop_left]; simp
    rw [h1, h2, List.append_assoc]
  · simp; omega

theorem undefine_ok (t : Tab) (es : List Ent) (hok : ∀ e ∈ es, EntOk e) (name : Str) (hn : NoNul name) : ∀ (p q : Str), t.mem = p ++ (enc es ++ q) → t.len = p.length + (enc es).length →
    ∃ t' q', undefine t name p.length = .ok t' ∧ t'.mem = p ++ (enc (remove name es) ++ q') ∧ t'.len = p.length + (enc (remove name es)).length ∧ t'.mem.length = t.mem.length := by
  induction es with
  | nil =>
    intro p q h hl
    unfold undefine
    rw [if_neg (by rw [hl]; simp [enc])]
    exact ⟨t, q, rfl, h, hl, rfl⟩
  | cons e es ih =>
    intro p q h hl
    have heok := hok e (by simp)
    simp only [enc] at h hl
    obtain ⟨h1, h2, h3, h4⟩ := entry t p (enc es ++ q) e heok (by rw [h]; simp) name hn
    have hsz := enc1_len e
    unfold size at hsz
    rw [List.length_append] at hl
    unfold undefine
    rw [if_pos (by omega), h1]
    simp only
    rw [h2]
    simp only
    rw [ofNat_toNat _ (by have := heok.2.1; omega), show p.length + (1 + (e.1.length + 1)) = p.length + 1 + (e.1.length + 1) by omega, h3]
    simp only [remove, decide_eq_true_eq]
    rw [ofNat_toNat _ heok.2.2]
    by_cases hc : e.1 = name
    · rw [if_pos hc, if_pos hc]
      obtain ⟨j', g1, g2⟩ := move_ok t p (enc1 e) (enc es) q (by rw [h]; simp)
      have e1 : 1 + (e.1.length + 1) + 1 + e.2.length = (enc1 e).length := by omega
      have e2 : t.len - p.length - (1 + (e.1.length + 1) + 1 + e.2.length) = (enc es).length := by omega
      rw [e2, e1, g1]
      simp only
      refine ⟨_, j', rfl, rfl, ?_, g2⟩
      simp only
      omega
    · rw [if_neg hc, if_neg hc]
      obtain ⟨t', q', g1, g2, g3, g4⟩ := ih (fun x hx => hok x (by simp [hx])) (p ++ enc1 e) q (by rw [h]; simp) (by rw [List.length_append]; omega)
      refine ⟨t', q', ?_, by rw [g2]; simp [enc], ?_, g4⟩
      · rw [← g1]
        congr 1
        rw [List.length_append]; omega
      · rw [g3]; simp [enc]; omega

theorem remove_mem (name : Str) (es : List Ent) : ∀ e ∈ remove name es, e ∈ es := by
  induction es with
  | nil => simp [remove]
  | cons x es ih =>
    intro e he
    simp only [remove] at he
    split at he
    · simp [he]
    · rcases List.mem_cons.1 he with rfl | he
      · simp
      · simp [ih e he]

theorem undef_holds (t : Tab) (es : List Ent) (h : Holds t es) (name : Str) (hn : NoNul name) :
    ∃ t', undefine t name 0 = .ok t' ∧ Holds t' (remove name es) := by
  obtain ⟨junk, hj⟩ := h.pre
  obtain ⟨t', q', g1, g2, g3, g4⟩ := undefine_ok t es h.ok name hn [] junk (by simpa using hj) (by simpa using h.len)
  refine ⟨t', g1, ⟨by rw [g4, h.cap], by simpa using g3, ⟨q', by simpa using g2⟩, fun e he => h.ok e (remove_mem name es e he)⟩⟩

/-! ### adding -/

theorem wr_at (t : Tab) (a : Str) (x : UInt8) (b : Str) (h : t.mem = a ++ x :: b) (i : Nat) (hi : i = a.length) (v : UInt8) :
    wr t i v = .ok { t with mem := a ++ v :: b } := by
  unfold wr
  rw [if_pos (by rw [h, hi]; simp), h, hi]
  simp

theorem wrs_at (s : Str) : ∀ (t : Tab) (a x b : Str), t.mem = a ++ (x ++ b) → x.length = s.length → wrs t a.length s = .ok { t with mem := a ++ (s ++ b) } := by
  induction s with
  | nil =>
    intro t a x b h hl
    have : x = [] := by simpa using hl
    subst this
    simp only [wrs]
    rw [← h]
  | cons c s ih =>
    intro t a x b h hl
    cases x with
    | nil => simp at hl
    | cons y x =>
      simp only [wrs]
      rw [wr_at t a y (x ++ b) (by simpa using h) _ rfl c]
      simp only
      have := ih { t with mem := a ++ c :: (x ++ b) } (a ++ [c]) x b (by simp) (by simpa using hl)
      rw [List.length_append] at this
      rw [show a.length + 1 = a.length + [c].length by rfl, this]
      simp

/-- an entry being built: `MacroTableLen` points at the length of the body so far -/
structure Open (t : Tab) (es : List Ent) (name body : Str) : Prop where
  cap : t.mem.length = maxLen
  pre : ∃ junk, t.mem = enc es ++ (UInt8.ofNat (name.length + 1) :: (name ++ [0])) ++ UInt8.ofNat body.length :: (body ++ junk)
  len : t.len = (enc es).length + (name.length + 2)

theorem split_at (l : Str) (n : Nat) (h : n ≤ l.length) : ∃ a b, l = a ++ b ∧ a.length = n :=
  ⟨l.take n, l.drop n, by simp, by simp; omega⟩

theorem addIdent_ok (t : Tab) (es : List Ent) (h : Holds t es) (name : Str) :
    (name.length ≤ 126 ∧ (enc es).length + name.length + 3 ≤ maxLen → ∃ t', addIdent t name = .ok t' ∧ Open t' es name []) ∧
    (¬ (name.length ≤ 126 ∧ (enc es).length + name.length + 3 ≤ maxLen) → ∃ e, addIdent t name = .error e ∧ (e = .nameTooLong ∨ e = .full)) := by
  obtain ⟨junk, hj⟩ := h.pre
  have hlen := h.len
  have hcap := h.cap
  unfold addIdent
  constructor
  · rintro ⟨h1, h2⟩
    simp only
    rw [if_neg (by omega), if_neg (by omega)]
    obtain ⟨a, b, hab, ha⟩ := split_at junk (name.length + 3) (by
      have := congrArg List.length hj
      rw [List.length_append] at this; omega)
    cases a with
    | nil => simp at ha
    | cons x a =>
      rw [hab] at hj
      rw [wr_at t (enc es) x (a ++ b) (by simpa using hj) _ hlen]
      simp only
      obtain ⟨a1, a2, e1, e2⟩ := split_at a (name.length + 1) (by simp only [List.length_cons] at ha; omega)
      have e3 : a2.length = 1 := by rw [e1] at ha; simp at ha; omega
      cases a2 with
      | nil => simp at e3
      | cons y a2 =>
        have : a2 = [] := by simpa using e3
        subst this
        subst e1
        have hw := wrs_at (name ++ [0]) { t with mem := enc es ++ UInt8.ofNat (name.length + 1) :: (a1 ++ [y] ++ b) }
          (enc es ++ [UInt8.ofNat (name.length + 1)]) a1 (y :: b) (by simp) (by simp [e2])
        have hl2 : t.len + 1 = (enc es ++ [UInt8.ofNat (name.length + 1)]).length := by rw [hlen]; simp
        rw [hl2, hw]
        simp only
        rw [wr_at _ (enc es ++ [UInt8.ofNat (name.length + 1)] ++ (name ++ [0])) y b (by simp) _ (by simp [hlen]; omega)]
        refine ⟨_, rfl, ⟨?_, ⟨b, by simp⟩, ?_⟩⟩
        · simp only
          rw [← hcap, hj]; simp [e2]; omega
        · simp only [hlen]; omega
  · intro hne
    simp only
    by_cases h1 : name.length ≥ 127
    · rw [if_pos h1]; exact ⟨_, rfl, Or.inl rfl⟩
    · rw [if_neg h1, if_pos (by omega)]; exact ⟨_, rfl, Or.inr rfl⟩

theorem addChar_ok (t : Tab) (es : List Ent) (name body : Str) (h : Open t es name body) (hb : body.length ≤ 127) (c : UInt8) :
    (body.length < 127 ∧ (enc es).length + size name body < maxLen → ∃ t', addChar t c = .ok t' ∧ Open t' es name (body ++ [c])) ∧
    (¬ (body.length < 127 ∧ (enc es).length + size name body < maxLen) → ∃ e, addChar t c = .error e ∧ (e = .bodyTooLong ∨ e = .full)) := by
  obtain ⟨junk, hj⟩ := h.pre
  have hlen := h.len
  have hcap := h.cap
  have hl : t.len = (enc es ++ (UInt8.ofNat (name.length + 1) :: (name ++ [0]))).length := by rw [hlen]; simp
  unfold addChar size
  rw [rd_at t _ _ _ hj _ hl]
  simp only
  rw [ofNat_toNat _ hb]
  constructor
  · rintro ⟨h1, h2⟩
    rw [if_neg (by omega), if_neg (by omega)]
    cases junk with
    | nil =>
      exfalso
      have := congrArg List.length hj
      simp at this; omega
    | cons x junk =>
      rw [wr_at t (enc es ++ (UInt8.ofNat (name.length + 1) :: (name ++ [0])) ++ UInt8.ofNat body.length :: body) x junk (by rw [hj]; simp) _
        (by rw [hl]; simp; omega) c]
      simp only
      rw [wr_at _ (enc es ++ (UInt8.ofNat (name.length + 1) :: (name ++ [0]))) (UInt8.ofNat body.length) (body ++ c :: junk) (by simp) _ hl]
      refine ⟨_, rfl, ⟨?_, ⟨junk, by simp⟩, hlen⟩⟩
      simp only
      rw [← hcap, hj]; simp
  · intro hne
    by_cases h1 : t.len + 1 + body.length ≥ maxLen
    · rw [if_pos h1]; exact ⟨_, rfl, Or.inr rfl⟩
    · rw [if_neg h1, if_pos (by omega)]; exact ⟨_, rfl, Or.inl rfl⟩

theorem strip_snoc (b : Str) (c : UInt8) : strip (b ++ [c]) = if c = 0x20 ∨ c = 9 then strip b else b ++ [c] := by
  unfold strip
  rw [List.reverse_append, List.reverse_singleton, List.singleton_append]
  by_cases h : c = 0x20 ∨ c = 9
  · rw [if_pos h, List.dropWhile_cons_of_pos (by simpa using h)]
  · rw [if_neg h, List.dropWhile_cons_of_neg (by simpa using h)]; simp

theorem strip_prefix (b : Str) : ∃ r, b = strip b ++ r := by
  refine ⟨(b.reverse.takeWhile (fun c => c = 0x20 || c = 9)).reverse, ?_⟩
  unfold strip
  rw [← List.reverse_append, List.takeWhile_append_dropWhile, List.reverse_reverse]

theorem trim_ok (t : Tab) (n : Nat) : ∀ (p body q : Str), t.mem = p ++ (body ++ q) → p.length = t.len + 1 → NoNul body → body.length = n →
    trim t n = .ok (strip body).length := by
  induction n with
  | zero =>
    intro p body q _ _ _ hb
    have : body = [] := by simpa using hb
    subst this; rfl
  | succ n ih =>
    intro p body q h hp hn hb
    obtain ⟨b, c, rfl⟩ : ∃ b c, body = b ++ [c] := by
      have : body ≠ [] := by intro h; rw [h] at hb; simp at hb
      exact ⟨_, _, (List.dropLast_concat_getLast this).symm⟩
    have hbl : b.length = n := by simpa using hb
    have hc0 := hn c (by simp)
    unfold trim
    rw [rd_at t (p ++ b) c q (by rw [h]; simp) _ (by simp; omega)]
    simp only
    rw [strip_snoc]
    by_cases hc : c = 0x20 ∨ c = 9
    · rw [if_pos hc, if_pos (by unfold blank; rcases hc with rfl | rfl <;> rfl)]
      exact ih p b (c :: q) (by rw [h]; simp) hp (fun d hd => hn d (by simp [hd])) hbl
    · rw [if_neg hc, if_neg (by unfold blank; simp only [not_or] at hc; simp [hc, hc0])]
      simp [hbl]

theorem finish_ok (t : Tab) (es : List Ent) (name body : Str) (h : Open t es name body) (hes : ∀ e ∈ es, EntOk e) (hnn : NoNul name) (hnl : name.length ≤ 126)
    (hb : body.length ≤ 127) (hbn : NoNul body) : ∃ t', finish t = .ok t' ∧ Holds t' (es ++ [(name, strip body)]) := by
  obtain ⟨junk, hj⟩ := h.pre
  have hlen := h.len
  have hcap := h.cap
  have hl : t.len = (enc es ++ (UInt8.ofNat (name.length + 1) :: (name ++ [0]))).length := by rw [hlen]; simp
  obtain ⟨r, hr⟩ := strip_prefix body
  have hsl : (strip body).length ≤ body.length := by
    have := congrArg List.length hr
    rw [List.length_append] at this; omega
  unfold finish
  rw [rd_at t _ _ _ hj _ hl]
  simp only
  rw [ofNat_toNat _ hb, trim_ok t body.length (enc es ++ (UInt8.ofNat (name.length + 1) :: (name ++ [0])) ++ [UInt8.ofNat body.length]) body junk
    (by rw [hj]; simp) (by rw [List.length_append, ← hl]; rfl) hbn rfl]
  simp only
  rw [wr_at t _ _ _ hj _ hl]
  refine ⟨_, rfl, ⟨?_, ?_, ⟨r ++ junk, ?_⟩, ?_⟩⟩
  · simp only
    rw [← hcap, hj]; simp
  · simp only
    rw [enc_append, hlen]
    simp [enc, enc1]; omega
  · simp only
    rw [enc_append]
    conv => lhs; rw [show body ++ junk = strip body ++ (r ++ junk) by rw [← List.append_assoc, ← hr]]
    simp [enc, enc1]
  · intro e he
    rcases List.mem_append.1 he with he | he
    · exact hes e he
    · have : e = (name, strip body) := by simpa using he
      subst this
      exact ⟨hnn, hnl, by simp only; omega⟩

theorem addChars_ok (es : List Ent) (hes : ∀ e ∈ es, EntOk e) (name : Str) (hnn : NoNul name) (hnl : name.length ≤ 126) (s : Str) :
    ∀ (t : Tab) (body : Str), Open t es name body → body.length ≤ 127 → NoNul body → NoNul s →
    (body.length + s.length ≤ 127 ∧ (enc es).length + size name (body ++ s) ≤ maxLen → ∃ t', addChars t s = .ok t' ∧ Holds t' (es ++ [(name, strip (body ++ s))])) ∧
    (¬ (body.length + s.length ≤ 127 ∧ (enc es).length + size name (body ++ s) ≤ maxLen) → (enc es).length + size name body ≤ maxLen → ∃ e, addChars t s = .error e ∧ (e = .bodyTooLong ∨ e = .full)) := by
  induction s with
  | nil =>
    intro t body ho hb hbn _
    refine ⟨fun _ => ?_, fun hne h2 => ?_⟩
    · rw [List.append_nil]; exact finish_ok t es name body ho hes hnn hnl hb hbn
    · exfalso
      rw [List.append_nil] at hne
      exact hne ⟨by simpa using hb, h2⟩
  | cons c s ih =>
    intro t body ho hb hbn hs
    have hstep := addChar_ok t es name body ho hb c
    have hc := hs c (by simp)
    have hs' : NoNul s := fun d hd => hs d (by simp [hd])
    have hbc : NoNul (body ++ [c]) := by
      intro d hd
      rcases List.mem_append.1 hd with hd | hd
      · exact hbn d hd
      · have : d = c := by simpa using hd
        subst this; exact hc
    simp only [addChars]
    by_cases hroom : body.length < 127 ∧ (enc es).length + size name body < maxLen
    · obtain ⟨t', h1, h2⟩ := hstep.1 hroom
      rw [h1]
      simp only
      have := ih t' (body ++ [c]) h2 (by simp; omega) hbc hs'
      have e1 : (body ++ [c]) ++ s = body ++ c :: s := by simp
      have e2 : (body ++ [c]).length + s.length = body.length + (c :: s).length := by simp; omega
      rw [e1, e2] at this
      refine ⟨this.1, fun hne _ => this.2 hne ?_⟩
      have := hroom.2
      unfold size at *
      simp; omega
    · obtain ⟨e, h1, h2⟩ := hstep.2 hroom
      rw [h1]
      refine ⟨fun hyes => ?_, fun _ _ => ⟨e, rfl, h2⟩⟩
      exfalso; apply hroom
      unfold size at *
      simp at hyes
      omega

theorem defineMacro_ok (t : Tab) (es : List Ent) (h : Holds t es) (name body : Str) (hn : NoNul name) (hb : NoNul body) :
    (Fits (maxLen - (enc es).length) name body → ∃ t', defineMacro t name body = .ok t' ∧ Holds t' (es ++ [(name, strip body)])) ∧
    (¬ Fits (maxLen - (enc es).length) name body → ∃ e, defineMacro t name body = .error e ∧ (e = .nameTooLong ∨ e = .bodyTooLong ∨ e = .full)) := by
  have h1 := addIdent_ok t es h name
  have hcap : (enc es).length ≤ maxLen := by
    obtain ⟨junk, hj⟩ := h.pre
    rw [← h.cap, hj]; simp
  unfold defineMacro
  by_cases hi : name.length ≤ 126 ∧ (enc es).length + name.length + 3 ≤ maxLen
  · obtain ⟨t1, g1, g2⟩ := h1.1 hi
    rw [g1]
    simp only
    have h2 := addChars_ok es h.ok name hn hi.1 body t1 [] g2 (by simp) (by intro c hc; simp at hc) hb
    rw [List.nil_append, List.length_nil, Nat.zero_add] at h2
    refine ⟨fun hf => h2.1 ?_, fun hf => ?_⟩
    · unfold Fits size at *; omega
    · obtain ⟨e, e1, e2⟩ := h2.2 (by unfold Fits size at *; omega) (by unfold size; simp; omega)
      exact ⟨e, e1, Or.inr e2⟩
  · obtain ⟨e, g1, g2⟩ := h1.2 hi
    rw [g1]
    refine ⟨fun hf => ?_, fun _ => ⟨e, rfl, ?_⟩⟩
    · exfalso; apply hi; unfold Fits size at hf; omega
    · rcases g2 with rfl | rfl
      · exact Or.inl rfl
      · exact Or.inr (Or.inr rfl)

theorem lookup_append (name n b : Str) (es : List Ent) (h : lookup n es = none) :
    lookup name (es ++ [(n, b)]) = if n = name then some b else lookup name es := by
  induction es with
  | nil => rfl
  | cons e es ih =>
    simp only [lookup] at h
    split at h
    · cases h
    · rename_i hne
      simp only [List.cons_append, lookup]
      rw [ih h]
      by_cases h1 : e.1 = name
      · rw [if_pos h1, if_pos h1, if_neg (by rw [← h1]; exact fun h => hne h.symm)]
      · rw [if_neg h1, if_neg h1]

theorem lookup_none {n : Str} {es : List Ent} (h : n ∉ es.map (·.1)) : lookup n es = none := by
  induction es with
  | nil => rfl
  | cons e es ih =>
    simp only [List.map_cons, List.mem_cons, not_or] at h
    simp only [lookup]
    rw [if_neg (fun hh => h.1 hh.symm), ih h.2]

theorem not_mem_of_lookup {n : Str} {es : List Ent} (h : lookup n es = none) : n ∉ es.map (·.1) := by
  induction es with
  | nil => simp
  | cons e es ih =>
    simp only [lookup] at h
    split at h
    · cases h
    · rename_i hne
      simp only [List.map_cons, List.mem_cons, not_or]
      exact ⟨fun hh => hne hh.symm, ih h⟩

theorem lookup_remove (name n : Str) (es : List Ent) (h : (es.map (·.1)).Nodup) :
    lookup name (remove n es) = if n = name then none else lookup name es := by
  induction es with
  | nil => simp [remove, lookup]
  | cons e es ih =>
    simp only [List.map_cons, List.nodup_cons] at h
    simp only [remove]
    by_cases h1 : e.1 = n
    · rw [if_pos h1]
      by_cases h2 : n = name
      · rw [if_pos h2, ← h2, ← h1]; exact lookup_none h.1
      · rw [if_neg h2]
        simp only [lookup]
        rw [if_neg (by rw [h1]; exact h2)]
    · rw [if_neg h1]
      simp only [lookup]
      rw [ih h.2]
      by_cases h2 : n = name
      · rw [if_pos h2, if_neg (by rw [← h2]; exact h1), if_pos h2]
      · rw [if_neg h2, if_neg h2]

theorem remove_names (n : Str) (es : List Ent) : (remove n es).Sublist es := by
  induction es with
  | nil => exact List.Sublist.refl _
  | cons e es ih =>
    simp only [remove]
    split
    · exact List.sublist_cons_self _ _
    · exact ih.cons_cons _

/-- the table represents the history -/
def Rep (t : Tab) (h : List Op) : Prop := ∃ es, Holds t es ∧ (es.map (·.1)).Nodup ∧ ∀ name, lookup name es = latest h name

theorem rep_define (t : Tab) (h : List Op) (hr : Rep t h) (n b : Str) (hn : NoNul n) (hb : NoNul b) (hl : latest h n = none) (t' : Tab)
    (hd : defineMacro t n b = .ok t') : Rep t' (.define n b :: h) := by
  obtain ⟨es, h1, h2, h3⟩ := hr
  have hm := defineMacro_ok t es h1 n b hn hb
  by_cases hf : Fits (maxLen - (enc es).length) n b
  · obtain ⟨t1, g1, g2⟩ := hm.1 hf
    rw [hd] at g1
    cases g1
    have hl' : lookup n es = none := by rw [h3, hl]
    refine ⟨_, g2, ?_, fun name => ?_⟩
    · rw [List.map_append, List.nodup_append]
      refine ⟨h2, by simp, ?_⟩
      intro a ha b' hb'
      have : b' = n := by simpa using hb'
      subst this
      intro hab
      subst hab
      exact not_mem_of_lookup hl' ha
    · rw [lookup_append _ _ _ _ hl', h3]; rfl
  · obtain ⟨e, g1, _⟩ := hm.2 hf
    rw [hd] at g1; cases g1

theorem rep_undef (t : Tab) (h : List Op) (hr : Rep t h) (n : Str) (hn : NoNul n) : ∃ t', undefine t n 0 = .ok t' ∧ Rep t' (.undef n :: h) := by
  obtain ⟨es, h1, h2, h3⟩ := hr
  obtain ⟨t', g1, g2⟩ := undef_holds t es h1 n hn
  refine ⟨t', g1, _, g2, ?_, fun name => ?_⟩
  · exact ((remove_names n es).map (·.1)).nodup h2
  · rw [lookup_remove _ _ _ h2, h3]; rfl

theorem rep_step (t : Tab) (h : List Op) (hr : Rep t h) (o : Op) (ho : o.Ok) (t' : Tab) (hs : step t o = .ok t') : Rep t' (o :: h) := by
  cases o with
  | undef n =>
    obtain ⟨t1, g1, g2⟩ := rep_undef t h hr n ho
    simp only [step] at hs
    rw [hs] at g1; cases g1; exact g2
  | define n b =>
    simp only [step, define] at hs
    have hr0 := hr
    obtain ⟨es, h1, h2, h3⟩ := hr
    have hfi := find_iff t es h1 n ho.1
    cases hl : lookup n es with
    | none =>
      rw [hfi.1 hl] at hs
      exact rep_define t h hr0 n b ho.1 ho.2 (by rw [← h3]; exact hl) t' hs
    | some x =>
      obtain ⟨i, hi⟩ := hfi.2 (by rw [hl]; simp)
      rw [hi] at hs; cases hs

theorem rep_run (ops : List Op) : ∀ (t : Tab) (h : List Op), Rep t h → (∀ o ∈ ops, o.Ok) → ∀ t', run t ops = .ok t' → Rep t' (ops.reverse ++ h) := by
  induction ops with
  | nil => intro t h hr _ t' ht; cases ht; exact hr
  | cons o ops ih =>
    intro t h hr ho t' ht
    simp only [run] at ht
    cases hs : step t o with
    | error e => rw [hs] at ht; cases ht
    | ok t1 =>
      rw [hs] at ht
      have := ih t1 (o :: h) (rep_step t h hr o (ho o (by simp)) t1 hs) (fun x hx => ho x (by simp [hx])) t' ht
      rw [List.reverse_cons, List.append_assoc]
      exact this

theorem latest_none (h : List Op) (n : Str) (hh : ∀ o ∈ h, ∀ m b, o = .define m b → m ≠ n) : latest h n = none := by
  induction h with
  | nil => rfl
  | cons o h ih =>
    have ih := ih (fun x hx => hh x (by simp [hx]))
    cases o with
    | define m b =>
      simp only [latest]
      rw [if_neg (hh _ (by simp) m b rfl), ih]
    | undef m =>
      simp only [latest]
      split
      · rfl
      · exact ih

theorem rep_defs (ds : List (Str × Str)) : ∀ (t : Tab) (h : List Op), Rep t h → (∀ d ∈ ds, NoNul d.1 ∧ NoNul d.2) → (ds.map (·.1)).Nodup →
    (∀ d ∈ ds, latest h d.1 = none) → ∀ t', runDefs t ds = .ok t' → Rep t' ((ds.map fun d => Op.define d.1 d.2).reverse ++ h) := by
  induction ds with
  | nil => intro t h hr _ _ _ t' ht; cases ht; exact hr
  | cons d ds ih =>
    intro t h hr hn hnd hl t' ht
    simp only [List.map_cons, List.nodup_cons] at hnd
    simp only [runDefs] at ht
    cases hs : defineMacro t d.1 d.2 with
    | error e => rw [hs] at ht; cases ht
    | ok t1 =>
      rw [hs] at ht
      have hd := hn d (by simp)
      have hr1 := rep_define t h hr d.1 d.2 hd.1 hd.2 (hl d (by simp)) t1 hs
      have := ih t1 _ hr1 (fun x hx => hn x (by simp [hx])) hnd.2 (fun x hx => by
        simp only [latest]
        rw [if_neg (fun he => hnd.1 (by rw [he]; exact List.mem_map.2 ⟨x, hx, rfl⟩))]
        exact hl x (by simp [hx])) t' ht
      rw [List.map_cons, List.reverse_cons, List.append_assoc]
      exact this

theorem rep_empty : Rep empty [] :=
  ⟨[], ⟨by simp [empty], rfl, ⟨_, rfl⟩, by simp⟩, by simp, fun _ => rfl⟩

theorem mem_iff_lookup (es : List Ent) (h : (es.map (·.1)).Nodup) (n b : Str) : (n, b) ∈ es ↔ lookup n es = some b := by
  induction es with
  | nil => simp [lookup]
  | cons e es ih =>
    simp only [List.map_cons, List.nodup_cons] at h
    simp only [lookup, List.mem_cons]
    by_cases h1 : e.1 = n
    · rw [if_pos h1]
      constructor
      · rintro (h2 | h2)
        · rw [← h2]
        · exfalso; apply h.1; rw [h1]; exact List.mem_map.2 ⟨_, h2, rfl⟩
      · intro h2
        left
        cases e; simp only at h1; cases h2; rw [h1]
    · rw [if_neg h1, ← ih h.2]
      constructor
      · rintro (h2 | h2)
        · exfalso; apply h1; rw [← h2]
        · exact h2
      · exact Or.inr

theorem enc_len (es : List Ent) : (enc es).length = (es.map fun d => size d.1 d.2).sum := by
  induction es with
  | nil => rfl
  | cons e es ih => simp only [enc, List.length_append, enc1_len, ih, List.map_cons, List.sum_cons]

theorem holds_empty : Holds empty [] := ⟨by simp [empty], rfl, ⟨_, rfl⟩, by simp⟩

theorem define_new (t : Tab) (es : List Ent) (h : Holds t es) (n b : Str) (hn : NoNul n) (hb : NoNul b) (hl : lookup n es = none)
    (hf : Fits (maxLen - (enc es).length) n b) : ∃ t', define t n b = .ok t' ∧ Holds t' (es ++ [(n, strip b)]) := by
  unfold define
  rw [(find_iff t es h n hn).1 hl]
  exact (defineMacro_ok t es h n b hn hb).1 hf

theorem run_example : ∃ t, run empty [.define [0x41] [0x78], .define [0x42] [0x79, 0x20], .undef [0x41]] = .ok t ∧
    expand t [0x41] = .ok none ∧ expand t [0x42] = .ok (some [0x79]) := by
  have hA : NoNul [0x41] := by simp [NoNul]
  have hB : NoNul [0x42] := by simp [NoNul]
  obtain ⟨t1, h1, g1⟩ := define_new empty [] holds_empty [0x41] [0x78] hA (by simp [NoNul]) rfl (by unfold Fits; decide)
  obtain ⟨t2, h2, g2⟩ := define_new t1 _ g1 [0x42] [0x79, 0x20] hB (by simp [NoNul]) rfl (by unfold Fits; decide +kernel)
  obtain ⟨t3, h3, g3⟩ := undef_holds t2 _ g2 [0x41] hA
  refine ⟨t3, ?_, ?_, ?_⟩
  · simp only [run, step, h1, h2, h3]
  · rw [expand_ok t3 _ g3 _ hA]; rfl
  · rw [expand_ok t3 _ g3 _ hB]; rfl

end Smlr.Macro
