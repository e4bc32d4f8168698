import Verif.Ulex.Punct
set_option autoImplicit false
/-! From elements to tokens. -/
namespace Smlr.Ulex

theorem Longest.next {cpp : Bool} {w r : Str} {k : K} (h : Longest cpp (w ++ r) w k) (c : UInt8) (hc : r.head? = some c) (k' : K) : ¬ Elem cpp (w ++ [c]) k' := by
  intro he
  cases r with
  | nil => cases hc
  | cons d r =>
    injection hc with hc
    have := h.max (w ++ [c]) k' he ⟨r, by rw [hc]; simp⟩
    rw [List.length_append, List.length_singleton] at this
    omega

theorem mem_spell (w : Str) (k : K) (h : (w, k) ∈ bytes) : ∃ s, str s = w ∧ (s, k) ∈ puncts := by
  rw [← spell_eq] at h
  obtain ⟨p, hp, h⟩ := List.mem_map.mp h
  injection h with h1 h2
  exact ⟨p.1, h1, by rw [← h2]; exact hp⟩

theorem spell_mem (s : String) (k : K) (h : (s, k) ∈ puncts) : (str s, k) ∈ bytes := by
  rw [← spell_eq]
  exact List.mem_map.mpr ⟨(s, k), h, rfl⟩

theorem slash_k : ∀ p ∈ bytes, p.1 = [0x2F] → p.2 = .SLASH := by decide +kernel

theorem dot_k : ∀ p ∈ bytes, p.1 = [0x2E] → p.2 = .DOT := by decide +kernel

theorem pct_k : ∀ p ∈ bytes, p.1 = [0x25, 0x3A] → p.2 = .DIG_SHARP := by decide +kernel

theorem punct_kept : ∀ p ∈ bytes, p.2 ∉ kept := by decide +kernel

theorem str_dot : str "." = [0x2E] := by decide +kernel

theorem str_pct : str "%:" = [0x25, 0x3A] := by decide +kernel

theorem str_slash : str "/" = [0x2F] := by decide +kernel

theorem mdots : ([0x2E, 0x2E, 0x2E], K.MDOTS) ∈ bytes := by decide +kernel

theorem dsharp : ([0x25, 0x3A, 0x25, 0x3A], K.DIG_DSHARP) ∈ bytes := by decide +kernel

/-- two tokens at once: the second is pending -/
def Two (fl : Flags) (w r : Str) (k : K) (x : UInt8) (p : K) (P : UInt8 → Prop) : Prop :=
  k ∉ kept ∧ ∃ r', r = x :: r' ∧ Next P r' ∧ Runs fl .START [] (w ++ r) (k, []) (some p) r'

def NoDot (c : UInt8) : Prop := c ∉ digits ∧ c ≠ 0x2E

def NoPct (c : UInt8) : Prop := c ≠ 0x3A ∧ c ≠ 0x3D ∧ c ≠ 0x3E

theorem punct_elem (fl : Flags) (w r : Str) (k : K) (hl : Longest fl.cpp (w ++ r) w k) (ho : ¬ Odd w r) (hp : (w, k) ∈ bytes) :
    Runs fl .START [] (w ++ r) (k, []) none r ∨ Two fl w r k 0x2E .DOT NoDot ∨ Two fl w r k 0x25 .PCT NoPct := by
  by_cases hn : Next (fun c => (w, c) ∉ more) r
  · exact .inl (punct_runs fl w k r hp hn)
  · simp only [Next, Classical.not_forall, Classical.not_not] at hn
    obtain ⟨c, hc, hm⟩ := hn
    obtain ⟨r', rfl⟩ : ∃ r', r = c :: r' := by
      cases r with
      | nil => cases hc
      | cons d r => injection hc with hc; exact ⟨r, by rw [hc]⟩
    rw [more, List.mem_append, List.mem_append] at hm
    rcases hm with (hm | hm) | hm
    · obtain ⟨p, hpm, hpe⟩ := List.mem_filterMap.mp hm
      split at hpe
      · cases hg : p.1.getLast? with
        | none => rw [hg] at hpe; cases hpe
        | some d =>
          rw [hg] at hpe
          injection hpe with hpe
          injection hpe with h1 h2
          subst h2
          have hw : p.1 = w ++ [d] := by
            rw [← h1]
            exact drop_last p.1 d hg
          obtain ⟨s, hs, hs'⟩ := mem_spell p.1 p.2 hpm
          exact absurd (hw ▸ hs ▸ Elem.punct s p.2 hs') (hl.next d hc p.2)
      · cases hpe
    · simp only [List.mem_cons, List.not_mem_nil, or_false, Prod.mk.injEq] at hm
      rcases hm with ⟨rfl, rfl⟩ | ⟨rfl, rfl⟩ | ⟨rfl, rfl⟩ | ⟨rfl, rfl⟩
      · exact absurd (str_slash ▸ Odd.comment r') ho
      · have hk : k = .SLASH := slash_k _ hp rfl
        subst hk
        cases hf : fl.cpp with
        | true =>
          have := Elem.line (cpp := fl.cpp) [] hf (by simp)
          rw [show str "//" ++ [] = [0x2F] ++ [0x2F] by decide +kernel] at this
          exact absurd this (hl.next _ hc _)
        | false => exact .inl (runs_slash fl r' hf)
      · have hk : k = .DIG_SHARP := pct_k _ hp rfl
        subst hk
        have hx : Next NoPct r' := by
          intro c hc'
          obtain ⟨r'', rfl⟩ : ∃ r'', r' = c :: r'' := by
            cases r' with
            | nil => cases hc'
            | cons d r => injection hc' with hc'; exact ⟨r, by rw [hc']⟩
          refine ⟨?_, ?_, ?_⟩
          · rintro rfl
            obtain ⟨s, hs, hs'⟩ := mem_spell _ _ dsharp
            have := hl.max _ _ (Elem.punct s _ hs') ⟨r'', by rw [hs]; rfl⟩
            rw [hs] at this
            simp at this
          · rintro rfl
            exact ho (str_pct ▸ Odd.pct _ r'' (.inl rfl))
          · rintro rfl
            exact ho (str_pct ▸ Odd.pct _ r'' (.inr rfl))
        exact .inr (.inr ⟨by decide, r', rfl, hx, runs_pct fl r' fun c h => (hx c h).1⟩)
      · have hk : k = .DOT := dot_k _ hp rfl
        subst hk
        have hx : Next NoDot r' := by
          intro c hc'
          obtain ⟨r'', rfl⟩ : ∃ r'', r' = c :: r'' := by
            cases r' with
            | nil => cases hc'
            | cons d r => injection hc' with hc'; exact ⟨r, by rw [hc']⟩
          refine ⟨fun hd => ho (str_dot ▸ Odd.dots c r'' hd), ?_⟩
          rintro rfl
          obtain ⟨s, hs, hs'⟩ := mem_spell _ _ mdots
          have := hl.max _ _ (Elem.punct s _ hs') ⟨r'', by rw [hs]; rfl⟩
          rw [hs] at this
          simp at this
        exact .inr (.inl ⟨by decide, r', rfl, hx, runs_dots fl r' fun c h => (hx c h).2⟩)
    · obtain ⟨d, hd, he⟩ := List.mem_map.mp hm
      injection he with h1 h2
      subst h1 h2
      have hd' : d ∈ digits := by rw [digits_eq]; exact hd
      exact absurd (Elem.number _ (PpNum.dot d hd')) (hl.next d hc _)

theorem elem_runs (fl : Flags) (w r : Str) (k : K) (hl : Longest fl.cpp (w ++ r) w k) (ho : ¬ Odd w r) (hb : fl.cset = false ∨ k ≠ .BUNCH) :
    Runs fl .START [] (w ++ r) (k, if k ∈ kept then w else []) none r ∨ Two fl w r k 0x2E .DOT NoDot ∨ Two fl w r k 0x25 .PCT NoPct := by
  have hx := fun c hc k' => hl.next c hc k'
  cases hl.elem with
  | space _ h0 hw =>
    refine .inl (runs_space fl w r h0 hw fun c hc hcb => hx c hc .NONE (.space _ (by simp) ?_))
    intro d hd
    rcases List.mem_append.mp hd with hd | hd
    · exact hw d hd
    · rw [List.mem_singleton.mp hd]; exact hcb
  | newline => exact .inl (runs_newline fl r)
  | block b hc => exact .inl (runs_block fl b r hc)
  | line b hcpp hbn =>
    refine .inl (runs_line fl b r hcpp hbn fun c hc => Classical.byContradiction fun hne => hx c hc .COMMENT ?_)
    rw [List.append_assoc]
    refine .line (b ++ [c]) hcpp ?_
    intro hm
    rcases List.mem_append.mp hm with hm | hm
    · exact hbn hm
    · exact hne (List.mem_singleton.mp hm).symm
  | number _ hn =>
    refine .inl (runs_number fl w r hn ?_ ?_ ?_)
    · rintro ⟨v, e, f, t, rfl, he, hf⟩
      exact ho (.number v t r e f hn he hf)
    · intro c hc
      refine ⟨fun hm => ?_, ?_⟩
      · rcases List.mem_append.mp hm with hm | hm
        · exact hx c hc _ (.number _ (.letter w c hn hm))
        · exact hx c hc _ (.number _ (.digits w c hn hm))
      · rintro rfl
        exact hx _ hc _ (.number _ (.point w hn))
    · intro v e hv he hvn c hc hs
      refine hx c hc _ (.number _ ?_)
      rw [hv, List.append_assoc]
      exact .sign v e c hvn he hs
  | name c w hc hw =>
    refine .inl (runs_name fl c w r hc hw (fun d hd => ⟨fun hm => ?_, ?_⟩) (fun h1 h2 d hd => ?_))
    · refine hx d hd _ (.name c (w ++ [d]) hc fun x hxm => ?_)
      rcases List.mem_append.mp hxm with h | h
      · exact hw x h
      · rw [List.mem_singleton.mp h]; exact hm
    · rintro rfl
      cases r with
      | nil => cases hd
      | cons y r => injection hd with hd; subst hd; exact ho (.ucn c w r hc hw)
    · subst h1 h2
      cases r with
      | nil => cases hd
      | cons y r =>
        injection hd with hd
        subst hd
        rw [← str_L] at ho
        exact ⟨fun h => ho (.quote _ r (.inr h)), fun h => ho (.quote _ r (.inl h))⟩
  | char l b hl' _ hc => exact .inl (runs_char fl l b r hl' hc)
  | string l b hl' hc => exact .inl (runs_string fl l b r hl' hc)
  | punct s _ hs =>
    have hm := spell_mem s k hs
    have := punct_elem fl _ r k hl ho hm
    rw [if_neg (punct_kept _ hm)]
    exact this
  | other c hc =>
    rcases hb with hb | hb
    · exact .inl (runs_other fl c r hc hb)
    · exact absurd rfl hb

theorem ppnum_head (w : Str) (h : PpNum w) : ∃ d t, (w = d :: t ∧ d ∈ digits) ∨ (w = 0x2E :: d :: t ∧ d ∈ digits) := by
  induction h with
  | digit d hd => exact ⟨d, [], .inl ⟨rfl, hd⟩⟩
  | dot d hd => exact ⟨d, [], .inr ⟨rfl, hd⟩⟩
  | digits w c _ _ ih => obtain ⟨d, t, h⟩ := ih; exact ⟨d, t ++ [c], by rcases h with ⟨rfl, h⟩ | ⟨rfl, h⟩ <;> simp [h]⟩
  | letter w c _ _ ih => obtain ⟨d, t, h⟩ := ih; exact ⟨d, t ++ [c], by rcases h with ⟨rfl, h⟩ | ⟨rfl, h⟩ <;> simp [h]⟩
  | sign w e s _ _ _ ih => obtain ⟨d, t, h⟩ := ih; exact ⟨d, t ++ [e, s], by rcases h with ⟨rfl, h⟩ | ⟨rfl, h⟩ <;> simp [h]⟩
  | point w _ ih => obtain ⟨d, t, h⟩ := ih; exact ⟨d, t ++ [0x2E], by rcases h with ⟨rfl, h⟩ | ⟨rfl, h⟩ <;> simp [h]⟩

/-- what begins with `.`, `%` or `+` -/
theorem elem_head (cpp : Bool) (w t : Str) (k : K) (x : UInt8) (h : Elem cpp w k) (hw : w <+: x :: t) (hx : x = 0x2E ∨ x = 0x25 ∨ x = 0x2B) :
    (x = 0x2E ∧ ∃ d t', w = x :: d :: t' ∧ d ∈ digits) ∨ ((w, k) ∈ bytes ∧ w.head? = some x) := by
  have hb : x ∉ blanks ∧ x ∉ letters ∧ x ∉ digits ∧ x ∈ used ∧ x ≠ 0x0A ∧ x ≠ 0x2F ∧ x ≠ 0x27 ∧ x ≠ 0x22 ∧ x ≠ 0x4C := by
    rcases hx with rfl | rfl | rfl <;> decide +kernel
  obtain ⟨b1, b2, b3, b4, b5, b6, b7, b8, b9⟩ := hb
  obtain ⟨y, hy⟩ := hw
  cases h with
  | space _ h0 hw =>
    cases w with
    | nil => exact absurd rfl h0
    | cons c w => injection hy with hy; exact absurd (hy ▸ hw c List.mem_cons_self) b1
  | newline => injection hy with hy; exact absurd hy.symm b5
  | block b _ =>
    rw [show str "/*" = [0x2F, 0x2A] by decide +kernel] at hy
    injection hy with hy; exact absurd hy.symm b6
  | line b _ _ =>
    rw [show str "//" = [0x2F, 0x2F] by decide +kernel] at hy
    injection hy with hy; exact absurd hy.symm b6
  | number _ hn =>
    obtain ⟨d, t', h | h⟩ := ppnum_head w hn
    · rw [h.1] at hy
      injection hy with hy
      exact absurd (hy ▸ h.2) b3
    · obtain ⟨rfl, hd⟩ := h
      injection hy with hy
      exact .inl ⟨hy.symm, d, t', by rw [hy], hd⟩
  | name c w hc _ => injection hy with hy; exact absurd (hy ▸ hc) b2
  | char l b hl _ _ =>
    rcases hl with rfl | rfl
    · injection hy with hy; exact absurd hy.symm b7
    · rw [str_L] at hy; injection hy with hy; exact absurd hy.symm b9
  | string l b hl _ =>
    rcases hl with rfl | rfl
    · injection hy with hy; exact absurd hy.symm b8
    · rw [str_L] at hy; injection hy with hy; exact absurd hy.symm b9
  | punct s _ hs =>
    have hm := spell_mem s k hs
    have h0 : ∀ p ∈ bytes, p.1 ≠ [] := by decide +kernel
    have h0 := h0 _ hm
    refine .inr ⟨hm, ?_⟩
    cases hc : str s with
    | nil => exact absurd hc h0
    | cons c w => rw [hc] at hy; injection hy with hy; rw [hy]; rfl
  | other c hc => injection hy with hy; exact absurd (hy ▸ b4) hc

theorem elem_dot (cpp : Bool) (w t : Str) (k : K) (h : Elem cpp w k) (hw : w <+: 0x2E :: t) (hn : Next NoDot t) : w = [0x2E] ∧ k = .DOT := by
  rcases elem_head cpp w t k _ h hw (.inl rfl) with ⟨-, d, t', rfl, hd⟩ | ⟨hm, hh⟩
  · obtain ⟨y, hy⟩ := hw
    injection hy with _ hy
    exact absurd hd (hn d (by rw [← hy]; rfl)).1
  · have : ∀ p ∈ bytes, p.1.head? = some 0x2E → p = ([0x2E], .DOT) ∨ p.1 = [0x2E, 0x2E, 0x2E] := by decide +kernel
    rcases this _ hm hh with h | h
    · injection h with h1 h2; exact ⟨h1, h2⟩
    · obtain ⟨y, hy⟩ := hw
      dsimp only at h
      rw [h] at hy
      injection hy with _ hy
      exact absurd rfl (hn 0x2E (by rw [← hy]; rfl)).2

theorem elem_pct (cpp : Bool) (w t : Str) (k : K) (h : Elem cpp w k) (hw : w <+: 0x25 :: t) (hn : Next NoPct t) : w = [0x25] ∧ k = .PCT := by
  rcases elem_head cpp w t k _ h hw (.inr (.inl rfl)) with ⟨h, -⟩ | ⟨hm, hh⟩
  · exact absurd h (by decide)
  · have : ∀ p ∈ bytes, p.1.head? = some 0x25 → p = ([0x25], .PCT) ∨ p.1[1]? = some 0x3A ∨ p.1[1]? = some 0x3D ∨ p.1[1]? = some 0x3E := by decide +kernel
    obtain ⟨y, hy⟩ := hw
    have key : ∀ c, w[1]? = some c → t.head? = some c := by
      intro c hc
      match w, hc with
      | a :: b :: w, hc =>
        injection hy with _ hy
        rw [← hy]
        exact hc
    rcases this _ hm hh with h | h | h | h
    · injection h with h1 h2; exact ⟨h1, h2⟩
    · exact absurd rfl (hn _ (key _ h)).1
    · exact absurd rfl (hn _ (key _ h)).2.1
    · exact absurd rfl (hn _ (key _ h)).2.2

theorem longest_punct (cpp : Bool) (w r : Str) (k : K) (x : UInt8) (hm : (w, k) ∈ bytes) (hw : (w ++ r).head? = some x) (hx : x = 0x2E ∨ x = 0x25 ∨ x = 0x2B)
    (hd : x = 0x2E → ∀ d, (w ++ r)[1]? = some d → d ∉ digits) (hb : ∀ p ∈ bytes, p.1 <+: w ++ r → p.1.length ≤ w.length) : Longest cpp (w ++ r) w k := by
  obtain ⟨s, rfl, hs⟩ := mem_spell w k hm
  refine ⟨.punct s k hs, ⟨r, rfl⟩, fun w' k' he hp => ?_⟩
  obtain ⟨t, ht⟩ : ∃ t, str s ++ r = x :: t := by
    cases hc : str s ++ r with
    | nil => rw [hc] at hw; cases hw
    | cons c t => rw [hc] at hw; injection hw with hw; exact ⟨t, by rw [hw]⟩
  rcases elem_head cpp w' t k' x he (ht ▸ hp) hx with ⟨h1, d, t', rfl, h2⟩ | ⟨h, -⟩
  · obtain ⟨y, hy⟩ := hp
    exact absurd h2 (hd h1 d (by rw [← hy]; rfl))
  · exact hb _ h hp

/-- the text that a state stands for -/
def Rel (fl : Flags) (s : St) (u : Str) : Prop :=
  (s.pending = none ∧ text fl s = u) ∨ (s.pending = some .DOT ∧ u = 0x2E :: text fl s ∧ Next NoDot (text fl s)) ∨ (s.pending = some .PCT ∧ u = 0x25 :: text fl s ∧ Next NoPct (text fl s))

theorem tokens_rel (fl : Flags) (u : Str) (ts : List (K × Str)) (h : Toks fl.cpp (fun w r => ¬ Odd w r) u ts) (hb : fl.cset = false ∨ ∀ t ∈ ts, t.1 ≠ .BUNCH) :
    ∃ N, ∀ s, Inv fl s → Rel fl s u → ∀ n ≥ N, ∀ m ≥ N, tokens fl n m s = .ok ts := by
  induction h with
  | nil =>
    refine ⟨1, fun s hi hr n hn m hm => ?_⟩
    obtain ⟨n, rfl⟩ : ∃ a, n = a + 1 := ⟨n - 1, by omega⟩
    obtain ⟨m, rfl⟩ : ∃ a, m = a + 1 := ⟨m - 1, by omega⟩
    rcases hr with ⟨hp, ht⟩ | ⟨-, ht, -⟩ | ⟨-, ht, -⟩
    · obtain ⟨s', g1, -⟩ := next_spec fl s hi
      rw [tokens, readToken, hp]
      dsimp only
      rw [loop, g1, ht]
      rfl
    · cases ht
    · cases ht
  | cons w k r ts hl ho _ ih =>
    obtain ⟨N, ih⟩ := ih (hb.imp_right fun h t ht => h t (List.mem_cons_of_mem _ ht))
    have hk : fl.cset = false ∨ k ≠ .BUNCH := hb.imp_right fun h => h _ List.mem_cons_self
    obtain ⟨N', hN⟩ : ∃ N', ∀ s, Inv fl s → Rel fl s (w ++ r) → ∀ n ≥ N', ∃ s', readToken fl n s = .ok (some (k, if k ∈ kept then w else []), s') ∧ Inv fl s' ∧ Rel fl s' r := by
      have hpend : ∀ s : St, Inv fl s → Inv fl { s with pending := none } := fun s h => ⟨h.ok, h.eof⟩
      have h2 : ∀ s, Inv fl s → s.pending ≠ none → Rel fl s (w ++ r) → ∀ n, ∃ s', readToken fl n s = .ok (some (k, if k ∈ kept then w else []), s') ∧ Inv fl s' ∧ Rel fl s' r := by
        intro s hi hp hr n
        rcases hr with ⟨h, -⟩ | ⟨hp, hu, hn⟩ | ⟨hp, hu, hn⟩
        · exact absurd h hp
        · obtain ⟨rfl, rfl⟩ := elem_dot fl.cpp w _ k hl.elem ⟨r, hu⟩ hn
          injection hu with _ hu
          exact ⟨{ s with pending := none }, by rw [readToken, hp]; rfl, hpend s hi, .inl ⟨rfl, hu.symm⟩⟩
        · obtain ⟨rfl, rfl⟩ := elem_pct fl.cpp w _ k hl.elem ⟨r, hu⟩ hn
          injection hu with _ hu
          exact ⟨{ s with pending := none }, by rw [readToken, hp]; rfl, hpend s hi, .inl ⟨rfl, hu.symm⟩⟩
      have h1 : ∃ N', ∀ s, Inv fl s → s.pending = none → text fl s = w ++ r → ∀ n ≥ N', ∃ s', loop fl n .START [] s = .ok (some (k, if k ∈ kept then w else []), s') ∧ Inv fl s' ∧ Rel fl s' r := by
        rcases elem_runs fl w r k hl ho hk with h | ⟨hkept, r', rfl, hn, h⟩ | ⟨hkept, r', rfl, hn, h⟩
        · obtain ⟨N', h⟩ := loop_runs fl _ _ _ _ _ _ h
          refine ⟨N', fun s hi hp ht n hN => ?_⟩
          obtain ⟨s', a1, a2, a3, a4⟩ := h s hi ht n hN
          exact ⟨s', a1, a3, .inl ⟨by rw [a4, if_pos rfl, hp], a2⟩⟩
        · obtain ⟨N', h⟩ := loop_runs fl _ _ _ _ _ _ h
          refine ⟨N', fun s hi hp ht n hN => ?_⟩
          obtain ⟨s', a1, a2, a3, a4⟩ := h s hi ht n hN
          exact ⟨s', by rw [if_neg hkept]; exact a1, a3, .inr (.inl ⟨a4, by rw [a2], by rw [a2]; exact hn⟩)⟩
        · obtain ⟨N', h⟩ := loop_runs fl _ _ _ _ _ _ h
          refine ⟨N', fun s hi hp ht n hN => ?_⟩
          obtain ⟨s', a1, a2, a3, a4⟩ := h s hi ht n hN
          exact ⟨s', by rw [if_neg hkept]; exact a1, a3, .inr (.inr ⟨a4, by rw [a2], by rw [a2]; exact hn⟩)⟩
      obtain ⟨N', h1⟩ := h1
      refine ⟨N', fun s hi hr n hN => ?_⟩
      cases hp : s.pending with
      | some p => exact h2 s hi (by rw [hp]; simp) hr n
      | none =>
        rcases hr with ⟨-, ht⟩ | ⟨h, -⟩ | ⟨h, -⟩
        · have := h1 s hi hp ht n hN
          rw [readToken, hp]
          exact this
        · rw [hp] at h; cases h
        · rw [hp] at h; cases h
    refine ⟨max N' (N + 1), fun s hi hr n hn m hm => ?_⟩
    obtain ⟨m, rfl⟩ : ∃ a, m = a + 1 := ⟨m - 1, by omega⟩
    obtain ⟨s', a1, a2, a3⟩ := hN s hi hr n (by omega)
    rw [tokens, a1]
    dsimp only
    rw [ih s' a2 a3 n (by omega) m (by omega)]
    rfl

theorem start_inv (fl : Flags) (s : Str) : Inv fl (start s) ∧ text fl (start s) = phases fl.trig s := by
  refine ⟨⟨trivial, fun h => by cases h⟩, ?_⟩
  show splice (tri fl (nl false s)) = _
  rw [nl_false]
  rfl

end Smlr.Ulex
