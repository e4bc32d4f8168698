import Verif.Eval.Climb
set_option autoImplicit false
/-! The marking of unary signs, and the trees of the token sequences that are accepted. -/
namespace Smlr.Eval
variable {w : Nat}

theorem mark_length (ts : List Tok) : ∀ p, (mark p ts).length = ts.length := by
  induction ts with
  | nil => intro p; rfl
  | cons t ts ih => intro p; simp only [mark, List.length_cons, ih]

theorem mark_writes {mid l : Nat} {e : E} {ts : List Tok} (h : Writes w mid l e ts) :
    ∀ rest, ∃ us, mark true (ts ++ rest) = us ++ mark false rest ∧ WritesM w mid l e us := by
  induction h with
  | num hl hc => intro rest; exact ⟨_, rfl, .num hl hc⟩
  | chr hl hc => intro rest; exact ⟨_, rfl, .chr hl hc⟩
  | @paren l e ts hl _ ih =>
    intro rest
    obtain ⟨us, h1, h2⟩ := ih (.rpar :: rest)
    refine ⟨.lpar :: us ++ [.rpar], ?_, .paren hl h2⟩
    have : mark true (.lpar :: ts ++ [.rpar] ++ rest) = .lpar :: mark true (ts ++ .rpar :: rest) := by
      rw [List.append_assoc, List.singleton_append]; rfl
    rw [this, h1]
    simp only [mark, List.cons_append, List.append_assoc, List.nil_append]
    rfl
  | @un l o e ts hl _ ih =>
    intro rest
    obtain ⟨us, h1, h2⟩ := ih rest
    refine ⟨.un o :: us, ?_, .un hl h2⟩
    cases o <;> (show _ :: mark true (ts ++ rest) = _; rw [h1]; rfl)
  | @bin l o a b ts us hl _ _ iha ihb =>
    intro rest
    obtain ⟨us', h3, h4⟩ := ihb rest
    obtain ⟨ts', h1, h2⟩ := iha (.bin o :: (us ++ rest))
    refine ⟨ts' ++ .bin o :: us', ?_, .bin hl h2 h4⟩
    rw [List.append_assoc, List.cons_append, h1]
    have : mark false (.bin o :: (us ++ rest)) = .bin o :: mark true (us ++ rest) := by cases o <;> rfl
    rw [this, h3, List.append_assoc, List.cons_append]
  | @cond l a b c ts us vs hl _ _ _ iha ihb ihc =>
    intro rest
    obtain ⟨vs', h5, h6⟩ := ihc rest
    obtain ⟨us', h3, h4⟩ := ihb (.colon :: (vs ++ rest))
    obtain ⟨ts', h1, h2⟩ := iha (.quest :: (us ++ .colon :: (vs ++ rest)))
    refine ⟨ts' ++ .quest :: us' ++ .colon :: vs', ?_, .cond hl h2 h4 h6⟩
    have happ : ts ++ .quest :: us ++ .colon :: vs ++ rest = ts ++ (.quest :: (us ++ .colon :: (vs ++ rest))) := by simp
    have e1 : mark false (.quest :: (us ++ .colon :: (vs ++ rest))) = .quest :: mark true (us ++ .colon :: (vs ++ rest)) := rfl
    have e2 : mark false (.colon :: (vs ++ rest)) = .colon :: mark true (vs ++ rest) := rfl
    rw [happ, h1, e1, h3, e2, h5]
    simp

/-- the signs that are marked are not yet in the tokens -/
def Unmarked (ts : List Tok) : Prop := .un .uplus ∉ ts ∧ .un .uminus ∉ ts

theorem Unmarked.append {ts us : List Tok} (h : Unmarked (ts ++ us)) : Unmarked ts ∧ Unmarked us := by
  unfold Unmarked at *
  simp only [List.mem_append, not_or] at h
  exact ⟨⟨h.1.1, h.2.1⟩, ⟨h.1.2, h.2.2⟩⟩

theorem Unmarked.tail {t : Tok} {us : List Tok} (h : Unmarked (t :: us)) : Unmarked us :=
  ⟨fun hm => h.1 (List.mem_cons_of_mem _ hm), fun hm => h.2 (List.mem_cons_of_mem _ hm)⟩

theorem mark_false_cons {ts : List Tok} {t : Tok} {us : List Tok} (h : mark false ts = t :: us) :
    ∃ r, ts = t :: r ∧ mark (unary t) r = us := by
  cases ts with
  | nil => cases h
  | cons t' r =>
    unfold mark markTok at h
    split at h <;> (simp only [Bool.false_eq_true, if_false, List.cons.injEq] at h; obtain ⟨rfl, h2⟩ := h; exact ⟨r, rfl, h2⟩)

theorem mark_true_cons {ts : List Tok} {t : Tok} {us : List Tok} (h : mark true ts = t :: us) :
    ∃ t' r, ts = t' :: r ∧ mark (unary t) r = us ∧ ((t' = .bin .plus ∧ t = .un .uplus) ∨ (t' = .bin .minus ∧ t = .un .uminus) ∨ t' = t) := by
  cases ts with
  | nil => cases h
  | cons t' r =>
    unfold mark markTok at h
    split at h
    · simp only [if_true, List.cons.injEq] at h; obtain ⟨rfl, h2⟩ := h; exact ⟨_, r, rfl, h2, .inl ⟨rfl, rfl⟩⟩
    · simp only [if_true, List.cons.injEq] at h; obtain ⟨rfl, h2⟩ := h; exact ⟨_, r, rfl, h2, .inr (.inl ⟨rfl, rfl⟩)⟩
    · simp only [List.cons.injEq] at h; obtain ⟨rfl, h2⟩ := h; exact ⟨_, r, rfl, h2, .inr (.inr rfl)⟩

theorem unmark {mid l : Nat} {e : E} {us : List Tok} (h : WritesM w mid l e us) :
    ∀ ts rest, Unmarked ts → mark true ts = us ++ rest →
      ∃ vs r, ts = vs ++ r ∧ Writes w mid l e vs ∧ mark false r = rest := by
  induction h with
  | @num l s v hl hc =>
    intro ts rest hu hm
    obtain ⟨t', r, rfl, h2, h3⟩ := mark_true_cons hm
    rcases h3 with ⟨_, h⟩ | ⟨_, h⟩ | rfl
    · cases h
    · cases h
    · exact ⟨[_], r, rfl, .num hl hc, h2⟩
  | @chr l s v hl hc =>
    intro ts rest hu hm
    obtain ⟨t', r, rfl, h2, h3⟩ := mark_true_cons hm
    rcases h3 with ⟨_, h⟩ | ⟨_, h⟩ | rfl
    · cases h
    · cases h
    · exact ⟨[_], r, rfl, .chr hl hc, h2⟩
  | @paren l e us hl _ ih =>
    intro ts rest hu hm
    rw [List.cons_append, List.cons_append, List.append_assoc] at hm
    obtain ⟨t', r, rfl, h2, h3⟩ := mark_true_cons hm
    rcases h3 with ⟨_, h⟩ | ⟨_, h⟩ | rfl
    · cases h
    · cases h
    · obtain ⟨vs, r', rfl, h4, h5⟩ := ih r _ hu.tail h2
      obtain ⟨r2, rfl, h6⟩ := mark_false_cons h5
      exact ⟨.lpar :: vs ++ [.rpar], r2, by simp, .paren hl h4, h6⟩
  | @un l o e us hl _ ih =>
    intro ts rest hu hm
    obtain ⟨t', r, rfl, h2, h3⟩ := mark_true_cons hm
    obtain ⟨vs, r', rfl, h4, h5⟩ := ih r _ hu.tail h2
    refine ⟨t' :: vs, r', rfl, ?_, h5⟩
    have : t' = uTok o := by
      rcases h3 with ⟨rfl, h⟩ | ⟨rfl, h⟩ | rfl
      · cases h; rfl
      · cases h; rfl
      · cases o with
        | lnot => rfl
        | not => rfl
        | uplus => exact absurd List.mem_cons_self hu.1
        | uminus => exact absurd List.mem_cons_self hu.2
    rw [this]
    exact .un hl h4
  | @bin l o a b ts us hl _ _ iha ihb =>
    intro xs rest hu hm
    rw [List.append_assoc] at hm
    obtain ⟨vs, r, rfl, h1, h2⟩ := iha xs _ hu hm
    obtain ⟨r2, rfl, h3⟩ := mark_false_cons h2
    obtain ⟨vs2, r3, rfl, h4, h5⟩ := ihb r2 rest hu.append.2.tail h3
    exact ⟨vs ++ .bin o :: vs2, r3, by simp, .bin hl h1 h4, h5⟩
  | @cond l a b c ts us vs hl _ _ _ iha ihb ihc =>
    intro xs rest hu hm
    have happ : ts ++ .quest :: us ++ .colon :: vs ++ rest = ts ++ (.quest :: (us ++ .colon :: (vs ++ rest))) := by simp
    rw [happ] at hm
    obtain ⟨p1, r1, rfl, h1, h2⟩ := iha xs _ hu hm
    obtain ⟨r2, rfl, h3⟩ := mark_false_cons h2
    obtain ⟨p2, r3, rfl, h4, h5⟩ := ihb r2 _ hu.append.2.tail h3
    obtain ⟨r4, rfl, h6⟩ := mark_false_cons h5
    obtain ⟨p3, r5, rfl, h7, h8⟩ := ihc r4 rest hu.append.2.tail.append.2.tail h6
    exact ⟨p1 ++ .quest :: p2 ++ .colon :: p3, r5, by simp, .cond hl h1 h4 h7, h8⟩

/-! ### what is accepted is an expression -/

theorem WritesM.mono {mid l l' : Nat} {e : E} {ts : List Tok} (h : WritesM w mid l e ts) (hl : l' ≤ l) : WritesM w mid l' e ts := by
  cases h with
  | num h1 h2 => exact .num (by omega) h2
  | chr h1 h2 => exact .chr (by omega) h2
  | paren h1 h2 => exact .paren (by omega) h2
  | un h1 h2 => exact .un (by omega) h2
  | bin h1 h2 h3 => exact .bin (by omega) h2 h3
  | cond h1 h2 h3 h4 => exact .cond (by omega) h2 h3 h4

/-- the constants are those of C -/
def Consts (w : Nat) (ts : List Tok) : Prop := ∀ s, .num s ∈ ts ∨ .chr s ∈ ts → ∃ v, Const w s v

theorem Consts.append {ts us : List Tok} (h : Consts w (ts ++ us)) : Consts w us :=
  fun s hs => h s (hs.imp (List.mem_append_right _) (List.mem_append_right _))
theorem Consts.tail {t : Tok} {us : List Tok} (h : Consts w (t :: us)) : Consts w us :=
  fun s hs => h s (hs.imp (List.mem_cons_of_mem _) (List.mem_cons_of_mem _))

/-- the level that a call with this `minprec` reads -/
def lev (m : Nat) : Nat := if m = 2 then 2 else if 13 ≤ m then 13 else m + 1

theorem accepted : ∀ n,
    (∀ ts m d v r, shrd w n ts m d = .ok (v, r) → m ≤ 13 → Consts w ts →
      ∃ us e, ts = us ++ r ∧ WritesM w 2 (lev m) e us ∧ Follow m r) ∧
    (∀ ts m d top v r, loop w n ts m d top = .ok (v, r) → m ≤ 13 → Consts w ts → ∀ ps k e0, WritesM w 2 k e0 ps → 1 ≤ k → lev m ≤ k → Follow k ts →
      ∃ us e, ts = us ++ r ∧ WritesM w 2 (lev m) e (ps ++ us) ∧ Follow m r) := by
  intro n
  induction n with
  | zero => exact ⟨fun _ _ _ _ _ h => by (unfold shrd at h; cases h), fun _ _ _ _ _ _ h => by (unfold loop at h; cases h)⟩
  | succ n ih =>
    obtain ⟨ih1, ih2⟩ := ih
    have hlev : ∀ m, m ≤ 13 → lev m ≤ 13 := by intro m hm; unfold lev; split <;> (try split) <;> omega
    constructor
    · intro ts m d v r h hm hc
      unfold shrd at h
      split at h
      · cases h
      · rename_i r0
        obtain ⟨⟨top, r1⟩, h1, h2⟩ := bind_ok h
        obtain ⟨us, e, rfl, h3, h4⟩ := ih1 _ _ _ _ _ h1 (by omega) hc.tail
        dsimp only at h2
        split at h2
        · rename_i r2
          obtain ⟨us2, e2, rfl, h5, h6⟩ := ih2 _ _ _ _ _ _ h2 hm hc.tail.append.tail (.lpar :: us ++ [.rpar]) 13 e
            (.paren (by omega) h3) (by omega) (hlev m hm) (follow13 _)
          exact ⟨_, e2, by simp, h5, h6⟩
        · cases h2
      · rename_i s r0
        obtain ⟨top, h1, h2⟩ := bind_ok h
        obtain ⟨v0, hv⟩ := hc s (.inl List.mem_cons_self)
        obtain ⟨us2, e2, rfl, h5, h6⟩ := ih2 _ _ _ _ _ _ h2 hm hc.tail [.num s] 13 (.lit v0)
          (.num (by omega) hv) (by omega) (hlev m hm) (follow13 _)
        exact ⟨_, e2, by simp, h5, h6⟩
      · rename_i s r0
        obtain ⟨top, h1, h2⟩ := bind_ok h
        obtain ⟨v0, hv⟩ := hc s (.inr List.mem_cons_self)
        obtain ⟨us2, e2, rfl, h5, h6⟩ := ih2 _ _ _ _ _ _ h2 hm hc.tail [.chr s] 13 (.lit v0)
          (.chr (by omega) hv) (by omega) (hlev m hm) (follow13 _)
        exact ⟨_, e2, by simp, h5, h6⟩
      · rename_i o r0
        obtain ⟨⟨top, r1⟩, h1, h2⟩ := bind_ok h
        obtain ⟨us, e, rfl, h3, h4⟩ := ih1 _ _ _ _ _ h1 (by omega) hc.tail
        obtain ⟨top', h7, h8⟩ := bind_ok h2
        obtain ⟨us2, e2, hr, h5, h6⟩ := ih2 _ _ _ _ _ _ h8 hm hc.tail.append (.un o :: us) 13 (.un o e)
          (.un (by omega) h3) (by omega) (hlev m hm) (follow13 _)
        subst hr
        exact ⟨_, e2, by simp, h5, h6⟩
      · cases h
    · intro ts m d top v r h hm hc ps k e0 h0 hk1 hk hf
      unfold loop at h
      split at h
      · rename_i o r0
        have hr := level_range o
        have hok : level o ≤ k := hf
        rw [prec_level] at h
        split at h
        · rename_i hlt
          -- the operand read, the new tree
          have step : ∀ (v1 : V w) (r1 : List Tok) (d1 : Bool), shrd w n r0 (level o) d1 = .ok (v1, r1) →
              ∃ us e1, r0 = us ++ r1 ∧ WritesM w 2 (level o) (.bin o e0 e1) (ps ++ .bin o :: us) ∧ Follow (level o) r1 := by
            intro v1 r1 d1 h1
            obtain ⟨us, e1, rfl, h3, h4⟩ := ih1 _ _ _ _ _ h1 (by omega) hc.tail
            have : lev (level o) = level o + 1 := by unfold lev; rw [if_neg hr.2.2, if_neg (by omega)]
            rw [this] at h3
            exact ⟨us, e1, rfl, .bin (Nat.le_refl _) (h0.mono hok) h3, h4⟩
          have hl2 : lev m ≤ level o := by
            unfold lev; split
            · omega
            · split <;> omega
          split at h
          · obtain ⟨⟨top1, r1⟩, h1, h2⟩ := bind_ok h
            obtain ⟨us, e1, rfl, h3, h4⟩ := step _ _ _ h1
            obtain ⟨us2, e2, hr2, h5, h6⟩ := ih2 _ _ _ _ _ _ h2 hm hc.tail.append _ _ _ h3 hr.1 hl2 h4
            subst hr2
            exact ⟨.bin o :: us ++ us2, e2, by simp, by simpa using h5, h6⟩
          · obtain ⟨⟨top1, r1⟩, h1, h2⟩ := bind_ok h
            obtain ⟨us, e1, rfl, h3, h4⟩ := step _ _ _ h1
            dsimp only at h2
            split at h2
            · obtain ⟨top2, h7, h8⟩ := bind_ok h2
              obtain ⟨us2, e2, rfl, h5, h6⟩ := ih2 _ _ _ _ _ _ h8 hm hc.tail.append _ _ _ h3 hr.1 hl2 h4
              exact ⟨.bin o :: us ++ us2, e2, by simp, by simpa using h5, h6⟩
            · obtain ⟨us2, e2, rfl, h5, h6⟩ := ih2 _ _ _ _ _ _ h2 hm hc.tail.append _ _ _ h3 hr.1 hl2 h4
              exact ⟨.bin o :: us ++ us2, e2, by simp, by simpa using h5, h6⟩
        · rename_i hlt
          cases h
          exact ⟨[], e0, rfl, by simpa using h0.mono hk, (by omega : level o ≤ m)⟩
      · rename_i r0
        split at h
        · rename_i hm2
          have hk3 : 3 ≤ k := hf
          obtain ⟨⟨top1, r1⟩, h1, h2⟩ := bind_ok h
          obtain ⟨us, e1, rfl, h3, h4⟩ := ih1 _ _ _ _ _ h1 (by omega) hc.tail
          dsimp only at h2
          split at h2
          · rename_i r2
            obtain ⟨⟨top2, r3⟩, h5, h6⟩ := bind_ok h2
            obtain ⟨us2, e2, rfl, h7, h8⟩ := ih1 _ _ _ _ _ h5 (by omega) hc.tail.append.tail
            have hl2 : lev m ≤ 2 := by unfold lev; split <;> (try split) <;> omega
            obtain ⟨us3, e3, hr3, h9, h10⟩ := ih2 _ _ _ _ _ _ h6 hm hc.tail.append.tail.append _ 2 (.cond e0 e1 e2)
              (.cond (Nat.le_refl _) (h0.mono hk3) h3 h7) (by omega) hl2 h8
            dsimp only at hr3
            subst hr3
            exact ⟨.quest :: us ++ .colon :: us2 ++ us3, e3, by simp, by simpa using h9, h10⟩
          · cases h2
        · rename_i hm2
          cases h
          exact ⟨[], e0, rfl, by simpa using h0.mono hk, (by omega : 3 ≤ m)⟩
      · rename_i hnb hnq
        cases h
        refine ⟨[], e0, rfl, by simpa using h0.mono hk, ?_⟩
        unfold Follow
        split
        · exact absurd rfl (hnb _ _)
        · exact absurd rfl (hnq _)
        · trivial

end Smlr.Eval
