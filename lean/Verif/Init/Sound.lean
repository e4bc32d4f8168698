import Verif.Init.Lemmas

/-! # Initialisers: the emitted data is what the initialiser means -/
set_option autoImplicit false

namespace Smlr.Init

def Ends (r : List Tok) : Prop := r.head? = some .rb

/-- the code `f` for an object of `sz` bytes does what `g` says -/
def Sound (f : List Tok → Option (List Cell × List Tok)) (g : Nat → List Ini → Option (Pl × List Ini)) (sz : Nat) : Prop :=
  ∀ ts out r, ¬ Ends ts → f ts = some (out, r) →
    ∃ l tc, l ≠ [] ∧ ts = flatL l ++ (tcs tc ++ r) ∧ (tc = true → Ends r) ∧
      ∀ o, ∃ pl, Within o (o + sz) pl ∧ img o sz pl = out ∧ ∀ more, (Ends r → more = []) → g o (l ++ more) = some (pl, more)

theorem lits_ok (w : Bool) (ts : List Tok) (s : List Nat) (r : List Tok) (h : lits w ts = some (s, r)) :
    ∃ ps : List (List Nat), ts = ps.map (.lit w) ++ r ∧ s = ps.flatten := by
  induction ts generalizing s r with
  | nil =>
    simp only [lits, Option.some.injEq, Prod.mk.injEq] at h
    exact ⟨[], by simp [h.2], by simp [h.1]⟩
  | cons t ts ih =>
    cases t
    case lit w' s' =>
      rw [lits] at h
      split at h
      · rename_i e
        obtain ⟨a, h1, h⟩ := Option.bind_eq_some_iff.mp h
        simp only [Option.some.injEq, Prod.mk.injEq] at h
        obtain ⟨ps, h2, h3⟩ := ih a.1 a.2 h1
        exact ⟨s' :: ps, by simp [h2, ← h.2, e], by simp [← h.1, h3]⟩
      · cases h
    all_goals
      simp only [lits, Option.some.injEq, Prod.mk.injEq] at h
      exact ⟨[], by simp [h.2], by simp [h.1]⟩

/-- plain initialisers: no braces -/
theorem value_ok (ts : List Tok) (v : V) (r : List Tok) (h : value ts = some (v, r)) :
    ∃ i, ts = flat i ++ r ∧ scalarOf i = some v ∧ scalarOf (.br [i] false) = some v := by
  unfold value at h
  split at h
  · simp only [Option.some.injEq, Prod.mk.injEq] at h
    rename_i l v' r'
    refine ⟨.ex l v', ?_, ?_, ?_⟩
    · simp [flat, h.2]
    · simp [scalarOf, h.1]
    · simp [scalarOf, h.1]
  · obtain ⟨a, h1, h⟩ := Option.bind_eq_some_iff.mp h
    simp only [Option.some.injEq, Prod.mk.injEq] at h
    rename_i w s r' _
    obtain ⟨ps, h2, h3⟩ := lits_ok _ _ _ _ h1
    refine ⟨.lit w s ps, ?_, ?_, ?_⟩
    · simp [flat, h2, h.2]
    · simp [scalarOf, ← h.1, h3]
    · simp [scalarOf, ← h.1, h3]
  · cases h

theorem opened_cases (ts : List Tok) : (∃ r, ts = .lb :: r ∧ opened ts = (true, r)) ∨ (ts.head? ≠ some .lb ∧ opened ts = (false, ts)) := by
  cases ts with
  | nil => right; simp [opened]
  | cons t ts => cases t <;> simp [opened]

theorem close_true {ts r : List Tok} (h : close true ts = some r) : ts = .rb :: r := by
  unfold close at h
  rw [if_pos rfl] at h
  split at h
  · simp only [Option.some.injEq] at h; rw [h]
  · cases h

theorem close_false {ts r : List Tok} (h : close false ts = some r) : ts = r := by
  simpa [close] using h

theorem scalar_sound (W n : Nat) (k : Option Bool) : Sound (initScalar W n) (fun o l => sub W (.sc n k) o l) n := by
  intro ts out r _ h
  unfold initScalar at h
  obtain ⟨⟨v, r1⟩, h1, h⟩ := Option.bind_eq_some_iff.mp h
  obtain ⟨r2, h2, h⟩ := Option.bind_eq_some_iff.mp h
  obtain ⟨c, h3, h⟩ := Option.bind_eq_some_iff.mp h
  simp only [Option.some.injEq, Prod.mk.injEq] at h
  obtain ⟨rfl, rfl⟩ := h
  dsimp only at h2 h3
  rw [cells_eq] at h3
  obtain ⟨i, e1, e2, e3⟩ := value_ok _ _ _ h1
  have len := scalarBytes_length h3
  have fin : ∀ j, scalarOf j = some v → ∀ o, ∃ pl, Within o (o + n) pl ∧ img o n pl = c ∧ ∀ more, (Ends r2 → more = []) → sub W (.sc n k) o ([j] ++ more) = some (pl, more) := by
    intro j hj o
    refine ⟨[(o, c)], ?_, ?_, ?_⟩
    · intro p hp
      rw [List.mem_singleton.mp hp]
      simp [len]
    · have := img_one o c
      rwa [len] at this
    · intro more _
      simp [sub, hj, h3]
  rcases opened_cases ts with ⟨r', rfl, e⟩ | ⟨_, e⟩
  · rw [e] at e1 h2
    have := close_true h2
    dsimp only at e1
    refine ⟨[.br [i] false], false, by simp, ?_, by simp, fin _ e3⟩
    rw [e1, this]
    simp [flatL, flat, tcs]
  · rw [e] at e1 h2
    have := close_false h2
    exact ⟨[i], false, by simp, by simp [flatL, tcs, ← this]; exact e1, by simp, fin _ e2⟩

theorem lastComma_ok (br : Bool) (r : List Tok) : ∃ tc, r = tcs tc ++ lastComma br r ∧ (tc = true → br = true ∧ r.head? = some .comma) := by
  unfold lastComma
  split
  · split
    · exact ⟨true, by simp [tcs], by simp; assumption⟩
    · exact ⟨false, by simp [tcs], by simp⟩
  · exact ⟨false, by simp [tcs], by simp⟩

theorem ends_rb (r : List Tok) : Ends (.rb :: r) := rfl

theorem not_ends_comma (r : List Tok) : ¬ Ends (.comma :: r) := by simp [Ends]

theorem ends_cases (r : List Tok) (h : Ends r) : ∃ r', r = .rb :: r' := by
  cases r with
  | nil => simp [Ends] at h
  | cons t r =>
    have : t = .rb := by simpa [Ends] using h
    exact ⟨r, by rw [this]⟩

theorem tcs_false (r : List Tok) : tcs false ++ r = r := rfl

/-- a first element and what follows it -/
theorem join (l1 l2 : List Ini) (tc1 tc2 : Bool) (r1 r : List Tok) (h1 : l1 ≠ []) (ht : tc1 = true → Ends r1) :
    (r1 = .comma :: (flatL l2 ++ (tcs tc2 ++ r)) ∧ (l2 = [] → tc2 = false ∧ Ends r) → ∃ tc, flatL l1 ++ (tcs tc1 ++ r1) = flatL (l1 ++ l2) ++ (tcs tc ++ r) ∧ (tc = true → tc2 = true ∨ Ends r)) ∧
    (r1 = r ∧ l2 = [] → ∃ tc, flatL l1 ++ (tcs tc1 ++ r1) = flatL (l1 ++ l2) ++ (tcs tc ++ r) ∧ (tc = true → tc2 = true ∨ Ends r)) := by
  constructor
  · rintro ⟨e, h⟩
    have : tc1 = false := by
      cases tc1 with
      | false => rfl
      | true => exact absurd (e ▸ ht rfl) (not_ends_comma _)
    subst this
    by_cases h2 : l2 = []
    · obtain ⟨h3, h4⟩ := h h2
      subst h3; subst h2
      exact ⟨true, by simp [e, tcs, flatL], fun _ => Or.inr h4⟩
    · exact ⟨tc2, by rw [flatL_append _ _ h1 h2, e, tcs_false]; simp, fun h => Or.inl h⟩
  · rintro ⟨rfl, rfl⟩
    exact ⟨tc1, by simp, fun h => Or.inr (ht h)⟩

theorem arrLoop_ok {f : List Tok → Option (List Cell × List Tok)} {g : Nat → List Ini → Option (Pl × List Ini)} {sz : Nat} (hf : Sound f g sz) (br : Bool) (n : Nat) :
    ∀ (fuel cnt : Nat) (ts out : _) (cnt' : Nat) (r : List Tok), (n = 0 ∨ cnt < n) → arrLoop f br n fuel cnt ts = some (out, cnt', r) →
      ∃ k l tc, cnt' = cnt + k ∧ (n = 0 ∨ cnt + k ≤ n) ∧ (n = 0 ∨ cnt + k < n → Ends r) ∧ ts = flatL l ++ (tcs tc ++ r) ∧ (tc = true → br = true ∨ Ends r) ∧
        (l = [] → k = 0 ∧ tc = false ∧ Ends r) ∧ (k = 0 → l = []) ∧
        ∀ o, ∃ pl, Within o (o + k * sz) pl ∧ img o (k * sz) pl = out ∧ (∀ more, (Ends r → more = []) → fill g sz k o (l ++ more) = some (pl, more)) ∧
          ∀ j, j < k → ∃ pl' l', fill g sz j o l = some (pl', l') ∧ l' ≠ [] := by
  intro fuel
  induction fuel with
  | zero => intro cnt ts out cnt' r _ h; rw [arrLoop] at h; cases h
  | succ fuel ih =>
    intro cnt ts out cnt' r hn h
    by_cases hts : Ends ts
    · obtain ⟨r0, e0⟩ := ends_cases _ hts
      subst e0
      rw [arrLoop] at h
      simp only [Option.some.injEq, Prod.mk.injEq] at h
      obtain ⟨rfl, rfl, rfl⟩ := h
      refine ⟨0, [], false, rfl, by omega, fun _ => ends_rb _, by simp [flatL, tcs], by simp, by simp [ends_rb], by simp, ?_⟩
      intro o
      exact ⟨[], Within.nil, by simp [img], by intro more _; simp [fill], by intro j hj; omega⟩
    · have hne : ∀ r0, ts = .rb :: r0 → False := fun r0 e => hts (e ▸ ends_rb r0)
      rw [arrLoop] at h
      rotate_left
      · exact hne
      obtain ⟨⟨out1, r1⟩, h1, h⟩ := Option.bind_eq_some_iff.mp h
      obtain ⟨l1, tc1, e1, e2, e3, e4⟩ := hf _ _ _ hts h1
      -- one more round
      have step : ∀ (r2 : List Tok) (out2 : List Cell), (r1 = .comma :: r2 ∨ (r1 = r2 ∧ Ends r2)) → (n = 0 ∨ cnt + 1 < n) → arrLoop f br n fuel (cnt + 1) r2 = some (out2, cnt', r) → out1 ++ out2 = out →
          ∃ k l tc, cnt' = cnt + k ∧ (n = 0 ∨ cnt + k ≤ n) ∧ (n = 0 ∨ cnt + k < n → Ends r) ∧ ts = flatL l ++ (tcs tc ++ r) ∧ (tc = true → br = true ∨ Ends r) ∧
            (l = [] → k = 0 ∧ tc = false ∧ Ends r) ∧ (k = 0 → l = []) ∧
            ∀ o, ∃ pl, Within o (o + k * sz) pl ∧ img o (k * sz) pl = out ∧ (∀ more, (Ends r → more = []) → fill g sz k o (l ++ more) = some (pl, more)) ∧
              ∀ j, j < k → ∃ pl' l', fill g sz j o l = some (pl', l') ∧ l' ≠ [] := by
        intro r2 out2 hr hlt hrec hout
        obtain ⟨k, l2, tc2, f1, f2, f3, f4, f5, f6, f7, f8⟩ := ih _ _ _ _ _ hlt hrec
        have hjoin : (∃ tc, flatL l1 ++ (tcs tc1 ++ r1) = flatL (l1 ++ l2) ++ (tcs tc ++ r) ∧ (tc = true → tc2 = true ∨ Ends r)) ∧ (Ends r1 → l2 = [] ∧ Ends r) := by
          rcases hr with hr | ⟨hr, he⟩
          · exact ⟨(join l1 l2 tc1 tc2 r1 r e1 e3).1 ⟨by rw [hr, f4], fun h => (f6 h).2⟩, fun h => absurd (hr ▸ h) (not_ends_comma _)⟩
          · have : l2 = [] := by
              cases l2 with
              | nil => rfl
              | cons i l =>
                obtain ⟨r', e⟩ := ends_cases _ he
                rw [e] at f4
                cases l <;> cases i <;> simp [flatL, flat] at f4
            have f6' := f6 this
            subst this
            rw [f6'.2.1] at f4
            have e5 : r2 = r := by rw [f4]; simp [flatL, tcs]
            exact ⟨(join l1 [] tc1 tc2 r1 r e1 e3).2 ⟨by rw [hr, e5], rfl⟩, fun _ => ⟨rfl, f6'.2.2⟩⟩
        obtain ⟨⟨tc, j1, j2⟩, j3⟩ := hjoin
        refine ⟨k + 1, l1 ++ l2, tc, by omega, by omega, fun h => f3 (by omega), by rw [e2, j1], ?_, by simp [e1], by simp, ?_⟩
        · intro h
          rcases j2 h with h | h
          · exact f5 h
          · exact Or.inr h
        · intro o
          obtain ⟨p1, a1, a2, a3⟩ := e4 o
          obtain ⟨p2, b1, b2, b3, b4⟩ := f8 (o + sz)
          have em : (k + 1) * sz = sz + k * sz := by rw [Nat.succ_mul, Nat.add_comm]
          have first : ∀ more, (Ends r → more = []) → g o (l1 ++ (l2 ++ more)) = some (p1, l2 ++ more) := by
            intro more hm
            apply a3
            intro he
            obtain ⟨q1, q2⟩ := j3 he
            rw [q1, hm q2]; rfl
          have cons : ∃ i l, l1 = i :: l := by
            cases l1 with
            | nil => exact absurd rfl e1
            | cons i l => exact ⟨i, l, rfl⟩
          obtain ⟨i, l, ec⟩ := cons
          have unfold1 : ∀ j more, fill g sz (j + 1) o (l1 ++ more) = (g o (l1 ++ more)).bind fun a => (fill g sz j (o + sz) a.2).bind fun b => some (a.1 ++ b.1, b.2) := by
            intro j more
            rw [ec, List.cons_append, fill]
          refine ⟨p1 ++ p2, ?_, ?_, ?_, ?_⟩
          · rw [em]
            exact (a1.mono (Nat.le_refl _) (by omega)).append (b1.mono (by omega) (by omega))
          · rw [em, img_two a1 b1, a2, b2, hout]
          · intro more hm
            rw [List.append_assoc, unfold1, first more hm, Option.bind_some, b3 more hm]
            rfl
          · intro j hj
            cases j with
            | zero => exact ⟨[], l1 ++ l2, rfl, by simp [e1]⟩
            | succ j =>
              obtain ⟨p', l', c1, c2⟩ := b4 j (by omega)
              refine ⟨p1 ++ p', l', ?_, c2⟩
              have := first [] (fun _ => rfl)
              rw [List.append_nil] at this
              rw [unfold1, this, Option.bind_some, c1]
              rfl
      split at h
      · -- the last one
        rename_i hlast
        simp only [Option.some.injEq, Prod.mk.injEq] at h
        obtain ⟨rfl, rfl, rfl⟩ := h
        obtain ⟨tc, q1, q2⟩ := lastComma_ok br r1
        have q3 : Ends r1 → tc = false ∧ r1 = lastComma br r1 := by
          intro he
          cases tc with
          | false => exact ⟨rfl, q1⟩
          | true =>
            have := (q2 rfl).2
            rw [Ends, this] at he
            simp at he
        refine ⟨1, l1, tc || tc1, rfl, by omega, by omega, ?_, ?_, by simp [e1], by simp, ?_⟩
        · cases tc1 with
          | false => rw [Bool.or_false, ← q1, e2]; rfl
          | true =>
            have := (q3 (e3 rfl)).2
            rw [Bool.or_true, ← this, e2]
        · intro h
          cases tc with
          | true => exact Or.inl (q2 rfl).1
          | false =>
            rw [Bool.false_or] at h
            have e5 := e3 h
            rw [(q3 e5).2] at e5
            exact Or.inr e5
        · intro o
          obtain ⟨p1, a1, a2, a3⟩ := e4 o
          refine ⟨p1, by simpa using a1, by simpa using a2, ?_, ?_⟩
          · intro more hm
            have := a3 more (fun he => hm (by rw [← (q3 he).2]; exact he))
            cases l1 with
            | nil => exact absurd rfl e1
            | cons i l =>
              rw [List.cons_append] at this ⊢
              rw [fill, this]
              simp [fill]
          · intro j hj
            have : j = 0 := by omega
            subst this
            exact ⟨[], l1, rfl, e1⟩
      · rename_i hlast
        have hlt : n = 0 ∨ cnt + 1 < n := by omega
        dsimp only at h
        split at h
        · obtain ⟨⟨out2, c2, r'⟩, h2, h⟩ := Option.bind_eq_some_iff.mp h
          simp only [Option.some.injEq, Prod.mk.injEq] at h
          obtain ⟨rfl, rfl, rfl⟩ := h
          exact step _ out2 (Or.inl rfl) hlt h2 rfl
        · obtain ⟨⟨out2, c2, r'⟩, h2, h⟩ := Option.bind_eq_some_iff.mp h
          simp only [Option.some.injEq, Prod.mk.injEq] at h
          obtain ⟨rfl, rfl, rfl⟩ := h
          exact step _ out2 (Or.inr ⟨rfl, ends_rb _⟩) hlt h2 rfl
        · cases h

/-! ## arrays -/

theorem arrOf_str {g : Nat → List Ini → Option (Pl × List Ini)} {n sz : Nat} {k : Option Bool} {o : Nat} {i : Ini} {r : List Ini} {s : List Nat} (h : strOf k i = some s) (hs : s.length ≤ n) :
    arrOf g n sz k o (i :: r) = some (chars sz o s, r) := by
  rw [arrOf, h]
  exact if_pos hs

theorem arrOf_list {g : Nat → List Ini → Option (Pl × List Ini)} {n sz : Nat} {k : Option Bool} {o : Nat} {i : Ini} {r : List Ini} (h : strOf k i = none) (hb : begins k i = false) :
    arrOf g n sz k o (i :: r) = aggr (fill g sz n o) (i :: r) := by
  rw [arrOf, h]
  simp [hb]

/-- a braced list of initialisers for an aggregate -/
theorem aggr_br {g : List Ini → Option (Pl × List Ini)} {l r : List Ini} {tc : Bool} (h : l ≠ []) : aggr g (.br l tc :: r) = whole (g l) r := by
  cases l with
  | nil => exact absurd rfl h
  | cons i l => rfl

theorem aggr_plain {g : List Ini → Option (Pl × List Ini)} {i : Ini} {r : List Ini} (h : ∀ l tc, i ≠ .br l tc) : aggr g (i :: r) = g (i :: r) := by
  cases i with
  | br l tc => exact absurd rfl (h l tc)
  | _ => rfl

/-- no string literal for the whole array -/
theorem strOf_none {k : Option Bool} {i : Ini} {l : List Ini} {x : List Tok} (h : strStart k (flatL (i :: l) ++ x) = false) (hb : ∀ l tc, i ≠ .br l tc) : strOf k i = none := by
  cases i with
  | br l tc => exact absurd rfl (hb l tc)
  | ex l v => rfl
  | lit w p ps =>
    have : strStart k (flatL (.lit w p ps :: l) ++ x) = (k == some w) := by
      cases l <;> simp [flatL, flat, strStart]
    rw [this] at h
    simp only [strOf]
    rw [if_neg]
    intro e
    simp [e] at h

theorem strOf_br_none {k : Option Bool} {l : List Ini} {tc : Bool} {x : List Tok} (h : strStart k (flatL l ++ x) = false) : strOf k (.br l tc) = none := by
  match l with
  | [] => rfl
  | [.br l tc] => rfl
  | [.ex l v] => rfl
  | [.lit w p ps] =>
    have := strOf_none h (by intro l tc e; cases e)
    cases tc with
    | true => rfl
    | false => exact this
  | _ :: _ :: _ => simp [strOf]

theorem begins_br {k : Option Bool} {l : List Ini} {tc : Bool} {x : List Tok} (h : strStart k (flatL l ++ x) = false) : begins k (.br l tc) = false := by
  match l with
  | [] => rfl
  | .br l tc :: _ => rfl
  | .ex l v :: _ => rfl
  | .lit w p ps :: l =>
    have : strStart k (flatL (.lit w p ps :: l) ++ x) = (k == some w) := by
      cases l <;> simp [flatL, flat, strStart]
    rw [this] at h
    exact h

theorem begins_plain {k : Option Bool} {i : Ini} (h : ∀ l tc, i ≠ .br l tc) : begins k i = false := by
  cases i with
  | br l tc => exact absurd rfl (h l tc)
  | _ => rfl

theorem not_br {i : Ini} {l : List Ini} {x : List Tok} (h : (flatL (i :: l) ++ x).head? ≠ some .lb) : ∀ l tc, i ≠ .br l tc := by
  intro m tc e
  subst e
  cases l <;> simp [flatL, flat] at h

/-- a string literal for an array -/
theorem str_ok {f : List Tok → Option (List Cell × List Tok)} {n sz : Nat} {k : Option Bool} {ts : List Tok} {out : List Cell} {c : Nat} {r : List Tok} (h : initArr f n sz k ts = some (out, c, r))
    (hs : strStart k (opened ts).2 = true) :
    ∃ i s, ts = flat i ++ r ∧ strOf k i = some s ∧ (n ≠ 0 → s.length ≤ n ∧ c = n) ∧ (n = 0 → c = s.length + 1) ∧ ∀ o, out = img o (c * sz) (chars sz o s) := by
  unfold initArr at h
  dsimp only at h
  rw [if_pos hs] at h
  split at h
  · rename_i w s r0 e0
    obtain ⟨⟨s', r1⟩, h1, h⟩ := Option.bind_eq_some_iff.mp h
    dsimp only at h
    split at h
    · cases h
    · rename_i hlen
      obtain ⟨r2, h2, h⟩ := Option.bind_eq_some_iff.mp h
      simp only [Option.some.injEq, Prod.mk.injEq] at h
      obtain ⟨h3, h4, rfl⟩ := h
      obtain ⟨ps, e1, e2⟩ := lits_ok _ _ _ _ h1
      subst e2
      have hk : k = some w := by
        rw [e0] at hs
        simpa [strStart] using hs
      have himg : ∀ o, out = img o (c * sz) (chars sz o (s ++ ps.flatten)) := by
        intro o
        rw [← h3, ← h4]
        by_cases hn : n = 0
        · subst hn
          rw [if_pos rfl, if_pos rfl, Nat.succ_mul, img_tail (chars_within _ _ _), chars_img]
          simp [zeros]
        · rw [if_neg hn, if_neg hn]
          have : n * sz = (s ++ ps.flatten).length * sz + (n - (s ++ ps.flatten).length) * sz := by
            rw [← Nat.add_mul]
            congr 1
            omega
          rw [this, img_tail (chars_within _ _ _), chars_img]
          simp
      have hc : (n ≠ 0 → (s ++ ps.flatten).length ≤ n ∧ c = n) ∧ (n = 0 → c = (s ++ ps.flatten).length + 1) := by
        rw [← h4]
        by_cases hn : n = 0
        · simp [hn]
        · simp [hn] at hlen ⊢
          omega
      rcases opened_cases ts with ⟨r', rfl, e⟩ | ⟨_, e⟩
      · rw [e] at h2 e0
        have := close_true h2
        dsimp only at e0
        refine ⟨.br [.lit w s ps] false, s ++ ps.flatten, ?_, ?_, hc.1, hc.2, himg⟩
        · rw [e0, e1, this]
          simp [flat, flatL, tcs]
        · simp [strOf, hk]
      · rw [e] at h2 e0
        have := close_false h2
        dsimp only at e0
        refine ⟨.lit w s ps, s ++ ps.flatten, ?_, ?_, hc.1, hc.2, himg⟩
        · rw [e0, e1, this]
          simp [flat]
        · simp [strOf, hk]
  · cases h

/-- braces around the list of an aggregate, or none -/
theorem wrap {ts : List Tok} {l : List Ini} {tc : Bool} {r1 r : List Tok} (hts : (opened ts).2 = flatL l ++ (tcs tc ++ r1)) (hc : close (opened ts).1 r1 = some r) (hl : l ≠ []) (ht : tc = true → (opened ts).1 = true ∨ Ends r1) :
    (∃ r', ts = .lb :: r' ∧ r1 = .rb :: r ∧ ts = flatL [.br l tc] ++ (tcs false ++ r)) ∨
    (ts.head? ≠ some .lb ∧ r1 = r ∧ ts = flatL l ++ (tcs tc ++ r) ∧ (tc = true → Ends r)) := by
  rcases opened_cases ts with ⟨r', rfl, e⟩ | ⟨e0, e⟩
  · left
    rw [e] at hts hc
    have := close_true hc
    dsimp only at hts
    refine ⟨r', rfl, this, ?_⟩
    rw [hts, this]
    simp [flat, flatL, tcs]
  · right
    rw [e] at hts hc ht
    have := close_false hc
    dsimp only at hts
    refine ⟨e0, this, by rw [hts, this], ?_⟩
    intro h
    rcases ht h with h | h
    · cases h
    · rwa [this] at h

theorem opened_ends {ts : List Tok} (h : ¬ Ends ts) (hc : (opened ts).1 = false) : ¬ Ends (opened ts).2 := by
  rcases opened_cases ts with ⟨r', rfl, e⟩ | ⟨e0, e⟩
  · rw [e] at hc; cases hc
  · rw [e]; exact h

/-- an array with a list of initialisers -/
theorem list_ok {f : List Tok → Option (List Cell × List Tok)} {g : Nat → List Ini → Option (Pl × List Ini)} {n sz : Nat} (hf : Sound f g sz) {k : Option Bool} {ts : List Tok} {out : List Cell} {c : Nat} {r : List Tok}
    (he : ¬ Ends ts) (h : initArr f n sz k ts = some (out, c, r)) (hs : strStart k (opened ts).2 = false) :
    ∃ l tc m, l ≠ [] ∧ ts = flatL l ++ (tcs tc ++ r) ∧ (tc = true → Ends r) ∧ c = (if n = 0 then m + 1 else n) ∧ m + 1 ≤ c ∧ (∀ i ∈ l.head?, strOf k i = none) ∧
      (∀ o, ∃ pl, Within o (o + c * sz) pl ∧ img o (c * sz) pl = out ∧ ∀ more, (Ends r → more = []) → arrOf g c sz k o (l ++ more) = some (pl, more)) ∧
      (ts.head? = some .lb → l.length = 1 ∧ tc = false ∧ ∀ o, arrOf g m sz k o l = none) := by
  unfold initArr at h
  dsimp only at h
  rw [if_neg (by simp [hs])] at h
  obtain ⟨⟨out1, c1, r1⟩, h1, h⟩ := Option.bind_eq_some_iff.mp h
  dsimp only at h
  split at h
  · cases h
  rename_i hz
  obtain ⟨r2, h2, h⟩ := Option.bind_eq_some_iff.mp h
  simp only [Option.some.injEq, Prod.mk.injEq] at h
  obtain ⟨h3, h4, rfl⟩ := h
  obtain ⟨k1, l, tc, a1, a2, a3, a4, a5, a6, a7, a8⟩ := arrLoop_ok hf _ _ _ _ _ _ _ _ (by omega) h1
  rw [Nat.zero_add] at a1 a2 a3
  subst a1
  have hl : l ≠ [] := by
    intro e
    have := a6 e
    cases hb : (opened ts).1 with
    | true => exact hz ⟨hb, this.1⟩
    | false =>
      apply opened_ends he hb
      rw [a4, e, this.2.1]
      simpa [flatL, tcs] using this.2.2
  obtain ⟨m, em⟩ : ∃ m, c1 = m + 1 := by
    cases c1 with
    | zero => exact absurd (a7 rfl) hl
    | succ m => exact ⟨m, rfl⟩
  subst em
  -- the data
  have data : ∀ o, ∃ pl, Within o (o + c * sz) pl ∧ img o (c * sz) pl = out ∧ (∀ more, (Ends r1 → more = []) → fill g sz c o (l ++ more) = some (pl, more)) ∧ ∃ pl' l', fill g sz m o l = some (pl', l') ∧ l' ≠ [] := by
    intro o
    obtain ⟨pl, b1, b2, b3, b4⟩ := a8 o
    have b5 := b4 m (by omega)
    by_cases hn : n = 0
    · subst hn
      rw [if_pos rfl] at h4
      refine ⟨pl, by rw [← h4]; exact b1, ?_, by rw [← h4]; exact b3, b5⟩
      rw [← h4, b2, ← h3]
      simp [zeros]
    · rw [if_neg hn] at h4
      have e : c * sz = (m + 1) * sz + (n - (m + 1)) * sz := by
        rw [← Nat.add_mul]
        congr 1
        omega
      refine ⟨pl, b1.mono (Nat.le_refl _) (by omega), ?_, ?_, b5⟩
      · rw [e, img_tail b1, b2, h3]
      · intro more hm
        by_cases hlt : m + 1 < n
        · have := hm (a3 (Or.inr hlt))
          subst this
          have b6 := fill_more _ _ _ (n - (m + 1)) _ _ _ (b3 [] (fun _ => rfl))
          have : m + 1 + (n - (m + 1)) = c := by omega
          rwa [this] at b6
        · have : m + 1 = c := by omega
          rw [← this]
          exact b3 more hm
  have hcm : m + 1 ≤ c := by
    rw [← h4]
    split <;> omega
  obtain ⟨i, l', el⟩ : ∃ i l', l = i :: l' := by
    cases l with
    | nil => exact absurd rfl hl
    | cons i l => exact ⟨i, l, rfl⟩
  rcases wrap a4 h2 hl a5 with ⟨r', e1, e2, e3⟩ | ⟨e1, e2, e3, e4⟩
  · have hno : strOf k (.br l tc) = none := by
      rw [a4] at hs
      exact strOf_br_none hs
    have hbg : begins k (.br l tc) = false := by
      rw [a4] at hs
      exact begins_br hs
    refine ⟨[.br l tc], false, m, by simp, e3, by simp, h4.symm, hcm, ?_, ?_, ?_⟩
    · intro x hx
      simp only [List.head?_cons, Option.mem_def, Option.some.injEq] at hx
      rw [← hx]; exact hno
    · intro o
      obtain ⟨pl, b1, b2, b3, b4⟩ := data o
      refine ⟨pl, b1, b2, ?_⟩
      intro more hm
      rw [List.singleton_append, arrOf_list hno hbg, aggr_br hl]
      have := b3 [] (fun _ => rfl)
      rw [List.append_nil] at this
      rw [this]
      rfl
    · intro _
      refine ⟨rfl, rfl, ?_⟩
      intro o
      obtain ⟨pl, b1, b2, b3, pl', l'', b4, b5⟩ := data o
      rw [arrOf_list hno hbg, aggr_br hl, b4]
      cases l'' with
      | nil => exact absurd rfl b5
      | cons _ _ => rfl
  · subst e2
    subst el
    have hnb := not_br (e3 ▸ e1)
    have hop : (opened ts).2 = ts := by
      rcases opened_cases ts with ⟨r', rfl, e⟩ | ⟨_, e⟩
      · exact absurd rfl e1
      · rw [e]
    have hno : strOf k i = none := by
      rw [hop, e3] at hs
      exact strOf_none hs hnb
    refine ⟨i :: l', tc, m, by simp, e3, e4, h4.symm, hcm, ?_, ?_, fun h => absurd h e1⟩
    · intro x hx
      simp only [List.head?_cons, Option.mem_def, Option.some.injEq] at hx
      rw [← hx]; exact hno
    · intro o
      obtain ⟨pl, b1, b2, b3, b4⟩ := data o
      refine ⟨pl, b1, b2, ?_⟩
      intro more hm
      rw [List.cons_append, arrOf_list hno (begins_plain hnb), aggr_plain hnb]
      exact b3 more hm

theorem arr_sound {f : List Tok → Option (List Cell × List Tok)} {g : Nat → List Ini → Option (Pl × List Ini)} {n sz : Nat} (hf : Sound f g sz) (hn : n ≠ 0) (k : Option Bool) :
    Sound (fun ts => (initArr f n sz k ts).bind fun a => some (a.1, a.2.2)) (arrOf g n sz k) (n * sz) := by
  intro ts out r he h
  obtain ⟨⟨out1, c, r1⟩, h1, h⟩ := Option.bind_eq_some_iff.mp h
  simp only [Option.some.injEq, Prod.mk.injEq] at h
  obtain ⟨rfl, rfl⟩ := h
  cases hs : strStart k (opened ts).2 with
  | true =>
    obtain ⟨i, s, a1, a2, a3, _, a4⟩ := str_ok h1 hs
    obtain ⟨a5, a6⟩ := a3 hn
    subst a6
    refine ⟨[i], false, by simp, by rw [a1]; simp [flatL, tcs], by simp, ?_⟩
    intro o
    refine ⟨chars sz o s, (chars_within sz s o).mono (Nat.le_refl _) ?_, (a4 o).symm, ?_⟩
    · exact Nat.add_le_add_left (Nat.mul_le_mul_right _ a5) _
    · intro more _
      exact arrOf_str a2 a5
  | false =>
    obtain ⟨l, tc, m, a1, a2, a3, a4, _, _, a5, _⟩ := list_ok hf he h1 hs
    rw [if_neg hn] at a4
    subst a4
    exact ⟨l, tc, a1, a2, a3, a5⟩

/-! ## structures and unions -/

mutual
theorem init_sound (W : Nat) : ∀ (t : Ty), WF t → Sound (fun ts => init W t ts) (fun o l => sub W t o l) (size t)
  | .sc n k, _ => by
    have := scalar_sound W n k
    intro ts out r he h
    dsimp only at h
    rw [init] at h
    exact this ts out r he h
  | .arr n t, hw => by
    rw [WF] at hw
    have := arr_sound (init_sound W t hw.2) hw.1 (kind t)
    intro ts out r he h
    dsimp only at h
    rw [init] at h
    rw [size]
    obtain ⟨l, tc, a1, a2, a3, a4⟩ := this ts out r he h
    refine ⟨l, tc, a1, a2, a3, ?_⟩
    intro o
    obtain ⟨pl, b1, b2, b3⟩ := a4 o
    refine ⟨pl, b1, b2, ?_⟩
    intro more hm
    dsimp only
    rw [sub]
    exact b3 more hm
  | .su u sz ms, hw => by
    rw [WF] at hw
    intro ts out r he h
    dsimp only at h
    rw [init] at h
    rw [size]
    obtain ⟨⟨out1, c1, r1⟩, h1, h⟩ := Option.bind_eq_some_iff.mp h
    dsimp only at h
    split at h
    · cases h
    rename_i hz
    obtain ⟨r2, h2, h⟩ := Option.bind_eq_some_iff.mp h
    simp only [Option.some.injEq, Prod.mk.injEq] at h
    obtain ⟨h3, rfl⟩ := h
    obtain ⟨l, tc, a1, a2, a3, a4, a5, a6⟩ := mem_sound W u _ sz ms 0 hw.2 (Nat.zero_le _) (fun _ => rfl) _ _ _ _ h1
    have hl : l ≠ [] := by
      intro e
      have := a3 e
      cases hb : (opened ts).1 with
      | true => exact hz ⟨hb, this.2.1⟩
      | false =>
        apply opened_ends he hb
        rw [a1, e, this.1]
        simpa [flatL, tcs] using this.2.2
    have data : ∀ o, ∃ pl, Within o (o + sz) pl ∧ img o sz pl = out ∧ ∀ more, (Ends r1 → more = []) → subs W u ms o (l ++ more) = some (pl, more) := by
      intro o
      obtain ⟨pl, b1, b2, b3⟩ := a6 o
      refine ⟨pl, b1.mono (by omega) (by omega), ?_, b3⟩
      have e : sz = c1 + (sz - c1) := by omega
      rw [Nat.add_zero] at b1 b2
      rw [e, img_tail b1]
      rw [Nat.sub_zero] at b2
      rw [b2, ← h3]
    obtain ⟨i, l', el⟩ : ∃ i l', l = i :: l' := by
      cases l with
      | nil => exact absurd rfl hl
      | cons i l => exact ⟨i, l, rfl⟩
    rcases wrap a1 h2 hl a2 with ⟨r', e1, e2, e3⟩ | ⟨e1, e2, e3, e4⟩
    · refine ⟨[.br l tc], false, by simp, e3, by simp, ?_⟩
      intro o
      obtain ⟨pl, b1, b2, b3⟩ := data o
      refine ⟨pl, b1, b2, ?_⟩
      intro more hm
      dsimp only
      rw [sub, List.singleton_append, aggr_br hl]
      have := b3 [] (fun _ => rfl)
      rw [List.append_nil] at this
      rw [this]
      rfl
    · subst e2
      subst el
      have hnb := not_br (e3 ▸ e1)
      refine ⟨i :: l', tc, by simp, e3, e4, ?_⟩
      intro o
      obtain ⟨pl, b1, b2, b3⟩ := data o
      refine ⟨pl, b1, b2, ?_⟩
      intro more hm
      dsimp only
      rw [sub, List.cons_append, aggr_plain hnb]
      exact b3 more hm

theorem mem_sound (W : Nat) (u br : Bool) (sz : Nat) : ∀ (ms : Mems) (ofs : Nat), WFs u sz ofs ms → ofs ≤ sz → (u = true → ofs = 0) → ∀ (ts : List Tok) (out : List Cell) (ofs' : Nat) (r : List Tok), memLoop W u br ms ofs ts = some (out, ofs', r) →
    ∃ l tc, ts = flatL l ++ (tcs tc ++ r) ∧ (tc = true → br = true ∨ Ends r) ∧ (l = [] → tc = false ∧ ofs' = ofs ∧ Ends r) ∧ ofs ≤ ofs' ∧ ofs' ≤ sz ∧
      ∀ o, ∃ pl, Within (o + ofs) (o + ofs') pl ∧ img (o + ofs) (ofs' - ofs) pl = out ∧ ∀ more, (Ends r → more = []) → subs W u ms o (l ++ more) = some (pl, more)
  | .nil, _, _, _, _, ts, out, ofs', r, h => by rw [memLoop] at h; cases h
  | .cons m t ms, ofs, hw, hle, hu, ts, out, ofs', r, h => by
    rw [WFs] at hw
    obtain ⟨w1, w2, w3, w4⟩ := hw
    have hofs : ofs ≤ m := by
      cases u with
      | true => rw [hu rfl]; exact Nat.zero_le _
      | false => simpa using w2
    by_cases hts : Ends ts
    · obtain ⟨r0, e0⟩ := ends_cases _ hts
      subst e0
      rw [memLoop] at h
      simp only [Option.some.injEq, Prod.mk.injEq] at h
      obtain ⟨rfl, rfl, rfl⟩ := h
      refine ⟨[], false, by simp [flatL, tcs], by simp, fun _ => ⟨rfl, rfl, ends_rb _⟩, Nat.le_refl _, hle, ?_⟩
      intro o
      refine ⟨[], Within.nil, by simp [img], ?_⟩
      intro more hm
      rw [hm (ends_rb _), List.append_nil, subs]
    · have hne : ∀ r0, ts = .rb :: r0 → False := fun r0 e => hts (e ▸ ends_rb r0)
      rw [memLoop] at h
      rotate_left
      · exact hne
      obtain ⟨⟨out1, r1⟩, h1, h⟩ := Option.bind_eq_some_iff.mp h
      obtain ⟨l1, tc1, e1, e2, e3, e4⟩ := init_sound W t w1 _ _ _ hts h1
      have data : ∀ o, ∃ pl, Within (o + m) (o + m + size t) pl ∧ img (o + ofs) (m + size t - ofs) pl = zeros (m - ofs) ++ out1 ∧ ∀ more, (Ends r1 → more = []) → sub W t (o + m) (l1 ++ more) = some (pl, more) := by
        intro o
        obtain ⟨pl, b1, b2, b3⟩ := e4 (o + m)
        refine ⟨pl, b1, ?_, b3⟩
        have x1 : m + size t - ofs = (m - ofs) + size t := by omega
        have x2 : o + m = o + ofs + (m - ofs) := by omega
        rw [x2] at b1 b2
        rw [x1, img_head b1, b2]
      obtain ⟨i1, l1', el1⟩ : ∃ i l', l1 = i :: l' := by
        cases l1 with
        | nil => exact absurd rfl e1
        | cons i l => exact ⟨i, l, rfl⟩
      -- the last member
      have last : (ms = .nil ∨ u = true) → zeros (m - ofs) ++ out1 = out → m + size t = ofs' → lastComma br r1 = r →
          ∃ l tc, ts = flatL l ++ (tcs tc ++ r) ∧ (tc = true → br = true ∨ Ends r) ∧ (l = [] → tc = false ∧ ofs' = ofs ∧ Ends r) ∧ ofs ≤ ofs' ∧ ofs' ≤ sz ∧
            ∀ o, ∃ pl, Within (o + ofs) (o + ofs') pl ∧ img (o + ofs) (ofs' - ofs) pl = out ∧ ∀ more, (Ends r → more = []) → subs W u (.cons m t ms) o (l ++ more) = some (pl, more) := by
        intro hlast ho hofs' hr
        subst hofs'
        subst hr
        obtain ⟨tc, q1, q2⟩ := lastComma_ok br r1
        have q3 : Ends r1 → tc = false ∧ r1 = lastComma br r1 := by
          intro he
          cases tc with
          | false => exact ⟨rfl, q1⟩
          | true =>
            have := (q2 rfl).2
            rw [Ends, this] at he
            simp at he
        refine ⟨l1, tc || tc1, ?_, ?_, by simp [e1], by omega, w3, ?_⟩
        · cases tc1 with
          | false => rw [Bool.or_false, ← q1, e2]; rfl
          | true =>
            have := (q3 (e3 rfl)).2
            rw [Bool.or_true, ← this, e2]
        · intro h
          cases tc with
          | true => exact Or.inl (q2 rfl).1
          | false =>
            rw [Bool.false_or] at h
            have e5 := e3 h
            rw [(q3 e5).2] at e5
            exact Or.inr e5
        · intro o
          obtain ⟨p1, a1, a2, a3⟩ := data o
          refine ⟨p1, a1.mono (by omega) (by omega), by rw [a2, ho], ?_⟩
          intro more hm
          have := a3 more (fun he => hm (by rw [← (q3 he).2]; exact he))
          rw [el1, List.cons_append] at this ⊢
          rw [subs]
          rw [this, Option.bind_some]
          rcases hlast with rfl | rfl
          · cases u with
            | true => rfl
            | false => simp [subs]
          · rfl
      -- further members
      have step : ∀ (r2 : List Tok) (out2 : List Cell), u = false → (r1 = .comma :: r2 ∨ (r1 = r2 ∧ Ends r2)) → memLoop W u br ms (m + size t) r2 = some (out2, ofs', r) → zeros (m - ofs) ++ out1 ++ out2 = out →
          ∃ l tc, ts = flatL l ++ (tcs tc ++ r) ∧ (tc = true → br = true ∨ Ends r) ∧ (l = [] → tc = false ∧ ofs' = ofs ∧ Ends r) ∧ ofs ≤ ofs' ∧ ofs' ≤ sz ∧
            ∀ o, ∃ pl, Within (o + ofs) (o + ofs') pl ∧ img (o + ofs) (ofs' - ofs) pl = out ∧ ∀ more, (Ends r → more = []) → subs W u (.cons m t ms) o (l ++ more) = some (pl, more) := by
        intro r2 out2 hu0 hr hrec hout
        obtain ⟨l2, tc2, f1, f2, f3, f4, f5, f6⟩ := mem_sound W u br sz ms (m + size t) w4 w3 (by rw [hu0]; simp) _ _ _ _ hrec
        have hjoin : (∃ tc, flatL l1 ++ (tcs tc1 ++ r1) = flatL (l1 ++ l2) ++ (tcs tc ++ r) ∧ (tc = true → tc2 = true ∨ Ends r)) ∧ (Ends r1 → l2 = [] ∧ Ends r) := by
          rcases hr with hr | ⟨hr, he⟩
          · exact ⟨(join l1 l2 tc1 tc2 r1 r e1 e3).1 ⟨by rw [hr, f1], fun h => ⟨(f3 h).1, (f3 h).2.2⟩⟩, fun h => absurd (hr ▸ h) (not_ends_comma _)⟩
          · have : l2 = [] := by
              cases l2 with
              | nil => rfl
              | cons i l =>
                obtain ⟨r', e⟩ := ends_cases _ he
                rw [e] at f1
                cases l <;> cases i <;> simp [flatL, flat] at f1
            have f3' := f3 this
            subst this
            rw [f3'.1] at f1
            have e5 : r2 = r := by rw [f1]; simp [flatL, tcs]
            exact ⟨(join l1 [] tc1 tc2 r1 r e1 e3).2 ⟨by rw [hr, e5], rfl⟩, fun _ => ⟨rfl, f3'.2.2⟩⟩
        obtain ⟨⟨tc, j1, j2⟩, j3⟩ := hjoin
        refine ⟨l1 ++ l2, tc, by rw [e2, j1], ?_, by simp [e1], by omega, f5, ?_⟩
        · intro h
          rcases j2 h with h | h
          · exact f2 h
          · exact Or.inr h
        · intro o
          obtain ⟨p1, a1, a2, a3⟩ := data o
          obtain ⟨p2, b1, b2, b3⟩ := f6 o
          have a1' : Within (o + ofs) (o + ofs + (m + size t - ofs)) p1 := a1.mono (by omega) (by omega)
          have x1 : ofs' - ofs = (m + size t - ofs) + (ofs' - (m + size t)) := by omega
          have x2 : o + (m + size t) = o + ofs + (m + size t - ofs) := by omega
          have b1' : Within (o + ofs + (m + size t - ofs)) (o + ofs + (m + size t - ofs) + (ofs' - (m + size t))) p2 := b1.mono (by omega) (by omega)
          refine ⟨p1 ++ p2, (a1.mono (by omega) (by omega)).append (b1.mono (by omega) (Nat.le_refl _)), ?_, ?_⟩
          · rw [x1, img_two a1' b1', a2, ← x2, b2, hout]
          · intro more hm
            have first : sub W t (o + m) (l1 ++ (l2 ++ more)) = some (p1, l2 ++ more) := by
              apply a3
              intro he
              obtain ⟨q1, q2⟩ := j3 he
              rw [q1, hm q2]; rfl
            rw [List.append_assoc]
            rw [el1, List.cons_append] at first ⊢
            rw [subs]
            rw [first, Option.bind_some, if_neg (by simp [hu0]), b3 more hm]
            rfl
      dsimp only at h
      split at h
      · simp only [Option.some.injEq, Prod.mk.injEq] at h
        exact last (Or.inl rfl) h.1 h.2.1 h.2.2
      · simp only [Option.some.injEq, Prod.mk.injEq] at h
        exact last (Or.inr rfl) h.1 h.2.1 h.2.2
      · split at h
        · obtain ⟨⟨out2, c2, r'⟩, h2, h⟩ := Option.bind_eq_some_iff.mp h
          simp only [Option.some.injEq, Prod.mk.injEq] at h
          obtain ⟨h3, rfl, rfl⟩ := h
          exact step _ out2 rfl (Or.inl rfl) h2 h3
        · obtain ⟨⟨out2, c2, r'⟩, h2, h⟩ := Option.bind_eq_some_iff.mp h
          simp only [Option.some.injEq, Prod.mk.injEq] at h
          obtain ⟨h3, rfl, rfl⟩ := h
          exact step _ out2 rfl (Or.inr ⟨rfl, ends_rb _⟩) h2 h3
        · cases h
end

end Smlr.Init
