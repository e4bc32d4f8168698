import Verif.Eval.Lits
set_option autoImplicit false
/-! The precedence climbing of `eval_shrd` without fuel, and its result on the tokens of a tree. -/
namespace Smlr.Eval
variable {w : Nat}

/-! ### fuel -/

theorem bind_ok {α β : Type} {x : Res α} {f : α → Res β} {b : β} (h : x.bind f = .ok b) :
    ∃ a, x = .ok a ∧ f a = .ok b := by
  cases x with
  | ok a => exact ⟨a, rfl, h⟩
  | err => cases h
  | ub => cases h
  | oof => cases h

theorem bind_congr {α β : Type} {x x' : Res α} {f f' : α → Res β} (hx : x = x') (hf : ∀ a, x = .ok a → f a = f' a) :
    x.bind f = x'.bind f' := by
  subst hx
  cases x with
  | ok a => exact hf a rfl
  | err => rfl
  | ub => rfl
  | oof => rfl

/-- what remains is shorter -/
theorem shorter : ∀ n, (∀ ts m d v r, shrd w n ts m d = .ok (v, r) → r.length < ts.length) ∧
    (∀ ts m d top v r, loop w n ts m d top = .ok (v, r) → r.length ≤ ts.length) := by
  intro n
  induction n with
  | zero => exact ⟨fun _ _ _ _ _ h => by (unfold shrd at h; cases h), fun _ _ _ _ _ _ h => by (unfold loop at h; cases h)⟩
  | succ n ih =>
    obtain ⟨ih1, ih2⟩ := ih
    constructor
    · intro ts m d v r h
      unfold shrd at h
      split at h
      · cases h
      · rename_i r0
        obtain ⟨⟨top, r1⟩, h1, h2⟩ := bind_ok h
        have := ih1 _ _ _ _ _ h1
        dsimp only at h2
        split at h2
        · have := ih2 _ _ _ _ _ _ h2
          simp only [List.length_cons] at *; omega
        · cases h2
      · obtain ⟨top, h1, h2⟩ := bind_ok h
        have := ih2 _ _ _ _ _ _ h2
        simp only [List.length_cons]; omega
      · obtain ⟨top, h1, h2⟩ := bind_ok h
        have := ih2 _ _ _ _ _ _ h2
        simp only [List.length_cons]; omega
      · obtain ⟨⟨top, r1⟩, h1, h2⟩ := bind_ok h
        have := ih1 _ _ _ _ _ h1
        obtain ⟨top', h3, h4⟩ := bind_ok h2
        have := ih2 _ _ _ _ _ _ h4
        simp only [List.length_cons]; omega
      · cases h
    · intro ts m d top v r h
      unfold loop at h
      split at h
      · rename_i o r0
        split at h
        · split at h
          · obtain ⟨⟨top, r1⟩, h1, h2⟩ := bind_ok h
            have := ih1 _ _ _ _ _ h1
            have := ih2 _ _ _ _ _ _ h2
            simp only [List.length_cons]; omega
          · obtain ⟨⟨top, r1⟩, h1, h2⟩ := bind_ok h
            have := ih1 _ _ _ _ _ h1
            dsimp only at h2
            split at h2
            · obtain ⟨top', h3, h4⟩ := bind_ok h2
              have := ih2 _ _ _ _ _ _ h4
              simp only [List.length_cons]; omega
            · have := ih2 _ _ _ _ _ _ h2
              simp only [List.length_cons]; omega
        · cases h; exact Nat.le_refl _
      · rename_i r0
        split at h
        · obtain ⟨⟨top, r1⟩, h1, h2⟩ := bind_ok h
          have := ih1 _ _ _ _ _ h1
          dsimp only at h2
          split at h2
          · obtain ⟨⟨top', r2⟩, h3, h4⟩ := bind_ok h2
            have := ih1 _ _ _ _ _ h3
            have := ih2 _ _ _ _ _ _ h4
            simp only [List.length_cons] at *; omega
          · cases h2
        · cases h; exact Nat.le_refl _
      · cases h; exact Nat.le_refl _

theorem shorter_s {n : Nat} {ts : List Tok} {m : Nat} {d : Bool} {v : V w} {r : List Tok} (h : shrd w n ts m d = .ok (v, r)) :
    r.length < ts.length := (shorter n).1 _ _ _ _ _ h

/-- the fuel does not matter as long as it exceeds the number of tokens -/
theorem fuel : ∀ n k, (∀ ts m d, ts.length < n → ts.length < k → shrd w n ts m d = shrd w k ts m d) ∧
    (∀ ts m d top, ts.length < n → ts.length < k → loop w n ts m d top = loop w k ts m d top) := by
  intro n
  induction n with
  | zero => exact fun k => ⟨fun _ _ _ h => absurd h (Nat.not_lt_zero _), fun _ _ _ _ h => absurd h (Nat.not_lt_zero _)⟩
  | succ n ih =>
    intro k
    cases k with
    | zero => exact ⟨fun _ _ _ _ h => absurd h (Nat.not_lt_zero _), fun _ _ _ _ _ h => absurd h (Nat.not_lt_zero _)⟩
    | succ k =>
      obtain ⟨ih1, ih2⟩ := ih k
      constructor
      · intro ts m d h1 h2
        unfold shrd
        cases ts with
        | nil => rfl
        | cons t r =>
          simp only [List.length_cons] at h1 h2
          cases t with
          | lpar =>
            refine bind_congr (ih1 _ _ _ (by omega) (by omega)) fun ⟨v, r1⟩ h3 => ?_
            have := shorter_s h3
            cases r1 with
            | nil => rfl
            | cons t r1 =>
              simp only [List.length_cons] at this
              cases t with
              | rpar => exact ih2 _ _ _ _ (by omega) (by omega)
              | _ => rfl
          | num s => exact bind_congr rfl fun v _ => ih2 _ _ _ _ (by omega) (by omega)
          | chr s => exact bind_congr rfl fun v _ => ih2 _ _ _ _ (by omega) (by omega)
          | un o =>
            refine bind_congr (ih1 _ _ _ (by omega) (by omega)) fun ⟨v, r1⟩ h3 => ?_
            have := shorter_s h3
            exact bind_congr rfl fun v _ => ih2 _ _ _ _ (by omega) (by omega)
          | _ => rfl
      · intro ts m d top h1 h2
        unfold loop
        cases ts with
        | nil => rfl
        | cons t r =>
          simp only [List.length_cons] at h1 h2
          cases t with
          | bin o =>
            dsimp only
            split
            · split
              · refine bind_congr (ih1 _ _ _ (by omega) (by omega)) fun ⟨v, r1⟩ h3 => ?_
                have := shorter_s h3
                dsimp only
                exact ih2 _ _ _ _ (by omega) (by omega)
              · refine bind_congr (ih1 _ _ _ (by omega) (by omega)) fun ⟨v, r1⟩ h3 => ?_
                have := shorter_s h3
                dsimp only
                split
                · exact bind_congr rfl fun v _ => ih2 _ _ _ _ (by omega) (by omega)
                · exact ih2 _ _ _ _ (by omega) (by omega)
            · rfl
          | quest =>
            dsimp only
            split
            · refine bind_congr (ih1 _ _ _ (by omega) (by omega)) fun ⟨v, r1⟩ h3 => ?_
              have := shorter_s h3
              cases r1 with
              | nil => rfl
              | cons t r1 =>
                simp only [List.length_cons] at this
                cases t with
                | colon =>
                  refine bind_congr (ih1 _ _ _ (by omega) (by omega)) fun ⟨v2, r2⟩ h4 => ?_
                  have := shorter_s h4
                  dsimp only
                  exact ih2 _ _ _ _ (by omega) (by omega)
                | _ => rfl
            · rfl
          | _ => rfl

/-- `eval_shrd` with enough fuel -/
def S (w : Nat) (ts : List Tok) (m : Nat) (d : Bool) : Res (V w × List Tok) := shrd w (ts.length + 1) ts m d
/-- `eval_loop` with enough fuel -/
def Lp (w : Nat) (ts : List Tok) (m : Nat) (d : Bool) (top : V w) : Res (V w × List Tok) := loop w (ts.length + 1) ts m d top

theorem S_eq {n : Nat} {ts : List Tok} {m : Nat} {d : Bool} (h : ts.length < n) : shrd w n ts m d = S w ts m d :=
  (fuel n _).1 _ _ _ h (Nat.lt_succ_self _)
theorem Lp_eq {n : Nat} {ts : List Tok} {m : Nat} {d : Bool} {top : V w} (h : ts.length < n) : loop w n ts m d top = Lp w ts m d top :=
  (fuel n _).2 _ _ _ _ h (Nat.lt_succ_self _)

theorem S_shorter {ts : List Tok} {m : Nat} {d : Bool} {v : V w} {r : List Tok} (h : S w ts m d = .ok (v, r)) :
    r.length < ts.length := shorter_s h

/-! ### the equations -/

/-- what follows a parenthesis -/
def closePar (w : Nat) (m : Nat) (d : Bool) (p : V w × List Tok) : Res (V w × List Tok) :=
  match p.2 with
  | .rpar :: r => Lp w r m d p.1
  | _ => .err

theorem S_lpar (r : List Tok) (m : Nat) (d : Bool) : S w (.lpar :: r) m d = (S w r 0 d).bind (closePar w m d) := by
  refine bind_congr (S_eq (by simp)) fun ⟨v, r1⟩ h3 => ?_
  have := shorter_s h3
  unfold closePar
  cases r1 with
  | nil => rfl
  | cons t r1 =>
    simp only [List.length_cons] at this
    cases t with
    | rpar => exact Lp_eq (by simp only [List.length_cons]; omega)
    | _ => rfl

theorem S_num (s : List Char) (r : List Tok) (m : Nat) (d : Bool) :
    S w (.num s :: r) m d = (strtoconst w s).bind fun top => Lp w r m d top :=
  bind_congr rfl fun _ _ => Lp_eq (by simp)

theorem S_chr (s : List Char) (r : List Tok) (m : Nat) (d : Bool) :
    S w (.chr s :: r) m d = (strtoconst w s).bind fun top => Lp w r m d top :=
  bind_congr rfl fun _ _ => Lp_eq (by simp)

theorem S_un (o : Uop) (r : List Tok) (m : Nat) (d : Bool) :
    S w (.un o :: r) m d = (S w r 13 d).bind fun p => (opun o p.1).bind fun top => Lp w p.2 m d top := by
  refine bind_congr (S_eq (by simp)) fun ⟨v, r1⟩ h3 => ?_
  have := shorter_s h3
  exact bind_congr rfl fun _ _ => Lp_eq (by simp only [List.length_cons]; omega)

theorem Lp_bin_skip {o : Bop} {top : V w} {m : Nat} (h : prec o > m)
    (hc : ((o == .lor && boolval top) || (o == .land && !boolval top)) = true) (r : List Tok) (d : Bool) :
    Lp w (.bin o :: r) m d top = (S w r (prec o) false).bind fun p => Lp w p.2 m d (if d then ⟨true, ofBool w (o == .lor)⟩ else top) := by
  unfold Lp
  conv => lhs; unfold loop
  dsimp only
  rw [if_pos h, if_pos hc]
  refine bind_congr (S_eq (by simp)) fun ⟨v, r1⟩ h3 => ?_
  have := shorter_s h3
  exact Lp_eq (by simp only [List.length_cons]; omega)

theorem Lp_bin {o : Bop} {top : V w} {m : Nat} (h : prec o > m)
    (hc : ((o == .lor && boolval top) || (o == .land && !boolval top)) = false) (r : List Tok) (d : Bool) :
    Lp w (.bin o :: r) m d top = (S w r (prec o) d).bind fun p =>
      if d then (opbin o top p.1).bind fun top => Lp w p.2 m d top else Lp w p.2 m d top := by
  unfold Lp
  conv => lhs; unfold loop
  dsimp only
  rw [if_pos h, if_neg (by rw [hc]; decide)]
  refine bind_congr (S_eq (by simp)) fun ⟨v, r1⟩ h3 => ?_
  have := shorter_s h3
  dsimp only
  split
  · exact bind_congr rfl fun _ _ => Lp_eq (by simp only [List.length_cons]; omega)
  · exact Lp_eq (by simp only [List.length_cons]; omega)

theorem Lp_bin_low {o : Bop} {top : V w} {m : Nat} (h : ¬ prec o > m) (r : List Tok) (d : Bool) :
    Lp w (.bin o :: r) m d top = .ok (top, .bin o :: r) := by
  unfold Lp loop
  dsimp only
  rw [if_neg h]

/-- what follows the operand between `?` and `:` -/
def afterMid (w : Nat) (m : Nat) (d : Bool) (top : V w) (p : V w × List Tok) : Res (V w × List Tok) :=
  match p.2 with
  | .colon :: r => (S w r 2 (if boolval top then false else d)).bind fun q =>
    Lp w q.2 m d (if d then (if boolval top then p.1 else q.1) else top)
  | _ => .err

theorem Lp_quest {top : V w} {m : Nat} (h : 2 ≥ m) (r : List Tok) (d : Bool) :
    Lp w (.quest :: r) m d top = (S w r 2 (if boolval top then d else false)).bind (afterMid w m d top) := by
  unfold Lp
  conv => lhs; unfold loop
  dsimp only
  rw [if_pos h]
  refine bind_congr (S_eq (by simp)) fun ⟨v, r1⟩ h3 => ?_
  have := shorter_s h3
  unfold afterMid
  cases r1 with
  | nil => rfl
  | cons t r1 =>
    simp only [List.length_cons] at this
    cases t with
    | colon =>
      refine bind_congr (S_eq (by simp only [List.length_cons]; omega)) fun ⟨v2, r2⟩ h4 => ?_
      have := shorter_s h4
      exact Lp_eq (by simp only [List.length_cons]; omega)
    | _ => rfl

theorem Lp_quest_low {top : V w} {m : Nat} (h : ¬ 2 ≥ m) (r : List Tok) (d : Bool) :
    Lp w (.quest :: r) m d top = .ok (top, .quest :: r) := by
  unfold Lp loop
  dsimp only
  rw [if_neg h]

/-! ### trees with marked signs -/

/-- `Writes` with `+` and `-` told apart -/
inductive WritesM (w mid : Nat) : Nat → E → List Tok → Prop
  | num {l : Nat} {s : List Char} {v : SV} : l ≤ 14 → Const w s v → WritesM w mid l (.lit v) [.num s]
  | chr {l : Nat} {s : List Char} {v : SV} : l ≤ 14 → Const w s v → WritesM w mid l (.lit v) [.chr s]
  | paren {l : Nat} {e : E} {ts : List Tok} : l ≤ 14 → WritesM w mid 1 e ts → WritesM w mid l e (.lpar :: ts ++ [.rpar])
  | un {l : Nat} {o : Uop} {e : E} {ts : List Tok} : l ≤ 13 → WritesM w mid 13 e ts → WritesM w mid l (.un o e) (.un o :: ts)
  | bin {l : Nat} {o : Bop} {a b : E} {ts us : List Tok} : l ≤ level o →
      WritesM w mid (level o) a ts → WritesM w mid (level o + 1) b us → WritesM w mid l (.bin o a b) (ts ++ .bin o :: us)
  | cond {l : Nat} {a b c : E} {ts us vs : List Tok} : l ≤ 2 →
      WritesM w mid 3 a ts → WritesM w mid mid b us → WritesM w mid 2 c vs →
      WritesM w mid l (.cond a b c) (ts ++ .quest :: us ++ .colon :: vs)

theorem prec_level (o : Bop) : prec o = level o := by cases o <;> rfl
theorem level_range (o : Bop) : 1 ≤ level o ∧ level o ≤ 12 ∧ level o ≠ 2 := by cases o <;> decide

/-- what may follow a tree of level `l` without becoming part of it -/
def Follow (l : Nat) : List Tok → Prop
  | .bin o :: _ => level o ≤ l
  | .quest :: _ => 3 ≤ l
  | _ => True

theorem stop {rest : List Tok} {m : Nat} (h : Follow m rest) (d : Bool) (v : V w) : Lp w rest m d v = .ok (v, rest) := by
  cases rest with
  | nil => rfl
  | cons t r =>
    cases t with
    | bin o => exact Lp_bin_low (by rw [prec_level]; have : level o ≤ m := h; omega) r d
    | quest => exact Lp_quest_low (by have : 3 ≤ m := h; omega) r d
    | _ => rfl

theorem Follow.mono {l m : Nat} {rest : List Tok} (h : Follow l rest) (hl : l ≤ m) : Follow m rest := by
  cases rest with
  | nil => trivial
  | cons t r =>
    cases t with
    | bin o => exact Nat.le_trans h hl
    | quest => exact Nat.le_trans h hl
    | _ => trivial

theorem follow13 (rest : List Tok) : Follow 13 rest := by
  cases rest with
  | nil => trivial
  | cons t r =>
    cases t with
    | bin o => exact Nat.le_trans (level_range o).2.1 (by omega)
    | quest => exact (by omega : 3 ≤ 13)
    | _ => trivial

/-- a call with this `minprec` reads a tree of this level -/
def Acc (m l : Nat) : Prop := 13 ≤ l ∨ m < l ∨ (m = 2 ∧ l = 2)

/-- an operand that is not evaluated -/
theorem skip_run (h : Wd w) {l : Nat} {e : E} {ts : List Tok} (hw : WritesM w 2 l e ts) :
    ∀ (rest : List Tok) (m : Nat), Follow l rest → Acc m l → ∀ v, skipped w e = some v →
      S w (ts ++ rest) m false = Lp w rest m false (rep w v) ∧ Ok w v := by
  induction hw with
  | @num l s v hl hc =>
    intro rest m hf ha v' hv
    cases hv
    obtain ⟨e1, e2⟩ := strtoconst_const h hc
    exact ⟨by rw [List.singleton_append, S_num, e1]; rfl, e2⟩
  | @chr l s v hl hc =>
    intro rest m hf ha v' hv
    cases hv
    obtain ⟨e1, e2⟩ := strtoconst_const h hc
    exact ⟨by rw [List.singleton_append, S_chr, e1]; rfl, e2⟩
  | @paren l e ts hl hw ih =>
    intro rest m hf ha v hv
    obtain ⟨e1, e2⟩ := ih (.rpar :: rest) 0 trivial (.inr (.inl (by omega))) v hv
    refine ⟨?_, e2⟩
    rw [List.cons_append, List.cons_append, S_lpar, List.append_assoc, List.singleton_append, e1]
    rfl
  | @un l o e ts hl hw ih =>
    intro rest m hf ha v hv
    unfold skipped at hv
    obtain ⟨v0, h0, h1⟩ := Option.bind_eq_some_iff.mp hv
    obtain ⟨e1, e2⟩ := ih rest 13 (follow13 rest) (.inl (by omega)) v0 h0
    have hm := meets_un h e2 o
    cases hs : semUn w o v0 with
    | val r =>
      rw [hs] at h1 hm
      cases h1
      refine ⟨?_, hm.2⟩
      rw [List.cons_append, S_un, e1, stop (follow13 rest)]
      show (opun o (rep w v0)).bind _ = _
      rw [hm.1]
      rfl
    | nodiv => rw [hs] at h1; cases h1
    | undef => rw [hs] at h1; cases h1
  | @bin l o a b ts us hl hwa hwb iha ihb =>
    intro rest m hf ha v hv
    unfold skipped at hv
    obtain ⟨va, h0, h1⟩ := Option.bind_eq_some_iff.mp hv
    obtain ⟨vb, h2, h3⟩ := Option.map_eq_some_iff.mp h1
    cases h3
    have hr := level_range o
    have hm : m < level o := by unfold Acc at ha; omega
    obtain ⟨e1, e2⟩ := iha (.bin o :: (us ++ rest)) m (Nat.le_refl _) (.inr (.inl hm)) v h0
    obtain ⟨e3, e4⟩ := ihb rest (level o) (hf.mono (by omega)) (.inr (.inl (by omega))) vb h2
    refine ⟨?_, e2⟩
    rw [List.append_assoc, List.cons_append, e1]
    have hs := stop (hf.mono hl) false (rep w vb)
    cases hc : ((o == .lor && boolval (rep w v)) || (o == .land && !boolval (rep w v))) with
    | true =>
      rw [Lp_bin_skip (by rw [prec_level]; exact hm) hc, prec_level, e3, hs]
      rfl
    | false =>
      rw [Lp_bin (by rw [prec_level]; exact hm) hc, prec_level, e3, hs]
      rfl
  | @cond l a b c ts us vs hl hwa hwb hwc iha ihb ihc =>
    intro rest m hf ha v hv
    unfold skipped at hv
    obtain ⟨va, h0, h1⟩ := Option.bind_eq_some_iff.mp hv
    obtain ⟨vb, h2, h3⟩ := Option.bind_eq_some_iff.mp h1
    obtain ⟨vc, h4, h5⟩ := Option.map_eq_some_iff.mp h3
    cases h5
    have hm : m ≤ 2 := by unfold Acc at ha; omega
    obtain ⟨e1, e2⟩ := iha (.quest :: (us ++ .colon :: (vs ++ rest))) m (Nat.le_refl 3) (.inr (.inl (by omega))) v h0
    obtain ⟨e3, e4⟩ := ihb (.colon :: (vs ++ rest)) 2 trivial (.inr (.inr ⟨rfl, rfl⟩)) vb h2
    obtain ⟨e5, e6⟩ := ihc rest 2 (hf.mono hl) (.inr (.inr ⟨rfl, rfl⟩)) vc h4
    refine ⟨?_, e2⟩
    have happ : ts ++ .quest :: us ++ .colon :: vs ++ rest = ts ++ (.quest :: (us ++ .colon :: (vs ++ rest))) := by simp
    rw [happ, e1, Lp_quest hm]
    have h6 : (if boolval (rep w v) = true then false else false) = false := by split <;> rfl
    rw [h6, e3]
    have h7 : Lp w (.colon :: (vs ++ rest)) 2 false (rep w vb) = .ok (rep w vb, .colon :: (vs ++ rest)) := rfl
    rw [h7]
    show (S w (vs ++ rest) 2 (if boolval (rep w v) = true then false else false)).bind _ = _
    rw [h6, e5, stop (hf.mono hl)]
    rfl

/-- what the call makes of a tree that is evaluated, by its meaning -/
def Gives (w : Nat) (run : Res (V w × List Tok)) (rest : List Tok) (m : Nat) (s : Bool) : Sem → Prop
  | .val v => run = Lp w rest m true (rep w v) ∧ Ok w v ∧ v.sign = s
  | .nodiv => run = .err
  | .undef => True

theorem Sem.bind_val {x : Sem} {f : SV → Sem} {v : SV} (h : x = .val v) : x.bind f = f v := by rw [h]; rfl

theorem sign_fit {s : Bool} {z : Int} {v : SV} (h : fit w s z = .val v) : v.sign = s := by
  unfold fit at h
  cases s
  · cases h; rfl
  · simp only [if_true] at h
    split at h
    · cases h; rfl
    · cases h

theorem sign_un {o : Uop} {e : E} {v r : SV} (hv : v.sign = ty e) (h : semUn w o v = .val r) : r.sign = ty (.un o e) := by
  cases o with
  | lnot => cases h; rfl
  | not => rw [sign_fit h, hv]; rfl
  | uplus => cases h; exact hv
  | uminus => rw [sign_fit h, hv]; rfl

theorem sign_bin {o : Bop} {a b : E} {va vb r : SV} (ha : va.sign = ty a) (hb : vb.sign = ty b) (h : semBin w o va vb = .val r) :
    r.sign = ty (.bin o a b) := by
  cases o with
  | star => rw [sign_fit h, ha, hb]; rfl
  | plus => rw [sign_fit h, ha, hb]; rfl
  | minus => rw [sign_fit h, ha, hb]; rfl
  | slash =>
    unfold semBin at h
    dsimp only at h
    split at h
    · cases h
    · split at h
      · cases h
      · rw [sign_fit h, ha, hb]; rfl
  | pct =>
    unfold semBin at h
    dsimp only at h
    split at h
    · cases h
    · split at h
      · cases h
      · rw [sign_fit h, ha, hb]; rfl
  | lsh =>
    unfold semBin at h
    dsimp only at h
    split at h
    · cases h
    · rw [sign_fit h, ha]; rfl
  | rsh =>
    unfold semBin at h
    dsimp only at h
    split at h
    · cases h
    · rw [sign_fit h, ha]; rfl
  | and => cases h; show (va.sign && vb.sign) = _; rw [ha, hb]; rfl
  | circ => cases h; show (va.sign && vb.sign) = _; rw [ha, hb]; rfl
  | or => cases h; show (va.sign && vb.sign) = _; rw [ha, hb]; rfl
  | comma => cases h; exact hb
  | _ => cases h; rfl

theorem sem_bin {o : Bop} (h1 : o ≠ .land) (h2 : o ≠ .lor) (a b : E) :
    sem w (.bin o a b) = (sem w a).bind fun x => (sem w b).bind fun y => semBin w o x y := by
  cases o <;> first | rfl | contradiction

theorem conv_ok {v : SV} (hv : Ok w v) : conv w v.sign v = v.x := by
  unfold Ok at hv
  unfold conv
  split
  · rfl
  · rename_i hs
    rw [if_neg hs] at hv
    exact Int.emod_eq_of_lt hv.1 hv.2

theorem rep_one : (⟨true, ofBool w true⟩ : V w) = rep w ⟨true, 1⟩ := by unfold rep ofBool; simp
theorem rep_zero : (⟨true, ofBool w false⟩ : V w) = rep w ⟨true, 0⟩ := by unfold rep ofBool; simp

theorem ok_one (h : Wd w) : Ok w ⟨true, 1⟩ := by
  have := h.half
  show inS w 1
  unfold inS; omega
theorem ok_zero (h : Wd w) : Ok w ⟨true, 0⟩ := by
  have := h.half
  show inS w 0
  unfold inS; omega

/-- the right operand of a binary operator, evaluated, and the operator itself -/
theorem right_run (h : Wd w) {o : Bop} {va : SV} (hva : Ok w va) {b : E} {us rest : List Tok} {m l : Nat} {s : Bool}
    (hm : m < level o) (hl : l ≤ level o) (hf : Follow l rest)
    (hc : ((o == .lor && boolval (rep w va)) || (o == .land && !boolval (rep w va))) = false)
    (ihb : Gives w (S w (us ++ rest) (level o) true) rest (level o) (ty b) (sem w b))
    (hsign : ∀ vb r, vb.sign = ty b → semBin w o va vb = .val r → r.sign = s) :
    Gives w (Lp w (.bin o :: (us ++ rest)) m true (rep w va)) rest m s ((sem w b).bind fun y => semBin w o va y) := by
  rw [Lp_bin (by rw [prec_level]; exact hm) hc, prec_level]
  cases hb : sem w b with
  | undef => trivial
  | nodiv =>
    rw [hb] at ihb
    have e : S w (us ++ rest) (level o) true = .err := ihb
    show (S w (us ++ rest) (level o) true).bind _ = .err
    rw [e]; rfl
  | val vb =>
    rw [hb] at ihb
    obtain ⟨e1, e2, e3⟩ := ihb
    rw [e1, stop (hf.mono hl)]
    have hmt := meets_bin h hva e2 o
    show Gives w ((opbin o (rep w va) (rep w vb)).bind fun top => Lp w rest m true top) rest m s (semBin w o va vb)
    cases hr : semBin w o va vb with
    | undef => trivial
    | nodiv =>
      rw [hr] at hmt
      have e : opbin o (rep w va) (rep w vb) = .err := hmt
      rw [e]; rfl
    | val r =>
      rw [hr] at hmt
      rw [hmt.1]
      exact ⟨rfl, hmt.2, hsign vb r e3 hr⟩

/-- an operand that is evaluated -/
theorem eval_run (h : Wd w) {l : Nat} {e : E} {ts : List Tok} (hw : WritesM w 2 l e ts) :
    ∀ (rest : List Tok) (m : Nat), Follow l rest → Acc m l → SameTypes e → Quiet w e →
      Gives w (S w (ts ++ rest) m true) rest m (ty e) (sem w e) := by
  induction hw with
  | @num l s v hl hc =>
    intro rest m hf ha _ _
    obtain ⟨e1, e2⟩ := strtoconst_const h hc
    exact ⟨by rw [List.singleton_append, S_num, e1]; rfl, e2, rfl⟩
  | @chr l s v hl hc =>
    intro rest m hf ha _ _
    obtain ⟨e1, e2⟩ := strtoconst_const h hc
    exact ⟨by rw [List.singleton_append, S_chr, e1]; rfl, e2, rfl⟩
  | @paren l e ts hl hw ih =>
    intro rest m hf ha ht hq
    have := ih (.rpar :: rest) 0 trivial (.inr (.inl (by omega))) ht hq
    rw [List.cons_append, List.cons_append, S_lpar, List.append_assoc, List.singleton_append]
    cases hs : sem w e with
    | undef => trivial
    | nodiv =>
      rw [hs] at this
      have e : S w (ts ++ .rpar :: rest) 0 true = .err := this
      rw [e]; rfl
    | val v =>
      rw [hs] at this
      obtain ⟨e1, e2, e3⟩ := this
      exact ⟨by rw [e1]; rfl, e2, e3⟩
  | @un l o e ts hl hw ih =>
    intro rest m hf ha ht hq
    have := ih rest 13 (follow13 rest) (.inl (by omega)) ht hq
    rw [List.cons_append, S_un]
    unfold sem
    cases hs : sem w e with
    | undef => trivial
    | nodiv =>
      rw [hs] at this
      have e : S w (ts ++ rest) 13 true = .err := this
      rw [e]; rfl
    | val v =>
      rw [hs] at this
      obtain ⟨e1, e2, e3⟩ := this
      rw [e1, stop (follow13 rest)]
      have hm := meets_un h e2 o
      show Gives w ((opun o (rep w v)).bind fun top => Lp w rest m true top) rest m _ (semUn w o v)
      cases hr : semUn w o v with
      | undef => trivial
      | nodiv =>
        rw [hr] at hm
        have e : opun o (rep w v) = .err := hm
        rw [e]; rfl
      | val r =>
        rw [hr] at hm
        rw [hm.1]
        exact ⟨rfl, hm.2, sign_un e3 hr⟩
  | @bin l o a b ts us hl hwa hwb iha ihb =>
    intro rest m hf ha ht hq
    have hr := level_range o
    have hm : m < level o := by unfold Acc at ha; omega
    have ra := iha (.bin o :: (us ++ rest)) m (Nat.le_refl _) (.inr (.inl hm)) ht.1 hq.1
    have rb := ihb rest (level o) (hf.mono (by omega)) (.inr (.inl (by omega))) ht.2 hq.2.1
    rw [List.append_assoc, List.cons_append]
    by_cases h1 : o = .land
    · subst h1
      unfold sem
      cases hs : sem w a with
      | undef => trivial
      | nodiv =>
        rw [hs] at ra
        exact ra
      | val va =>
        rw [hs] at ra
        obtain ⟨e1, e2, e3⟩ := ra
        rw [e1]
        show Gives w _ rest m true (if va.x = 0 then .val ⟨true, 0⟩ else (sem w b).bind fun y => truth (y.x ≠ 0))
        have hbv := boolval_rep h e2
        by_cases h0 : va.x = 0
        · rw [if_pos h0]
          obtain ⟨vb, hvb⟩ := Option.ne_none_iff_exists'.mp (hq.2.2 (.inl rfl))
          have hsk := skip_run h hwb rest (level .land) (hf.mono (by omega)) (.inr (.inl (by omega))) vb hvb
          rw [Lp_bin_skip (by rw [prec_level]; exact hm) (by rw [hbv]; simp [h0]), prec_level, hsk.1, stop (hf.mono hl)]
          refine ⟨?_, ok_zero h, rfl⟩
          rw [← rep_zero]
          rfl
        · rw [if_neg h0]
          have := right_run h e2 (b := b) (us := us) (s := true) hm hl hf (by rw [hbv]; simp [h0]) rb (fun vb r hvb hr => by cases hr; rfl)
          have hsem : ((sem w b).bind fun y => semBin w .land va y) = (sem w b).bind fun y => truth (y.x ≠ 0) := by
            congr 1
            funext y
            show truth (va.x ≠ 0 ∧ y.x ≠ 0) = _
            unfold truth
            by_cases hy : y.x = 0 <;> simp [hy, h0]
          rw [hsem] at this
          exact this
    · by_cases h2 : o = .lor
      · subst h2
        unfold sem
        cases hs : sem w a with
        | undef => trivial
        | nodiv =>
          rw [hs] at ra
          exact ra
        | val va =>
          rw [hs] at ra
          obtain ⟨e1, e2, e3⟩ := ra
          rw [e1]
          show Gives w _ rest m true (if va.x ≠ 0 then .val ⟨true, 1⟩ else (sem w b).bind fun y => truth (y.x ≠ 0))
          have hbv := boolval_rep h e2
          by_cases h0 : va.x ≠ 0
          · rw [if_pos h0]
            obtain ⟨vb, hvb⟩ := Option.ne_none_iff_exists'.mp (hq.2.2 (.inr rfl))
            have hsk := skip_run h hwb rest (level .lor) (hf.mono (by omega)) (.inr (.inl (by omega))) vb hvb
            rw [Lp_bin_skip (by rw [prec_level]; exact hm) (by rw [hbv]; simp [h0]), prec_level, hsk.1, stop (hf.mono hl)]
            refine ⟨?_, ok_one h, rfl⟩
            rw [← rep_one]
            rfl
          · rw [if_neg h0]
            have h0' : va.x = 0 := Classical.not_not.mp h0
            have := right_run h e2 (b := b) (us := us) (s := true) hm hl hf (by rw [hbv]; simp [h0']) rb (fun vb r hvb hr => by cases hr; rfl)
            have hsem : ((sem w b).bind fun y => semBin w .lor va y) = (sem w b).bind fun y => truth (y.x ≠ 0) := by
              congr 1
              funext y
              show truth (va.x ≠ 0 ∨ y.x ≠ 0) = _
              unfold truth
              by_cases hy : y.x = 0 <;> simp [hy, h0']
            rw [hsem] at this
            exact this
      · rw [sem_bin h1 h2]
        cases hs : sem w a with
        | undef => trivial
        | nodiv =>
          rw [hs] at ra
          exact ra
        | val va =>
          rw [hs] at ra
          obtain ⟨e1, e2, e3⟩ := ra
          rw [e1]
          have b1 : (o == .land) = false := by simpa using h1
          have b2 : (o == .lor) = false := by simpa using h2
          exact right_run h e2 hm hl hf (by simp [b1, b2]) rb (fun vb r hvb hr => sign_bin e3 hvb hr)
  | @cond l a b c ts us vs hl hwa hwb hwc iha ihb ihc =>
    intro rest m hf ha ht hq
    have hm : m ≤ 2 := by unfold Acc at ha; omega
    have ra := iha (.quest :: (us ++ .colon :: (vs ++ rest))) m (Nat.le_refl 3) (.inr (.inl (by omega))) ht.1 hq.1
    have rb := ihb (.colon :: (vs ++ rest)) 2 trivial (.inr (.inr ⟨rfl, rfl⟩)) ht.2.1 hq.2.1
    have rc := ihc rest 2 (hf.mono hl) (.inr (.inr ⟨rfl, rfl⟩)) ht.2.2.1 hq.2.2.1
    have happ : ts ++ .quest :: us ++ .colon :: vs ++ rest = ts ++ (.quest :: (us ++ .colon :: (vs ++ rest))) := by simp
    rw [happ]
    unfold sem
    cases hs : sem w a with
    | undef => trivial
    | nodiv =>
      rw [hs] at ra
      exact ra
    | val va =>
      rw [hs] at ra
      obtain ⟨e1, e2, e3⟩ := ra
      rw [e1, Lp_quest hm]
      have hbv := boolval_rep h e2
      have hty : (ty b && ty c) = ty b ∧ (ty b && ty c) = ty c := by rw [ht.2.2.2]; simp
      show Gives w _ rest m (ty b && ty c) ((if va.x ≠ 0 then sem w b else sem w c).bind fun y => .val ⟨ty b && ty c, conv w (ty b && ty c) y⟩)
      have hcol : ∀ (d : Bool) (v : V w), Lp w (.colon :: (vs ++ rest)) 2 d v = .ok (v, .colon :: (vs ++ rest)) := fun _ _ => rfl
      by_cases h0 : va.x ≠ 0
      · have hb1 : boolval (rep w va) = true := by rw [hbv]; simpa using h0
        rw [if_pos h0, hb1]
        obtain ⟨vc, hvc⟩ := Option.ne_none_iff_exists'.mp hq.2.2.2.2
        have hsk := skip_run h hwc rest 2 (hf.mono hl) (.inr (.inr ⟨rfl, rfl⟩)) vc hvc
        cases hbs : sem w b with
        | undef => trivial
        | nodiv =>
          rw [hbs] at rb
          have e : S w (us ++ .colon :: (vs ++ rest)) 2 true = .err := rb
          show (S w (us ++ .colon :: (vs ++ rest)) 2 true).bind _ = .err
          rw [e]; rfl
        | val vb =>
          rw [hbs] at rb
          obtain ⟨f1, f2, f3⟩ := rb
          have hv : (⟨ty b && ty c, conv w (ty b && ty c) vb⟩ : SV) = vb := by
            rw [hty.1, ← f3, conv_ok f2]
          show Gives w ((S w (us ++ .colon :: (vs ++ rest)) 2 true).bind _) rest m _ (.val ⟨ty b && ty c, conv w (ty b && ty c) vb⟩)
          rw [hv, f1, hcol]
          refine ⟨?_, f2, by rw [f3, hty.1]⟩
          show afterMid w m true (rep w va) (rep w vb, .colon :: (vs ++ rest)) = _
          unfold afterMid
          dsimp only
          rw [hb1]
          show (S w (vs ++ rest) 2 false).bind _ = _
          rw [hsk.1, stop (hf.mono hl)]
          rfl
      · have h0' : va.x = 0 := Classical.not_not.mp h0
        have hb1 : boolval (rep w va) = false := by rw [hbv]; simp [h0']
        rw [if_neg h0, hb1]
        obtain ⟨vb, hvb⟩ := Option.ne_none_iff_exists'.mp hq.2.2.2.1
        have hsk := skip_run h hwb (.colon :: (vs ++ rest)) 2 trivial (.inr (.inr ⟨rfl, rfl⟩)) vb hvb
        have hstep : (S w (us ++ .colon :: (vs ++ rest)) 2 false).bind (afterMid w m true (rep w va)) =
            (S w (vs ++ rest) 2 true).bind fun q => Lp w q.2 m true q.1 := by
          rw [hsk.1, hcol]
          show afterMid w m true (rep w va) (rep w vb, .colon :: (vs ++ rest)) = _
          unfold afterMid
          dsimp only
          rw [hb1]
          rfl
        show Gives w ((S w (us ++ .colon :: (vs ++ rest)) 2 false).bind (afterMid w m true (rep w va))) rest m _ _
        rw [hstep]
        cases hcs : sem w c with
        | undef => trivial
        | nodiv =>
          rw [hcs] at rc
          have e : S w (vs ++ rest) 2 true = .err := rc
          rw [e]; rfl
        | val vc =>
          rw [hcs] at rc
          obtain ⟨f1, f2, f3⟩ := rc
          have hv : (⟨ty b && ty c, conv w (ty b && ty c) vc⟩ : SV) = vc := by
            rw [hty.2, ← f3, conv_ok f2]
          show Gives w _ rest m _ (.val ⟨ty b && ty c, conv w (ty b && ty c) vc⟩)
          rw [hv, f1, stop (hf.mono hl)]
          exact ⟨rfl, f2, by rw [f3, hty.2]⟩

end Smlr.Eval
