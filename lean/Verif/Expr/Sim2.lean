import Verif.Expr.Sim
set_option autoImplicit false
/-! The binary operators. -/
namespace Smlr.Expr

variable {c : Cfg} {n : Nat} {A B stk X Y : List (Tok × V)} {lab : Nat} {ws : List Warn} {γ δ : Type}

theorem bind_pure_M (x : M γ) : (x >>= pure) = x := by
  funext s
  show MS.bind x pure s = x s
  unfold MS.bind
  cases x s with
  | error e => rfl
  | ok p => rfl

theorem sim_eta {x : M γ} {st : St} {y : N δ} {ns : NS} {o : δ → NS → γ × St} (h : Sim (x >>= pure) st y ns o) : Sim x st y ns o := by
  rw [bind_pure_M] at h; exact h

/-- the tokens inserted by `insScale` -/
def scaleToks (tok : Tok) (inc : Int) : List (Tok × V) := if inc = 1 then [] else [(.numInt, BitVec.ofInt 32 inc), (tok, 0#32)]

theorem scale_post (t : T) (tok : Tok) (inc : Int) : (t.scale tok inc).post = t.post ++ scaleToks tok inc := by
  unfold T.scale scaleToks
  split <;> simp [T.post, numTok]

theorem bind_assoc_M {α β : Type} (x : M α) (f : α → M β) (g : β → M γ) : ((x >>= f) >>= g) = (x >>= fun a => f a >>= g) := by
  funext s
  show MS.bind (MS.bind x f) g s = MS.bind x (fun a => MS.bind (f a) g) s
  unfold MS.bind
  cases x s with
  | error e => rfl
  | ok p => rfl

theorem sim_scale {p : Int} {tok : Tok} {inc : Int} {f : Unit → M γ} {y : N δ} {ns : NS} {o : δ → NS → γ × St} (hs : stk = X ++ Y) (hp : p = X.length)
    (k : Sim (f ()) ⟨X ++ scaleToks tok inc ++ Y, lab, ws⟩ y ns o) : Sim (insScale p tok inc >>= f) ⟨stk, lab, ws⟩ y ns o := by
  subst hs
  unfold insScale scaleToks at *
  by_cases h1 : inc = 1
  · rw [if_pos h1]
    rw [if_pos h1] at k
    exact sim_step (x := pure ()) rfl (by simpa using k)
  · rw [if_neg h1]
    rw [if_neg h1] at k
    simp only [bind_assoc_M]
    refine sim_step getSp_eq ?_
    refine sim_ins rfl hp ?_
    refine sim_step getSp_eq ?_
    refine sim_ins (X := X ++ [(.numInt, BitVec.ofInt 32 inc)]) (Y := Y) (by simp) (by subst hp; len) ?_
    simpa using k

theorem unTok_not_leaf {tok : Tok} (h : unTok tok = true) : ¬ (isNum tok = true ∨ tok = .localOfs) := by cases tok <;> first | (cases h; done) | simp [isNum]

theorem binTok_not_leaf {tok : Tok} (h : binTok tok = true) : ¬ (isNum tok = true ∨ tok = .localOfs) := by cases tok <;> first | (cases h; done) | simp [isNum]

/-- `seek` finds what `T.absorb` changes -/
theorem seek_absorb (d : V) : ∀ (t : T), t.OK → ∀ (P Q : List (Tok × V)) (m : Nat) (lab : Nat) (ws : List Warn), t.post.length ≤ m →
    ∃ X y Z, P ++ t.post ++ Q = X ++ y :: Z ∧
      seek m (P.length + t.post.length - 1) ⟨P ++ t.post ++ Q, lab, ws⟩ = .ok ((X.length : Int), ⟨P ++ t.post ++ Q, lab, ws⟩) ∧
      (((isNum y.1 = true ∨ y.1 = .localOfs) ∧ ∃ t', t.absorb d = some t' ∧ X ++ (y.1, y.2 + d) :: Z = P ++ t'.post ++ Q) ∨
        ¬ (isNum y.1 = true ∨ y.1 = .localOfs) ∧ t.absorb d = none) := by
  have base : ∀ (t : T) (P Q : List (Tok × V)) (m : Nat) (lab : Nat) (ws : List Warn), t.post.length ≤ m → t.root.1 ≠ .uplus → t.root.1 ≠ .plus →
      (∀ X, t.post = X ++ [t.root] → (((isNum t.root.1 = true ∨ t.root.1 = .localOfs) ∧ ∃ t', t.absorb d = some t' ∧ X ++ [(t.root.1, t.root.2 + d)] = t'.post) ∨
        ¬ (isNum t.root.1 = true ∨ t.root.1 = .localOfs) ∧ t.absorb d = none)) →
      ∃ X y Z, P ++ t.post ++ Q = X ++ y :: Z ∧
      seek m (P.length + t.post.length - 1) ⟨P ++ t.post ++ Q, lab, ws⟩ = .ok ((X.length : Int), ⟨P ++ t.post ++ Q, lab, ws⟩) ∧
      (((isNum y.1 = true ∨ y.1 = .localOfs) ∧ ∃ t', t.absorb d = some t' ∧ X ++ (y.1, y.2 + d) :: Z = P ++ t'.post ++ Q) ∨
        ¬ (isNum y.1 = true ∨ y.1 = .localOfs) ∧ t.absorb d = none) := by
    intro t P Q m lab ws hm h1 h2 h3
    obtain ⟨X, hX⟩ := t.post_root
    have hl : t.post.length = X.length + 1 := by rw [hX]; simp
    have hs : P ++ t.post ++ Q = (P ++ X) ++ t.root :: Q := by rw [hX]; simp
    refine ⟨P ++ X, t.root, Q, hs, ?_, ?_⟩
    · obtain ⟨m, rfl⟩ : ∃ k, m = k + 1 := ⟨m - 1, by omega⟩
      show (getTok _ >>= _) _ = _
      rw [bind_ok (getTok_at hs (by len)), if_neg (by simp [h1, h2])]
      show Except.ok _ = _
      have : ((P.length : Int) + t.post.length - 1) = ((P ++ X).length : Int) := by len
      rw [this]
    · rcases h3 X hX with ⟨a, t', b, e⟩ | ⟨a, b⟩
      · exact Or.inl ⟨a, t', b, by rw [← e]; simp⟩
      · exact Or.inr ⟨a, b⟩
  intro t
  induction t with
  | num u v =>
    intro _ P Q m lab ws hm
    refine base _ P Q m lab ws hm (by cases u <;> simp [T.root, numTok]) (by cases u <;> simp [T.root, numTok]) (fun X hX => ?_)
    left
    simp only [T.post, T.root] at hX
    obtain rfl : X = [] := by simpa using hX
    exact ⟨Or.inl (by cases u <;> rfl), _, rfl, rfl⟩
  | localOfs o =>
    intro _ P Q m lab ws hm
    refine base _ P Q m lab ws hm (by simp [T.root]) (by simp [T.root]) (fun X hX => ?_)
    left
    simp only [T.post, T.root] at hX
    obtain rfl : X = [] := by simpa using hX
    exact ⟨Or.inr rfl, _, rfl, rfl⟩
  | ident s =>
    intro _ P Q m lab ws hm
    exact base _ P Q m lab ws hm (by simp [T.root]) (by simp [T.root]) (fun X hX => Or.inr ⟨by simp [T.root, isNum], rfl⟩)
  | un tok v t ih =>
    intro hok P Q m lab ws hm
    by_cases hu : tok = .uplus
    · subst hu
      obtain ⟨m, rfl⟩ : ∃ k, m = k + 1 := ⟨m - 1, by simp [T.post] at hm; omega⟩
      obtain ⟨X, y, Z, h1, h2, h3⟩ := ih hok.2 P ((.uplus, v) :: Q) m lab ws (by simp [T.post] at hm; omega)
      refine ⟨X, y, Z, by simpa [T.post] using h1, ?_, ?_⟩
      · show (getTok _ >>= _) _ = _
        rw [bind_ok (getTok_at (X := P ++ t.post) (x := (.uplus, v)) (Y := Q) (by simp [T.post]) (by len)), if_pos (Or.inl rfl)]
        have e1 : ((P.length : Int) + (T.un .uplus v t).post.length - 1 - 1) = P.length + t.post.length - 1 := by len
        rw [e1]
        have e2 : P ++ (T.un .uplus v t).post ++ Q = P ++ t.post ++ (.uplus, v) :: Q := by simp [T.post]
        rw [e2]; exact h2
      · simp only [T.absorb, if_true]
        rcases h3 with ⟨a, t', b, e⟩ | ⟨a, b⟩
        · exact Or.inl ⟨a, .un .uplus v t', by rw [b]; rfl, by simp [T.post, e]⟩
        · exact Or.inr ⟨a, by rw [b]; rfl⟩
    · have hk := hok.1
      refine base _ P Q m lab ws hm (by simpa [T.root] using hu) ?_ (fun X hX => Or.inr ⟨?_, ?_⟩)
      · simp only [T.root]; rintro rfl; simp [unTok] at hk
      · exact unTok_not_leaf hk
      · simp [T.absorb, hu]
  | bin tok v l r _ ih =>
    intro hok P Q m lab ws hm
    by_cases hu : tok = .plus
    · subst hu
      obtain ⟨m, rfl⟩ : ∃ k, m = k + 1 := ⟨m - 1, by simp [T.post] at hm; omega⟩
      obtain ⟨X, y, Z, h1, h2, h3⟩ := ih hok.2.2 (P ++ l.post) ((.plus, v) :: Q) m lab ws (by simp [T.post] at hm; omega)
      refine ⟨X, y, Z, by simpa [T.post] using h1, ?_, ?_⟩
      · show (getTok _ >>= _) _ = _
        rw [bind_ok (getTok_at (X := P ++ l.post ++ r.post) (x := (.plus, v)) (Y := Q) (by simp [T.post]) (by len)), if_pos (Or.inr rfl)]
        have e1 : ((P.length : Int) + (T.bin .plus v l r).post.length - 1 - 1) = (P ++ l.post).length + r.post.length - 1 := by len
        rw [e1]
        have e2 : P ++ (T.bin .plus v l r).post ++ Q = P ++ l.post ++ r.post ++ (.plus, v) :: Q := by simp [T.post]
        rw [e2]; exact h2
      · simp only [T.absorb, if_true]
        rcases h3 with ⟨a, t', b, e⟩ | ⟨a, b⟩
        · exact Or.inl ⟨a, .bin .plus v l t', by rw [b]; rfl, by simp [T.post, e]⟩
        · exact Or.inr ⟨a, by rw [b]; rfl⟩
    · have hk := hok.1
      refine base _ P Q m lab ws hm ?_ (by simpa [T.root] using hu) (fun X hX => Or.inr ⟨?_, ?_⟩)
      · simp only [T.root]; rintro rfl; simp [binTok] at hk
      · exact binTok_not_leaf hk
      · simp [T.absorb, hu]
  | logic a sc l r _ _ =>
    intro _ P Q m lab ws hm
    exact base _ P Q m lab ws hm (by cases a <;> simp [T.root, logTok]) (by cases a <;> simp [T.root, logTok]) (fun X hX => Or.inr ⟨by cases a <;> simp [T.root, isNum, logTok], rfl⟩)
  | comma l r _ _ =>
    intro _ P Q m lab ws hm
    exact base _ P Q m lab ws hm (by simp [T.root]) (by simp [T.root]) (fun X hX => Or.inr ⟨by simp [T.root, isNum], rfl⟩)
  | cond sc a b d _ _ _ =>
    intro _ P Q m lab ws hm
    exact base _ P Q m lab ws hm (by simp [T.root]) (by simp [T.root]) (fun X hX => Or.inr ⟨by simp [T.root, isNum], rfl⟩)

theorem absorb_eq {t : T} {d : V} {j : Int} (hok : t.OK) (hs : stk = A ++ t.post ++ B) (hj : j = A.length + t.post.length - 1) :
    absorb j d ⟨stk, lab, ws⟩ = match t.absorb d with
      | some t' => .ok (true, ⟨A ++ t'.post ++ B, lab, ws⟩)
      | none => .ok (false, ⟨A ++ t.post ++ B, lab, ws⟩) := by
  subst hs hj
  obtain ⟨X, y, Z, h1, h2, h3⟩ := seek_absorb d t hok A B ((A ++ t.post ++ B).length : Int).toNat lab ws (by simp; omega)
  unfold absorb
  rw [bind_ok getSp_eq, bind_ok h2, bind_ok (getTok_at h1 rfl)]
  rcases h3 with ⟨a, t', b, e⟩ | ⟨a, b⟩
  · rw [if_pos a, b, bind_ok (setVal_at h1 rfl), e]; rfl
  · rw [if_neg a, b]; rfl

theorem absorb_length {d : V} : ∀ {t t' : T}, t.absorb d = some t' → t'.post.length = t.post.length
  | .num u v, t', h => by simp only [T.absorb, Option.some.injEq] at h; subst h; rfl
  | .localOfs o, t', h => by simp only [T.absorb, Option.some.injEq] at h; subst h; rfl
  | .ident s, t', h => by cases h
  | .logic .., t', h => by cases h
  | .comma .., t', h => by cases h
  | .cond .., t', h => by cases h
  | .un tok v t, t', h => by
    simp only [T.absorb] at h
    split at h
    · simp only [Option.map_eq_some_iff] at h
      obtain ⟨a, ha, rfl⟩ := h
      simp [T.post, absorb_length ha]
    · cases h
  | .bin tok v l r, t', h => by
    simp only [T.absorb] at h
    split at h
    · simp only [Option.map_eq_some_iff] at h
      obtain ⟨a, ha, rfl⟩ := h
      simp [T.post, absorb_length ha]
    · cases h

/-- the outcome of `addPtr` -/
def outT (A B : List (Tok × V)) (q : Ty × T) (ns : NS) : Ty × St := (q.1, ⟨A ++ q.2.post ++ B, ns.lab, ns.warns⟩)

variable {l r : TR} {left right : Int} {L R : Ty} {tok : Tok}

theorem sim_numPtr (hl : l.Good) (hr : r.Good) (hL : left = A.length + l.t.post.length - 1) (hR : right = A.length + l.t.post.length + r.t.post.length - 1) :
    Sim (addNumPtr c left right R l.s l.const) ⟨A ++ l.t.post ++ r.t.post ++ (.plus, 0#32) :: B, lab, ws⟩ (evNumPtr c R l r) ⟨lab, ws⟩ (outT A B) := by
  unfold addNumPtr evNumPtr
  refine sim_chk (fun inc _ => ?_)
  cases hc : l.const with
  | false =>
    simp only [Bool.false_eq_true, if_false]
    refine sim_scale (X := A ++ l.t.post) (Y := r.t.post ++ (.plus, 0#32) :: B) (by simp) (by subst hL; len) ?_
    exact sim_pure (by simp [outT, T.post, scale_post])
  | true =>
    simp only [if_true]
    obtain ⟨u, v, hu⟩ := hl.const hc
    have e1 := setVal_at (stk := A ++ l.t.post ++ r.t.post ++ (.plus, 0#32) :: B) (p := left) (lab := lab) (ws := ws) (v := l.s * BitVec.ofInt 32 inc) (X := A) (x := (numTok u, v))
      (Y := r.t.post ++ (.plus, 0#32) :: B) (by rw [hu]; simp [T.post]) (by subst hL; rw [hu]; len)
    have e2 := absorb_eq (stk := A ++ (numTok u, l.s * BitVec.ofInt 32 inc) :: (r.t.post ++ (.plus, 0#32) :: B)) (lab := lab) (ws := ws) (A := A ++ [(numTok u, l.s * BitVec.ofInt 32 inc)])
      (B := (.plus, 0#32) :: B) (d := l.s * BitVec.ofInt 32 inc) (j := right) hr.ok (by simp) (by subst hR; rw [hu]; len)
    cases ha : r.t.absorb (l.s * BitVec.ofInt 32 inc) with
    | none =>
      rw [ha] at e2
      refine sim_step (a := ()) (st' := ⟨A ++ (T.bin .plus 0#32 (l.t.setVal (l.s * BitVec.ofInt 32 inc)) r.t).post ++ B, lab, ws⟩) ?_ (sim_pure rfl)
      rw [bind_ok e1, bind_ok e2]
      show Except.ok _ = _
      rw [hu]; simp [T.post, T.setVal]
    | some t' =>
      rw [ha] at e2
      refine sim_step (a := ()) (st' := ⟨A ++ t'.post ++ B, lab, ws⟩) ?_ (sim_pure rfl)
      rw [bind_ok e1, bind_ok e2]
      simp only [if_true]
      have hlen := absorb_length ha
      rw [bind_ok getSp_eq, bind_ok (del_at (X := A) (Z := [(numTok u, l.s * BitVec.ofInt 32 inc)]) (Y := t'.post ++ (.plus, 0#32) :: B) (by simp) (by subst hL; rw [hu]; len) (by simp)),
        bind_ok getSp_eq]
      rw [del_at (X := A ++ t'.post) (Z := [(.plus, 0#32)]) (Y := B) (by simp) (by subst hR; rw [hu]; len) (by simp)]

theorem sim_ptrNum (hl : l.Good) (hr : r.Good) (hL : left = A.length + l.t.post.length - 1) (hR : right = A.length + l.t.post.length + r.t.post.length - 1) :
    Sim (addPtrNum c left right tok L r.s r.const) ⟨A ++ l.t.post ++ r.t.post ++ (tok, 0#32) :: B, lab, ws⟩ (evPtrNum c tok L l r) ⟨lab, ws⟩ (outT A B) := by
  unfold addPtrNum evPtrNum
  refine sim_chk (fun inc _ => ?_)
  cases hc : r.const with
  | false =>
    simp only [Bool.false_eq_true, if_false]
    refine sim_scale (X := A ++ l.t.post ++ r.t.post) (Y := (tok, 0#32) :: B) (by simp) (by subst hR; len) ?_
    exact sim_pure (by simp [outT, T.post, scale_post])
  | true =>
    simp only [if_true]
    obtain ⟨u, v, hu⟩ := hr.const hc
    have e1 := setVal_at (stk := A ++ l.t.post ++ r.t.post ++ (tok, 0#32) :: B) (p := right) (lab := lab) (ws := ws) (v := r.s * BitVec.ofInt 32 inc) (X := A ++ l.t.post) (x := (numTok u, v))
      (Y := (tok, 0#32) :: B) (by rw [hu]; simp [T.post]) (by subst hR; rw [hu]; len)
    generalize (if tok = Tok.minus then ~~~(r.s * BitVec.ofInt 32 inc - 1#32) else r.s * BitVec.ofInt 32 inc) = d
    have e2 := absorb_eq (stk := A ++ l.t.post ++ (numTok u, r.s * BitVec.ofInt 32 inc) :: (tok, 0#32) :: B) (lab := lab) (ws := ws) (A := A)
      (B := (numTok u, r.s * BitVec.ofInt 32 inc) :: (tok, 0#32) :: B) (d := d) (j := left) hl.ok (by simp) (by subst hL; omega)
    cases ha : l.t.absorb d with
    | none =>
      rw [ha] at e2
      refine sim_step (a := ()) (st' := ⟨A ++ (T.bin tok 0#32 l.t (r.t.setVal (r.s * BitVec.ofInt 32 inc))).post ++ B, lab, ws⟩) ?_ (sim_pure rfl)
      rw [bind_ok e1, bind_ok e2]
      show Except.ok _ = _
      rw [hu]; simp [T.post, T.setVal]
    | some t' =>
      rw [ha] at e2
      refine sim_step (a := ()) (st' := ⟨A ++ t'.post ++ B, lab, ws⟩) ?_ (sim_pure rfl)
      rw [bind_ok e1, bind_ok e2]
      simp only [if_true]
      have hlen := absorb_length ha
      rw [del_at (X := A ++ t'.post) (Z := [(numTok u, r.s * BitVec.ofInt 32 inc), (tok, 0#32)]) (Y := B) (by simp) (by subst hR; rw [hu]; len) (by simp)]

theorem sim_addPtr (hl : l.Good) (hr : r.Good) (hL : left = A.length + l.t.post.length - 1) (hR : right = A.length + l.t.post.length + r.t.post.length - 1) :
    Sim (addPtr c left right tok L R l.s r.s l.const r.const) ⟨A ++ l.t.post ++ r.t.post ++ (tok, 0#32) :: B, lab, ws⟩ (evAddPtr c tok L R l r) ⟨lab, ws⟩ (outT A B) := by
  unfold addPtr evAddPtr
  refine sim_ite (fun h => ?_) (fun _ => sim_ite (fun h => ?_) (fun _ => sim_ite (fun h => ?_) (fun _ => sim_ite (fun h => sim_fail) (fun _ => ?_))))
  · rw [h.2.2]; exact sim_numPtr hl hr hL hR
  · exact sim_ptrNum hl hr hL hR
  · unfold subPtr evSubPtr
    refine sim_chk (fun inc _ => sim_chk (fun inc' _ => sim_failIf (fun _ => ?_)))
    refine sim_scale (X := A ++ l.t.post ++ r.t.post ++ [(tok, 0#32)]) (Y := B) (by simp) (by subst hR; len) ?_
    exact sim_pure (by simp [outT, T.post, scale_post])
  · exact sim_pure (by simp [outT, T.post])

theorem sim_add {el er : E} {i : Int} (ht : tok = .plus ∨ tok = .minus) (hwl : el.WF c.env) (hwr : er.WF c.env) (hl : SimE c n el) (hr : SimE c n er)
    (hi : i = A.length + el.post.length + er.post.length - 1) :
    Sim (exprAdd c (exprval c n) i tok) ⟨A ++ el.post ++ er.post ++ (tok, 0#32) :: B, lab, ws⟩ (evAdd c tok (ev c el) (ev c er)) ⟨lab, ws⟩ (out A B) := by
  unfold exprAdd evAdd
  refine sim_step getSp_eq ?_
  refine sim_ev hr rfl (by subst hi; len) (fun r nr hre => ?_)
  refine sim_step getSp_eq ?_
  refine sim_ev (A := A) (B := r.t.post ++ (tok, 0#32) :: B) hl (by simp) (by len) (fun l nl hle => ?_)
  have gl := ev_good hwl _ _ _ hle
  have gr := ev_good hwr _ _ _ hre
  refine sim_chk (fun _ _ => sim_chk (fun _ _ => sim_chk (fun _ _ => sim_chk (fun _ _ => ?_))))
  refine sim_step getSp_eq ?_
  dsimp only
  have e : A ++ l.t.post ++ (r.t.post ++ (tok, 0#32) :: B) = A ++ l.t.post ++ r.t.post ++ (tok, 0#32) :: B := by simp
  rw [e]
  refine sim_bind (sim_addPtr (A := A) (B := B) gl gr (by len) (by subst hi; len)) (fun q nq hq => ?_)
  refine sim_step getSp_eq ?_
  dsimp only [outT]
  exact sim_simplify rfl (by subst hi; len) (by omega)

theorem sim_bin {el er : E} {i : Int} (hwr : er.WF c.env) (hl : SimE c n el) (hr : SimE c n er) (hi : i = A.length + el.post.length + er.post.length - 1) :
    Sim (exprBin c (exprval c n) i tok) ⟨A ++ el.post ++ er.post ++ (tok, 0#32) :: B, lab, ws⟩ (evBin c tok (ev c el) (ev c er)) ⟨lab, ws⟩ (out A B) := by
  unfold exprBin evBin
  refine sim_step getSp_eq ?_
  refine sim_ev hr rfl (by subst hi; len) (fun r nr hre => ?_)
  refine sim_ev (A := A) (B := r.t.post ++ (tok, 0#32) :: B) hl (by simp) (by len) (fun l nl hle => ?_)
  have gr := ev_good hwr _ _ _ hre
  refine sim_chk (fun _ _ => sim_chk (fun _ _ => ?_))
  refine sim_step getSp_eq ?_
  dsimp only
  have hcount : (binCalc c.W tok l.ty r.ty l.s r.s l.const r.const).count.isSome = true → r.const = true := by
    unfold binCalc
    dsimp only
    split <;> simp
    all_goals (intro h _; exact h)
  generalize binCalc c.W tok l.ty r.ty l.s r.s l.const r.const = k at hcount ⊢
  refine sim_bind (x := warn k.warn) (y := nwarn k.warn) (out := fun _ ns => ((), ⟨A ++ l.t.post ++ (r.t.post ++ (tok, 0#32) :: B), ns.lab, ns.warns⟩)) (Or.inr rfl) (fun _ nw _ => ?_)
  dsimp only
  refine sim_step (a := ()) (st' := ⟨A ++ l.t.post ++ (r.t.setVal? k.count).post ++ (tok, 0#32) :: B, nw.lab, nw.warns⟩) ?_ ?_
  · cases hk : k.count with
    | none =>
      show Except.ok _ = _
      simp [T.setVal?]
    | some v =>
      obtain ⟨u, v', hu⟩ := gr.const (hcount (by rw [hk]; rfl))
      show setVal _ v _ = _
      rw [setVal_at (X := A ++ l.t.post) (x := (numTok u, v')) (Y := (tok, 0#32) :: B) (by rw [hu]; simp [T.post]) (by subst hi; rw [hu]; len)]
      rw [hu]; simp [T.setVal?, T.setVal, T.post]
  · have hlen : (r.t.setVal? k.count).post.length = r.t.post.length := by
      cases k.count with
      | none => rfl
      | some v => cases hr : r.t <;> simp [T.setVal?, T.setVal, T.post]
    refine sim_step (setKind_at rfl (by subst hi; len)) ?_
    exact sim_simplify (by simp [T.post]) (by subst hi; len) (by omega)

theorem sim_rel {el er : E} {i : Int} (hl : SimE c n el) (hr : SimE c n er) (hi : i = A.length + el.post.length + er.post.length - 1) :
    Sim (exprRel c (exprval c n) i tok) ⟨A ++ el.post ++ er.post ++ (tok, 0#32) :: B, lab, ws⟩ (evRel c tok (ev c el) (ev c er)) ⟨lab, ws⟩ (out A B) := by
  unfold exprRel evRel
  refine sim_step getSp_eq ?_
  refine sim_ev hr rfl (by subst hi; len) (fun r nr hre => ?_)
  refine sim_ev (A := A) (B := r.t.post ++ (tok, 0#32) :: B) hl (by simp) (by len) (fun l nl hle => ?_)
  refine sim_chk (fun _ _ => ?_)
  refine sim_step getSp_eq ?_
  dsimp only
  refine sim_step (setKind_at (X := A ++ l.t.post ++ r.t.post) (x := (tok, 0#32)) (Y := B) (by simp) (by subst hi; len)) ?_
  exact sim_simplify (by simp [T.post]) (by subst hi; len) (by omega)

theorem sim_comma {el er : E} {i : Int} (hwl : el.WF c.env) (hl : SimE c n el) (hr : SimE c n er) (hi : i = A.length + el.post.length + er.post.length - 1) :
    Sim (exprComma (exprval c n) i) ⟨A ++ el.post ++ er.post ++ (.comma, 0#32) :: B, lab, ws⟩ (evComma (ev c el) (ev c er)) ⟨lab, ws⟩ (out A B) := by
  unfold exprComma evComma
  refine sim_step getSp_eq ?_
  refine sim_ev hr rfl (by subst hi; len) (fun r nr hre => ?_)
  refine sim_step getSp_eq ?_
  refine sim_ins (X := A ++ el.post) (Y := r.t.post ++ (.comma, 0#32) :: B) (by simp) (by len) ?_
  refine sim_ev (A := A) (B := (.void, 0#32) :: r.t.post ++ (.comma, 0#32) :: B) hl (by simp) (by len) (fun l nl hle => ?_)
  have gl := ev_good hwl _ _ _ hle
  refine sim_step getSp_eq ?_
  dsimp only
  cases hcl : l.const with
  | false =>
    simp only [Bool.false_and, Bool.false_eq_true, if_false]
    refine sim_step (x := pure ()) rfl ?_
    exact sim_pure (by simp [out, mk, T.post])
  | true =>
    obtain ⟨u, v, hu⟩ := gl.const hcl
    cases hcr : r.const with
    | true =>
      simp only [Bool.and_self, if_true, Bool.not_true, Bool.and_false, Bool.false_eq_true, if_false]
      exact sim_simplify (const := true) (t := .comma l.t r.t) (by simp [T.post]) (by subst hi; len) (by omega)
    | false =>
      simp only [Bool.and_false, Bool.false_eq_true, if_false, if_true, Bool.not_false, Bool.and_self]
      refine sim_step (a := ()) (st' := ⟨A ++ (T.un .uplus 0#32 r.t).post ++ B, nl.lab, nl.warns⟩) ?_ (sim_pure rfl)
      rw [bind_ok (del_at (X := A) (Z := [(numTok u, v), (.void, 0#32)]) (Y := r.t.post ++ (.comma, 0#32) :: B) (by rw [hu]; simp [T.post]) (by omega) (by rw [hu]; len)), bind_ok getSp_eq,
        setKind_at (X := A ++ r.t.post) (x := (.comma, 0#32)) (Y := B) (by simp) (by subst hi; len)]
      simp [T.post]

end Smlr.Expr
