import Verif.Parse.Spec
set_option autoImplicit false
/-! Every derivation is followed by the parser. -/
namespace Smlr.Parse
open Spec

variable {c : Cap} {α β : Type}

theorem bind_ok {x : P α} {f : α → P β} {s s' : PS} {a : α} (h : x s = .ok (a, s')) : (x >>= f) s = f a s' := by
  show P.bind x f s = _
  unfold P.bind
  rw [h]

theorem pure_ok (a : α) (s : PS) : (pure a : P α) s = .ok (a, s) := rfl

theorem bind_assoc {γ : Type} (x : P α) (f : α → P β) (g : β → P γ) : ((x >>= f) >>= g) = (x >>= fun a => f a >>= g) := by
  funext s
  show P.bind (P.bind x f) g s = P.bind x (fun a => P.bind (f a) g) s
  unfold P.bind
  cases x s with
  | error e => rfl
  | ok p => rfl

theorem getToken_cons {x : Lx} {I S O : List Lx} : getToken ⟨x :: I, S, O⟩ = .ok (x, ⟨I, S, O⟩) := rfl
theorem getSp_ok {I S O : List Lx} : getSp ⟨I, S, O⟩ = .ok (S.length, ⟨I, S, O⟩) := rfl
theorem push_ok {x : Lx} {I S O : List Lx} (h : S.length < c.S) : push c x ⟨I, S, O⟩ = .ok ((), ⟨I, S ++ [x], O⟩) := if_neg (by simp only; omega)
theorem pushop_ok {x : Lx} {I S O : List Lx} (h : O.length < c.P) : pushop c x ⟨I, S, O⟩ = .ok ((), ⟨I, S, x :: O⟩) := if_neg (by simp only; omega)
theorem pop_ok {x : Lx} {I S O : List Lx} : pop ⟨I, S ++ [x], O⟩ = .ok (x, ⟨I, S, O⟩) := by simp [pop]
theorem popop_ok {x : Lx} {I S O : List Lx} : popop ⟨I, S, x :: O⟩ = .ok (x, ⟨I, S, O⟩) := rfl
theorem optop_ok {x : Lx} {I S O : List Lx} : optop ⟨I, S, x :: O⟩ = .ok (x.1, ⟨I, S, x :: O⟩) := rfl
theorem failIf_ok {e : Err} {s : PS} {b : Bool} (h : b = false) : failIf b e s = .ok ((), s) := by subst h; rfl
theorem ins_ok {x : Lx} {I A F O : List Lx} {pos : Nat} (hp : pos = A.length) (h : (A ++ F).length < c.S) : ins c pos x ⟨I, A ++ F, O⟩ = .ok ((), ⟨I, A ++ x :: F, O⟩) := by
  subst hp
  unfold ins
  rw [if_neg (by simp only; omega)]
  simp

/-! ### moving -/

theorem moveOps_ok {I S O : List Lx} : ∀ (M : List Lx), M.length + O.length ≤ c.P → moveOps c M.length ⟨I, S ++ M, O⟩ = .ok ((), ⟨I, S, M ++ O⟩) := by
  intro M
  induction hm : M.length generalizing M O with
  | zero => intro _; rw [List.length_eq_zero_iff] at hm; subst hm; simp [moveOps]; rfl
  | succ n ih =>
    intro h
    rcases List.eq_nil_or_concat M with rfl | ⟨M', x, rfl⟩
    · cases hm
    rw [List.concat_eq_append] at hm ⊢
    have hm' : M'.length = n := by simpa using hm
    unfold moveOps
    rw [← List.append_assoc, bind_ok pop_ok, bind_ok (pushop_ok (by omega)), ih M' hm' (by simp; omega)]
    simp

theorem moveArg_ok {I A O : List Lx} {x : Lx} {pos : Nat} (hp : pos = A.length + 1) : ∀ (Y F : List Lx), (A ++ x :: (F ++ Y)).length ≤ c.S →
    moveArg c pos Y.length ⟨I, A ++ x :: (F ++ Y), O⟩ = .ok ((), ⟨I, A ++ x :: (Y ++ F), O⟩) := by
  intro Y
  induction hm : Y.length generalizing Y with
  | zero => intro F _; rw [List.length_eq_zero_iff] at hm; subst hm; simp [moveArg]; rfl
  | succ n ih =>
    intro F h
    rcases List.eq_nil_or_concat Y with rfl | ⟨Y', y, rfl⟩
    · cases hm
    rw [List.concat_eq_append] at hm h ⊢
    have hm' : Y'.length = n := by simpa using hm
    unfold moveArg
    have e : A ++ x :: (F ++ (Y' ++ [y])) = (A ++ x :: (F ++ Y')) ++ [y] := by simp
    have e2 : A ++ x :: (F ++ Y') = (A ++ [x]) ++ (F ++ Y') := by simp
    have e3 : (A ++ [x]) ++ y :: (F ++ Y') = A ++ x :: ((y :: F) ++ Y') := by simp
    rw [e, bind_ok pop_ok, e2, bind_ok (ins_ok (by simp [hp]) (by simp at h ⊢; omega)), e3, ih Y' hm' (y :: F) (by simp at h ⊢; omega)]
    simp

theorem popN_ok {I O : List Lx} : ∀ (M S : List Lx), (S ++ M).length ≤ c.S → popN c M.length ⟨I, S, M ++ O⟩ = .ok ((), ⟨I, S ++ M, O⟩) := by
  intro M
  induction M with
  | nil => intro S _; simp [popN]; rfl
  | cons m M ih =>
    intro S h
    show popN c (M.length + 1) _ = _
    unfold popN
    rw [List.cons_append, bind_ok popop_ok, bind_ok (push_ok (by simp at h; omega)), ih (S ++ [m]) (by simp at h ⊢; omega)]
    simp

/-- the operators for which `f` holds go to the expression stack -/
inductive Red (f : Tk → Bool) : List Lx × List Lx → List Lx × List Lx → Prop
  | refl (z) : Red f z z
  | op {S O z} (x : Tk) (hf : f x = true) (hq : x ≠ .quest) (h : Red f (S ++ [(x, 0)], O) z) : Red f (S, (x, 0) :: O) z
  | quest {S M O z} (hf : f .quest = true) (h : Red f (S ++ M ++ [(.quest, 0)], O) z) : Red f (S, (.quest, M.length) :: (M ++ O)) z

theorem Red.trans {f : Tk → Bool} {x y z : List Lx × List Lx} (h : Red f x y) (h' : Red f y z) : Red f x z := by
  induction h with
  | refl => exact h'
  | op x hf hq _ ih => exact .op x hf hq (ih h')
  | quest hf _ ih => exact .quest hf (ih h')

theorem Red.length {f : Tk → Bool} {x y : List Lx × List Lx} (h : Red f x y) : x.1.length ≤ y.1.length := by
  induction h with
  | refl => exact Nat.le_refl _
  | op x hf hq _ ih => simp at ih ⊢; omega
  | quest hf _ ih => simp at ih ⊢; omega

theorem popWhile_red {f : Tk → Bool} {I : List Lx} {y : Lx} {x z : List Lx × List Lx} (h : Red f x z) : ∀ {O : List Lx}, z.2 = y :: O → f y.1 = false → z.1.length ≤ c.S →
    ∀ n, x.2.length < n → popWhile c f n ⟨I, x.1, x.2⟩ = .ok ((), ⟨I, z.1, z.2⟩) := by
  induction h with
  | refl z =>
    intro O hz hf _ n hn
    obtain ⟨m, rfl⟩ : ∃ m, n = m + 1 := ⟨n - 1, by omega⟩
    unfold popWhile
    rw [hz, bind_ok optop_ok, hf]
    rfl
  | @op S O z x hf hq h ih =>
    intro O' hz hy hl n hn
    obtain ⟨m, rfl⟩ : ∃ m, n = m + 1 := ⟨n - 1, by omega⟩
    have hl' := h.length
    unfold popWhile
    simp only at hl' hn ⊢
    rw [bind_ok optop_ok]
    simp only [hf, if_true]
    rw [bind_ok (a := ()) (s' := ⟨I, S ++ [(x, 0)], O⟩)]
    · exact ih hz hy hl m (by simp at hn ⊢; omega)
    · unfold popOne
      rw [bind_ok popop_ok]
      simp only [hq, if_false]
      exact push_ok (by simp at hl'; omega)
  | @quest S M O z hf h ih =>
    intro O' hz hy hl n hn
    obtain ⟨m, rfl⟩ : ∃ m, n = m + 1 := ⟨n - 1, by omega⟩
    have hl' := h.length
    unfold popWhile
    simp only at hl' hn ⊢
    rw [bind_ok optop_ok]
    simp only [hf, if_true]
    rw [bind_ok (a := ()) (s' := ⟨I, S ++ M ++ [(.quest, 0)], O⟩)]
    · exact ih hz hy hl m (by simp at hn ⊢; omega)
    · unfold popOne
      rw [bind_ok popop_ok]
      simp only [if_true]
      rw [bind_ok (popN_ok M S (by simp at hl' ⊢; omega))]
      exact push_ok (by simp at hl' ⊢; omega)

theorem popAll_red {f : Tk → Bool} {I : List Lx} {y : Lx} {S O S' O' : List Lx} (h : Red f (S, O) (S', y :: O')) (hf : f y.1 = false) (hl : S'.length ≤ c.S) :
    popAll c f ⟨I, S, O⟩ = .ok ((), ⟨I, S', y :: O'⟩) :=
  popWhile_red h rfl hf hl _ (Nat.lt_succ_self _)

/-! ### what the parser is to do with a phrase -/

/-- the token is no postfix operator (and continues no string literal) -/
def noPost (t : Tk) : Prop := t ≠ .lpar ∧ t ≠ .lbrk ∧ t ≠ .inc ∧ t ≠ .dec ∧ t ≠ .dot ∧ t ≠ .arrow ∧ t ≠ .litStr

/-- the operators that stand on the operator stack -/
def isBin (t : Tk) : Prop := isop t = true ∧ isunary t = false

def PostS (c : Cap) (ts : List Lx) (e : Ex) : Prop :=
  ∀ A O cs sz u rest, u.1 ≠ Tk.litStr → A.length + 2 * ts.length ≤ c.S → O.length + 2 * ts.length ≤ c.P → ∃ k N, ∀ n, N ≤ n →
    (getToken >>= fun x => exprUnary c (n + k) x cs sz) ⟨ts ++ u :: rest, A, O⟩ =
      (postLoop c n A.length u >>= fun r => pure (fixComma cs r.1, r.2)) ⟨rest, A ++ e.post, O⟩

def UnS (c : Cap) (sz : Bool) (ts : List Lx) (e : Ex) : Prop :=
  ∀ A O cs t rest, noPost t.1 → A.length + 2 * ts.length ≤ c.S → O.length + 2 * ts.length ≤ c.P → ∃ N, ∀ n, N ≤ n →
    (getToken >>= fun x => exprUnary c n x cs sz) ⟨ts ++ t :: rest, A, O⟩ = .ok ((fixComma cs t, true), ⟨rest, A ++ e.post, O⟩)

/-- no operator of level `p` or higher causes the topmost operator to be moved -/
def Weak (p : Nat) (O : List Lx) : Prop := ∃ x O', O = x :: O' ∧ ∀ t, isBin t → p ≤ preced t → precedGEQ x.1 t = false

/-- read an operand and go on; `b` tells that the operand must be there -/
def start (c : Cap) (n : Nat) (cs b : Bool) : P (Lx × Bool) :=
  getToken >>= fun x => exprUnary c n x cs false >>= fun r => failIf (b && !r.2) .unexpected >>= fun _ => exprLoop c n r.1 r.2 cs

def ExS (c : Cap) (p : Nat) (ts : List Lx) (e : Ex) : Prop :=
  ∀ A O cs t rest f, (cs = true → 2 ≤ p) → noPost t.1 → Weak p O → (∀ o, isBin o → p ≤ preced o → f o = true) → A.length + 2 * ts.length ≤ c.S → O.length + 2 * ts.length ≤ c.P →
    ∃ S' O' k N, Red f (S', O') (A ++ e.post, O) ∧ ∀ n, N ≤ n → ∀ b, start c (n + k) cs b ⟨ts ++ t :: rest, A, O⟩ = exprLoop c n (fixComma cs t) true cs ⟨rest, S', O'⟩

def ArgS (c : Cap) (ts : List Lx) (e : Ex) : Prop :=
  ∀ A F O x acnt rest, (A ++ x :: F).length + 2 * ts.length ≤ c.S → O.length + 2 * ts.length + 1 ≤ c.P → ∃ N, ∀ n, N ≤ n →
    args c n A.length acnt ⟨ts ++ (.rpar, 0) :: rest, A ++ x :: F, O⟩ = .ok ((), ⟨rest, A ++ x :: (e.post ++ F), O⟩)

def ExprS (c : Cap) (cs : Bool) (ts : List Lx) (e : Ex) : Prop :=
  ∀ A O t rest, isStop (fixComma cs t).1 = true → A.length + 2 * ts.length ≤ c.S → O.length + 2 * ts.length + 1 ≤ c.P → ∃ N, ∀ n, N ≤ n →
    (getToken >>= fun x => expr c n x cs) ⟨ts ++ t :: rest, A, O⟩ = .ok ((fixComma cs t, true), ⟨rest, A ++ e.post, O⟩)

/-! ### tokens -/

theorem noPost_fix {cs : Bool} {t : Lx} (h : noPost t.1) : noPost (fixComma cs t).1 := by
  unfold fixComma
  split
  · simp [noPost]
  · exact h

theorem fix_fix (cs : Bool) (t : Lx) : fixComma cs (fixComma cs t) = fixComma cs t := by
  unfold fixComma
  split
  · rfl
  · rfl

theorem fix_ne {cs : Bool} {t : Lx} (h : t.1 ≠ .comma) : fixComma cs t = t := if_neg (fun h' => h h'.1)

theorem postLoop_stop {n pos : Nat} {t : Lx} {s : PS} (h : noPost t.1) : postLoop c (n + 1) pos t s = .ok ((t, true), s) := by
  obtain ⟨t, v⟩ := t
  obtain ⟨h1, h2, h3, h4, h5, h6, -⟩ := h
  cases t <;> first | contradiction | rfl

theorem noPost_of_stop {cs : Bool} {t : Lx} (h : isStop (fixComma cs t).1 = true) : noPost t.1 := by
  obtain ⟨t, v⟩ := t
  cases t <;> first | (simp [noPost]; done) | (simp [fixComma, isStop] at h; done)

theorem D_len {p : Nat} {ts : List Lx} {e : Ex} (h : D p ts e) : e.post.length ≤ 2 * ts.length := by
  induction h with
  | un op _ ih => cases op <;> simp [Ex.post, UOp.post] at ih ⊢ <;> omega
  | _ => simp_all [Ex.post] <;> omega

theorem D_head {p : Nat} {ts : List Lx} {e : Ex} (h : D p ts e) : ∃ x xs, ts = x :: xs ∧ x.1 ≠ .tname ∧ x.1 ≠ .rpar := by
  induction h with
  | lit k v hk => exact ⟨_, _, rfl, by cases k <;> simp [Lit.tk], by cases k <;> simp [Lit.tk]⟩
  | str v more h => exact ⟨_, _, rfl, by simp, by simp⟩
  | id v => exact ⟨_, _, rfl, by simp, by simp⟩
  | paren h ih => exact ⟨_, _, rfl, by simp, by simp⟩
  | pre dec h ih => exact ⟨_, _, rfl, by cases dec <;> simp, by cases dec <;> simp⟩
  | un op h ih => exact ⟨_, _, rfl, by cases op <;> simp [UOp.tk], by cases op <;> simp [UOp.tk]⟩
  | sizeofExpr h ih => exact ⟨_, _, rfl, by simp, by simp⟩
  | sizeofType t => exact ⟨_, _, rfl, by simp, by simp⟩
  | cast t h ih => exact ⟨_, _, rfl, by simp, by simp⟩
  | up hp h ih => exact ih
  | one h ih => exact ih
  | index ha hi iha ihi => obtain ⟨x, xs, rfl, hx⟩ := iha; exact ⟨_, _, rfl, hx⟩
  | call0 ha iha => obtain ⟨x, xs, rfl, hx⟩ := iha; exact ⟨_, _, rfl, hx⟩
  | call ha hi iha ihi => obtain ⟨x, xs, rfl, hx⟩ := iha; exact ⟨_, _, rfl, hx⟩
  | dot m ha iha => obtain ⟨x, xs, rfl, hx⟩ := iha; exact ⟨_, _, rfl, hx⟩
  | arrow m ha iha => obtain ⟨x, xs, rfl, hx⟩ := iha; exact ⟨_, _, rfl, hx⟩
  | «postfix» dec ha iha => obtain ⟨x, xs, rfl, hx⟩ := iha; exact ⟨_, _, rfl, hx⟩
  | bin op ha hi iha ihi => obtain ⟨x, xs, rfl, hx⟩ := iha; exact ⟨_, _, rfl, hx⟩
  | cond ha hi hr iha ihi ihr => obtain ⟨x, xs, rfl, hx⟩ := iha; exact ⟨_, _, rfl, hx⟩
  | assign op ha hi iha ihi => obtain ⟨x, xs, rfl, hx⟩ := iha; exact ⟨_, _, rfl, hx⟩
  | comma ha hi iha ihi => obtain ⟨x, xs, rfl, hx⟩ := iha; exact ⟨_, _, rfl, hx⟩
  | more ha hi iha ihi => obtain ⟨x, xs, rfl, hx⟩ := iha; exact ⟨_, _, rfl, hx⟩

theorem D_level {p : Nat} {ts : List Lx} {e : Ex} (h : D p ts e) : p ≤ 17 := by
  induction h with
  | bin op _ _ _ _ => cases op <;> simp [BOp.level]
  | up hp h ih => omega
  | _ => omega

/-! ### from postfix to unary expressions, and to binary ones -/

theorem unS_of_post {sz : Bool} {ts : List Lx} {e : Ex} (h : PostS c ts e) : UnS c sz ts e := by
  intro A O cs t rest ht hS hP
  obtain ⟨k, N, hN⟩ := h A O cs sz t rest ht.2.2.2.2.2.2 hS hP
  refine ⟨N + 1 + k, fun n hn => ?_⟩
  obtain ⟨m, rfl⟩ : ∃ m, n = (m + 1) + k := ⟨n - 1 - k, by omega⟩
  rw [hN (m + 1) (by omega), bind_ok (postLoop_stop ht)]
  rfl

theorem exS_of_un {ts : List Lx} {e : Ex} {p : Nat} (h : UnS c false ts e) : ExS c p ts e := by
  intro A O cs t rest f _ ht _ _ hS hP
  obtain ⟨N, hN⟩ := h A O cs t rest ht hS hP
  refine ⟨_, _, 0, N, .refl _, fun n hn b => ?_⟩
  unfold start
  rw [← bind_assoc]
  refine (bind_ok (hN n hn)).trans ?_
  exact bind_ok (failIf_ok (by simp))

theorem ExS.up {ts : List Lx} {e : Ex} {p : Nat} (h : ExS c (p + 1) ts e) : 1 ≤ p → ExS c p ts e := by
  intro h1 A O cs t rest f h2 ht hw hf hS hP
  refine h A O cs t rest f (fun _ => by omega) ht ?_ (fun o ho hp => hf o ho (by omega)) hS hP
  obtain ⟨x, O', hO, hx⟩ := hw
  exact ⟨x, O', hO, fun t ht hp => hx t ht (by omega)⟩

theorem eof_geq {t : Tk} (h : 1 ≤ preced t) : precedGEQ .eof t = false := by
  have e : preced .eof = 0 := rfl
  simp only [precedGEQ, e]
  simp
  omega

theorem exprS_of {cs : Bool} {ts : List Lx} {e : Ex} {p : Nat} (hp : 1 ≤ p) (hcs : cs = true → 2 ≤ p) (hd : D p ts e) (h : ExS c p ts e) : ExprS c cs ts e := by
  intro A O t rest ht hS hP
  have hlen := D_len hd
  obtain ⟨S', O', k, N, hr, hN⟩ := h A ((.eof, 0) :: O) cs t rest (· != .eof) hcs (noPost_of_stop ht) ⟨_, _, rfl, fun t _ hp' => eof_geq (by omega)⟩
    (fun o ho hp' => by cases o <;> simp_all [preced]) hS (by simp; omega)
  refine ⟨N + 2 + k, fun n hn => ?_⟩
  obtain ⟨m, rfl⟩ : ∃ m, n = (m + 1 + k) + 1 := ⟨n - 2 - k, by omega⟩
  obtain ⟨x, xs, rfl, -⟩ := D_head hd
  have e1 := hN (m + 1) (by omega) false
  unfold start at e1
  have e0 : ∀ (y : P (Lx × Bool)) (b : Bool), (failIf (false && b) .unexpected >>= fun _ => y) = y := fun y b => rfl
  simp only [e0] at e1
  rw [List.cons_append, bind_ok getToken_cons] at e1
  rw [List.cons_append, bind_ok getToken_cons]
  unfold expr
  rw [bind_ok (pushop_ok (by omega)), ← bind_assoc]
  have e2 : exprLoop c (m + 1) (fixComma cs t) true cs ⟨rest, S', O'⟩ = .ok ((fixComma cs t, true), ⟨rest, S', O'⟩) := by
    unfold exprLoop
    rw [ht]; rfl
  rw [e2] at e1
  rw [bind_ok e1, bind_ok (popAll_red hr rfl (by simp only [List.length_append]; omega)), bind_ok popop_ok]
  rfl

end Smlr.Parse
