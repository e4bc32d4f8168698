import Verif.Parse.Lemmas
set_option autoImplicit false
/-! The rules of the grammar, one by one. -/
namespace Smlr.Parse
open Spec

variable {c : Cap}

/-! ### binary operators -/

theorem loop_step {n : Nat} {op : Tk} {v : Nat} {cs : Bool} {I S O S' O' : List Lx} {y : Lx} (hb : isBin op) (hs : isStop op = false) (hq : op ≠ .quest)
    (hr : Red (precedGEQ · op) (S, O) (S', y :: O')) (hy : precedGEQ y.1 op = false) (hS : S'.length ≤ c.S) (hP : (y :: O').length < c.P) :
    exprLoop c (n + 2) (op, v) true cs ⟨I, S, O⟩ = start c (n + 1) cs true ⟨I, S', (op, 0) :: y :: O'⟩ := by
  show exprLoop c (n + 1 + 1) (op, v) true cs ⟨I, S, O⟩ = _
  unfold exprLoop
  simp only [hs, hb.1, hb.2]
  show (popAll c (precedGEQ · op) >>= _) _ = _
  rw [bind_ok (popAll_red hr hy hS)]
  show (quest c (n + 1) op >>= _) _ = _
  rw [bind_ok (a := ()) (s' := ⟨I, S', (op, 0) :: y :: O'⟩)]
  · rfl
  · unfold quest
    rw [if_neg hq]
    exact pushop_ok hP

theorem BOp.isBin (op : BOp) : isBin op.tk := by cases op <;> exact ⟨rfl, rfl⟩
theorem AOp.isBin (op : AOp) : isBin op.tk := by cases op <;> exact ⟨rfl, rfl⟩
theorem BOp.preced (op : BOp) : preced op.tk = op.level := by cases op <;> rfl
theorem AOp.preced (op : AOp) : preced op.tk = 2 := by cases op <;> rfl
theorem BOp.level_ge (op : BOp) : 4 ≤ op.level := by cases op <;> simp [BOp.level]

theorem geq_left {a b : Tk} {p : Nat} (ha : p ≤ preced a) (hb : preced b ≤ p) (hp : 4 ≤ p) : precedGEQ a b = true := by
  simp only [precedGEQ, decide_eq_true_eq, decide_eq_false_iff_not]
  split <;> split <;> omega

theorem geq_right {a b : Tk} (ha : preced a < preced b) : precedGEQ a b = false := by
  simp only [precedGEQ, decide_eq_true_eq, decide_eq_false_iff_not]
  split <;> split <;> omega

/-- a binary operator of level `p` whose right operand has level `q` -/
theorem ex_op {op v p q pa} {ts ts' : List Lx} {a b : Ex} (hb : isBin op) (hs : isStop op = false) (hn : noPost op) (hq : op ≠ .quest) {tk : Tk} (hp : preced op = p)
    (hfix : ∀ cs : Bool, (cs = true → 2 ≤ p) → fixComma cs (tk, v) = (op, v)) (hnt : noPost tk) (hpa : p ≤ pa)
    (hla : ∀ o, isBin o → pa ≤ preced o → precedGEQ o op = true)
    (hr : ∀ o, isBin o → q ≤ preced o → precedGEQ op o = false) (hpq : p ≤ q) (da : D pa ts a) (db : D q ts' b) (ha : ExS c pa ts a) (hb' : ExS c q ts' b) :
    ∀ A O cs t rest f, (cs = true → 2 ≤ p) → noPost t.1 → Weak p O → (∀ o, isBin o → p ≤ preced o → f o = true) →
      A.length + 2 * (ts ++ (tk, v) :: ts').length ≤ c.S → O.length + 2 * (ts ++ (tk, v) :: ts').length ≤ c.P →
    ∃ S' O' k N, Red f (S', O') (A ++ (a.post ++ b.post ++ [(op, 0)]), O) ∧
      ∀ n, N ≤ n → ∀ g, start c (n + k) cs g ⟨(ts ++ (tk, v) :: ts') ++ t :: rest, A, O⟩ = exprLoop c n (fixComma cs t) true cs ⟨rest, S', O'⟩ := by
  intro A O cs t rest f hcs ht hw hf hS hP
  have la := D_len da
  have lb := D_len db
  simp only [List.length_append, List.length_cons] at hS hP
  have hw' : Weak pa O := by
    obtain ⟨x, O', hO, hx⟩ := hw
    exact ⟨x, O', hO, fun t ht hp => hx t ht (by omega)⟩
  obtain ⟨S1, O1, k1, N1, r1, h1⟩ := ha A O cs (tk, v) (ts' ++ t :: rest) (precedGEQ · op) (fun h => by have := hcs h; omega) hnt hw' hla (by omega) (by omega)
  obtain ⟨x, O', rfl, hx⟩ := hw
  obtain ⟨S2, O2, k2, N2, r2, h2⟩ := hb' (A ++ a.post) ((op, 0) :: x :: O') cs t rest f (fun h => by have := hcs h; omega) ht ⟨_, _, rfl, hr⟩
    (fun o ho hp => hf o ho (by omega)) (by simp only [List.length_append]; omega) (by simp only [List.length_cons] at hP ⊢; omega)
  refine ⟨S2, O2, k2 + 1 + k1, N1 + N2 + 1, ?_, ?_⟩
  · refine r2.trans (.op op (hf op hb (by omega)) hq ?_)
    simp only [List.append_assoc]
    exact .refl _
  · intro n hn g
    obtain ⟨m, rfl⟩ : ∃ m, n = m + 1 := ⟨n - 1, by omega⟩
    have e : (ts ++ (tk, v) :: ts') ++ t :: rest = ts ++ (tk, v) :: (ts' ++ t :: rest) := by simp
    have e1 := h1 (m + 1 + k2 + 1) (by omega) g
    rw [e, show m + 1 + (k2 + 1 + k1) = m + 1 + k2 + 1 + k1 by omega, e1, hfix cs hcs, show m + 1 + k2 + 1 = (m + k2) + 2 by omega,
      loop_step hb hs hq r1 (hx op hb (by omega)) (by simp only [List.length_append]; omega) (by simp only [List.length_cons] at hP ⊢; omega)]
    have e2 := h2 (m + 1) (by omega) true
    rw [show m + k2 + 1 = m + 1 + k2 by omega]
    exact e2

theorem ex_bin {ts ts' : List Lx} {a b : Ex} (op : BOp) (da : D op.level ts a) (db : D (op.level + 1) ts' b) (ha : ExS c op.level ts a) (hb : ExS c (op.level + 1) ts' b) :
    ExS c op.level (ts ++ (op.tk, 0) :: ts') (.bin op a b) := by
  have h4 := BOp.level_ge op
  refine ex_op (op := op.tk) (BOp.isBin op) (by cases op <;> rfl) (by cases op <;> simp [BOp.tk, noPost]) (by cases op <;> simp [BOp.tk]) (BOp.preced op)
    (fun cs _ => fix_ne (by cases op <;> simp [BOp.tk])) (by cases op <;> simp [BOp.tk, noPost]) (Nat.le_refl _) ?_ ?_ (by omega) da db ha hb
  · intro o _ ho; exact geq_left ho (Nat.le_of_eq (BOp.preced op)) h4
  · intro o _ ho; exact geq_right (by rw [BOp.preced]; omega)

theorem ex_assign {ts ts' : List Lx} {a b : Ex} (op : AOp) (da : D 15 ts a) (db : D 2 ts' b) (ha : UnS c false ts a) (hb : ExS c 2 ts' b) :
    ExS c 2 (ts ++ (op.tk, 0) :: ts') (.assign op a b) := by
  refine ex_op (op := op.tk) (AOp.isBin op) (by cases op <;> rfl) (by cases op <;> simp [AOp.tk, noPost]) (by cases op <;> simp [AOp.tk]) (AOp.preced op)
    (fun cs _ => fix_ne (by cases op <;> simp [AOp.tk])) (by cases op <;> simp [AOp.tk, noPost]) (pa := 15) (q := 2) (by omega) ?_ ?_ (Nat.le_refl _) da db (exS_of_un ha) hb
  · intro o _ ho; exact geq_left (p := 15) ho (by rw [AOp.preced]; omega) (by omega)
  · intro o _ ho
    simp only [precedGEQ, AOp.preced, decide_eq_false_iff_not]
    split <;> split <;> omega

theorem ex_comma {ts ts' : List Lx} {a b : Ex} (da : D 1 ts a) (db : D 2 ts' b) (ha : ExS c 1 ts a) (hb : ExS c 2 ts' b) :
    ExS c 1 (ts ++ (.comma, 0) :: ts') (.comma a b) := by
  refine ex_op (op := .commaOp) ⟨rfl, rfl⟩ rfl (by simp [noPost]) (by simp) rfl (fun cs h => ?_) (by simp [noPost]) (pa := 1) (q := 2) (Nat.le_refl _) ?_ ?_ (by omega) da db ha hb
  · cases cs
    · rfl
    · exact absurd (h rfl) (by simp [preced])
  · intro o _ ho
    have e : preced .commaOp = 1 := rfl
    simp only [precedGEQ, e, decide_eq_true_eq]
    split <;> split <;> omega
  · intro o _ ho; exact geq_right (show 1 < _ by omega)

theorem ex_cond {tc tm tr : List Lx} {a b d : Ex} (da : D 4 tc a) (db : D 1 tm b) (dd : D 3 tr d) (ha : ExS c 4 tc a) (hb : ExprS c false tm b) (hd : ExS c 3 tr d) :
    ExS c 3 (tc ++ (.quest, 0) :: tm ++ (.colon, 0) :: tr) (.cond a b d) := by
  intro A O cs t rest f hcs ht hw hf hS hP
  have la := D_len da
  have lb := D_len db
  have ld := D_len dd
  simp only [List.length_append, List.length_cons] at hS hP
  have hw' : Weak 4 O := by
    obtain ⟨x, O', hO, hx⟩ := hw
    exact ⟨x, O', hO, fun t ht hp => hx t ht (by omega)⟩
  obtain ⟨S1, O1, k1, N1, r1, h1⟩ := ha A O cs (.quest, 0) (tm ++ (.colon, 0) :: (tr ++ t :: rest)) (precedGEQ · .quest) (fun h => by omega) (by simp [noPost]) hw'
    (fun o _ ho => geq_left ho (show 3 ≤ 4 by omega) (by omega)) (by omega) (by omega)
  obtain ⟨x, O', rfl, hx⟩ := hw
  obtain ⟨N3, h3⟩ := hb (A ++ a.post) (x :: O') (.colon, 0) (tr ++ t :: rest) rfl (by simp only [List.length_append]; omega) (by omega)
  have hrq : ∀ o, isBin o → 3 ≤ preced o → precedGEQ .quest o = false := by
    intro o _ ho
    have e : preced .quest = 3 := rfl
    simp only [precedGEQ, e, ge_iff_le, ho, and_self, if_true]
    simp
    omega
  obtain ⟨S2, O2, k2, N2, r2, h2⟩ := hd (A ++ a.post) ((.quest, b.post.length) :: (b.post ++ x :: O')) cs t rest f hcs ht ⟨_, _, rfl, hrq⟩
    hf (by simp only [List.length_append]; omega) (by simp only [List.length_cons, List.length_append] at hP ⊢; omega)
  refine ⟨S2, O2, k2 + 1 + k1, N1 + N2 + N3 + 1, ?_, ?_⟩
  · refine r2.trans (.quest (hf _ ⟨rfl, rfl⟩ (Nat.le_refl 3)) ?_)
    simp only [List.append_assoc, Ex.post]
    exact .refl _
  · intro n hn g
    obtain ⟨m, rfl⟩ : ∃ m, n = m + 1 := ⟨n - 1, by omega⟩
    have e : (tc ++ (.quest, 0) :: tm ++ (.colon, 0) :: tr) ++ t :: rest = tc ++ (.quest, 0) :: (tm ++ (.colon, 0) :: (tr ++ t :: rest)) := by simp
    have e1 := h1 (m + 1 + k2 + 1) (by omega) g
    rw [e, show m + 1 + (k2 + 1 + k1) = m + 1 + k2 + 1 + k1 by omega, e1, fix_ne (by simp)]
    unfold exprLoop
    simp only [isStop, isop, isunary]
    show (popAll c (precedGEQ · .quest) >>= _) _ = _
    rw [bind_ok (popAll_red r1 (hx .quest ⟨rfl, rfl⟩ (Nat.le_refl 3)) (by simp only [List.length_append]; omega))]
    show (quest c (m + 1 + k2) .quest >>= _) _ = _
    rw [bind_ok (a := ()) (s' := ⟨tr ++ t :: rest, A ++ a.post, (.quest, b.post.length) :: (b.post ++ x :: O')⟩)]
    · exact h2 (m + 1) (by omega) true
    · rw [show m + 1 + k2 = (m + k2) + 1 by omega]
      unfold quest
      rw [if_pos rfl, bind_ok getSp_ok, ← bind_assoc, bind_ok (h3 (m + k2) (by omega)), bind_ok (failIf_ok (by rfl)), bind_ok getSp_ok]
      have el : (A ++ a.post ++ b.post).length - (A ++ a.post).length = b.post.length := by simp only [List.length_append]; omega
      rw [el, bind_ok (moveOps_ok b.post (by omega))]
      exact pushop_ok (by simp only [List.length_cons, List.length_append] at hP ⊢; omega)

/-! ### unary operators -/

theorem un_op {tk : Tk} {ts : List Lx} {a : Ex} {L : List Lx} {sz sz' : Bool} (h1 : (isop tk && (isunary tk || isPrefix tk)) = true) (hsz : sz' = decide (tk = .sizeof)) (hlen : L.length ≤ 2)
    (hd : a.post.length ≤ 2 * ts.length)
    (hL : ∀ (I S O : List Lx), S.length + L.length ≤ c.S → pushUnary c tk ⟨I, S, O⟩ = .ok ((), ⟨I, S ++ L, O⟩)) (h : UnS c sz' ts a) :
    ∀ A O cs t rest, noPost t.1 → A.length + 2 * ((tk, 0) :: ts).length ≤ c.S → O.length + 2 * ((tk, 0) :: ts).length ≤ c.P → ∃ N, ∀ n, N ≤ n →
    (getToken >>= fun x => exprUnary c n x cs sz) ⟨((tk, 0) :: ts) ++ t :: rest, A, O⟩ = .ok ((fixComma cs t, true), ⟨rest, A ++ (a.post ++ L), O⟩) := by
  intro A O cs t rest ht hS hP
  simp only [List.length_cons] at hS hP
  obtain ⟨N, hN⟩ := h A O cs t rest ht (by omega) (by omega)
  refine ⟨N + 1, fun n hn => ?_⟩
  obtain ⟨m, rfl⟩ : ∃ m, n = m + 1 := ⟨n - 1, by omega⟩
  rw [List.cons_append, bind_ok getToken_cons]
  unfold exprUnary
  rw [if_pos h1, ← hsz, ← bind_assoc, bind_ok (hN m (by omega)), bind_ok (failIf_ok (by rfl)), bind_ok (hL _ _ _ (by simp only [List.length_append]; omega))]
  simp only [fix_fix, List.append_assoc]
  rfl

theorem un_pre {ts : List Lx} {a : Ex} (dec : Bool) (d : D 15 ts a) (h : UnS c false ts a) (sz : Bool) : UnS c sz ((if dec then .dec else .inc, 0) :: ts) (.pre dec a) := by
  refine un_op (by cases dec <;> rfl) (by cases dec <;> rfl) (L := [(if dec then .dec else .inc, 0)]) (by simp) (D_len d) (fun I S O hl => ?_) h
  cases dec <;> exact push_ok (by simp at hl; omega)

theorem un_un {ts : List Lx} {a : Ex} (op : UOp) (d : D 14 ts a) (h : UnS c false ts a) (sz : Bool) : UnS c sz ((op.tk, 0) :: ts) (.un op a) := by
  refine un_op (by cases op <;> rfl) (by cases op <;> rfl) (L := op.post) (by cases op <;> simp [UOp.post]) (D_len d) (fun I S O hl => ?_) h
  cases op with
  | lnot =>
    have hl' : S.length + 2 ≤ c.S := hl
    show (push c (.numInt, 0) >>= fun _ => push c (.eq, 0)) _ = _
    rw [bind_ok (push_ok (by omega)), push_ok (by simp; omega)]
    simp [UOp.post]
  | _ => exact push_ok (by simp [UOp.post] at hl; omega)

theorem un_sizeof {ts : List Lx} {a : Ex} (d : D 15 ts a) (h : UnS c true ts a) (sz : Bool) : UnS c sz ((.sizeof, 0) :: ts) (.sizeofExpr a) :=
  un_op rfl rfl (L := [(.sizeof, 0)]) (by simp) (D_len d) (fun I S O hl => push_ok (by simp at hl; omega)) h

theorem un_sizeofType (ty : Nat) (sz : Bool) : UnS c sz [(.sizeof, 0), (.lpar, 0), (.tname, ty), (.rpar, 0)] (.sizeofType ty) := by
  intro A O cs t rest ht hS hP
  simp only [List.length_cons, List.length_nil] at hS hP
  refine ⟨3, fun n hn => ?_⟩
  obtain ⟨m, rfl⟩ : ∃ m, n = m + 3 := ⟨n - 3, by omega⟩
  have h1 : primary c (m + 1) (.lpar, 0) cs true ⟨(.tname, ty) :: (.rpar, 0) :: t :: rest, A, O⟩ = .ok (⟨t, true, true⟩, ⟨rest, A ++ [(.sizeName, ty)], O⟩) := by
    show (push c (.sizeName, ty) >>= fun _ => pure _) (⟨rest, A, O⟩ : PS) = _
    rw [bind_ok (push_ok (by omega))]
    rfl
  have h2 : exprUnary c (m + 2) (.lpar, 0) cs true ⟨(.tname, ty) :: (.rpar, 0) :: t :: rest, A, O⟩ = .ok ((fixComma cs t, true), ⟨rest, A ++ [(.sizeName, ty)], O⟩) := by
    show (getSp >>= fun inspos => primary c (m + 1) (.lpar, 0) cs true >>= _) _ = _
    rw [bind_ok getSp_ok, bind_ok h1]
    rfl
  show (exprUnary c (m + 2) (.lpar, 0) cs true >>= _) (⟨(.tname, ty) :: (.rpar, 0) :: t :: rest, A, O⟩ : PS) = _
  rw [bind_ok h2, bind_ok (failIf_ok (by rfl)), bind_ok (show pushUnary c .sizeof _ = _ from push_ok (by simp; omega))]
  simp only [fix_fix, List.append_assoc]
  rfl

theorem un_cast {ts : List Lx} {a : Ex} (ty : Nat) (d : D 14 ts a) (h : UnS c false ts a) : UnS c false ((.lpar, 0) :: (.tname, ty) :: (.rpar, 0) :: ts) (.cast ty a) := by
  intro A O cs t rest ht hS hP
  have la := D_len d
  simp only [List.length_cons, List.length_nil] at hS hP
  obtain ⟨N, hN⟩ := h A O cs t rest ht (by omega) (by omega)
  refine ⟨N + 3, fun n hn => ?_⟩
  obtain ⟨m, rfl⟩ : ∃ m, n = m + 2 := ⟨n - 2, by omega⟩
  have h1 : primary c (m + 1) (.lpar, 0) cs false ⟨(.tname, ty) :: (.rpar, 0) :: ts ++ t :: rest, A, O⟩ = .ok (⟨fixComma cs t, true, false⟩, ⟨rest, A ++ a.post ++ [(.castName, ty)], O⟩) := by
    show (getToken >>= fun z => exprUnary c m z cs false >>= _) (⟨ts ++ t :: rest, A, O⟩ : PS) = _
    rw [← bind_assoc, bind_ok (hN m (by omega)), bind_ok (failIf_ok (by rfl)), bind_ok (push_ok (by simp only [List.length_append]; omega))]
    rfl
  rw [List.cons_append, bind_ok getToken_cons]
  show exprUnary c (m + 1 + 1) (.lpar, 0) cs false _ = _
  unfold exprUnary
  show (getSp >>= fun inspos => primary c (m + 1) (.lpar, 0) cs false >>= _) (⟨(.tname, ty) :: (.rpar, 0) :: ts ++ t :: rest, A, O⟩ : PS) = _
  rw [bind_ok getSp_ok, bind_ok h1]
  simp only [Bool.not_false, Bool.and_self, if_true]
  rw [bind_ok (postLoop_stop (noPost_fix ht))]
  simp only [fix_fix, List.append_assoc]
  rfl

/-! ### primary and postfix expressions -/

theorem post_prim {ts : List Lx} {e : Ex} {x : Lx} (hx : (isop x.1 && (isunary x.1 || isPrefix x.1)) = false)
    (h : ∀ A O cs sz u rest, u.1 ≠ Tk.litStr → A.length + 2 * (x :: ts).length ≤ c.S → O.length + 2 * (x :: ts).length ≤ c.P →
      ∃ N, ∀ n, N ≤ n → primary c n x cs sz ⟨ts ++ u :: rest, A, O⟩ = .ok (⟨u, true, false⟩, ⟨rest, A ++ e.post, O⟩)) : PostS c (x :: ts) e := by
  intro A O cs sz u rest hu hS hP
  obtain ⟨N, hN⟩ := h A O cs sz u rest hu hS hP
  refine ⟨1, N, fun n hn => ?_⟩
  rw [List.cons_append, bind_ok getToken_cons]
  show exprUnary c (n + 1) x cs sz _ = _
  unfold exprUnary
  rw [hx]
  show (getSp >>= fun inspos => primary c n x cs sz >>= _) _ = _
  rw [bind_ok getSp_ok, bind_ok (hN n hn)]
  rfl

theorem post_simple {e : Ex} {x : Lx} (hx : x.1 = .numInt ∨ x.1 = .numUint ∨ x.1 = .numFloat ∨ x.1 = .numWide ∨ x.1 = .ident) (he : e.post = [x]) : PostS c [x] e := by
  obtain ⟨k, v⟩ := x
  refine post_prim (by rcases hx with h | h | h | h | h <;> simp only at h <;> subst h <;> rfl) ?_
  intro A O cs sz u rest _ hS _
  simp only [List.length_cons, List.length_nil] at hS
  refine ⟨1, fun n hn => ?_⟩
  obtain ⟨m, rfl⟩ : ∃ m, n = m + 1 := ⟨n - 1, by omega⟩
  have h1 : primary c (m + 1) (k, v) cs sz = (push c (k, v) >>= fun _ => getToken >>= fun x => pure ⟨x, true, false⟩) := by
    rcases hx with h | h | h | h | h <;> simp only at h <;> subst h <;> rfl
  rw [h1, bind_ok (push_ok (by omega)), he]
  rfl

theorem skip_more {u : Lx} {rest : List Lx} (hu : u.1 ≠ .litStr) : ∀ (more : List Lx), (∀ x ∈ more, x.1 = .litStr) → skipStr (more ++ u :: rest) = (u, rest)
  | [], _ => by simp [skipStr, hu]
  | x :: xs, h => by
    rw [List.cons_append, skipStr, if_pos (h x (by simp))]
    exact skip_more hu xs (fun y hy => h y (by simp [hy]))

theorem post_str (v : Nat) (more : List Lx) (h : ∀ x ∈ more, x.1 = Tk.litStr) : PostS c ((.litStr, v) :: more) (.lit .str v) := by
  refine post_prim rfl ?_
  intro A O cs sz u rest hu hS _
  simp only [List.length_cons] at hS
  refine ⟨1, fun n hn => ?_⟩
  obtain ⟨m, rfl⟩ : ∃ m, n = m + 1 := ⟨n - 1, by omega⟩
  unfold primary
  show (getAfterStr >>= _) _ = _
  rw [bind_ok (show getAfterStr ⟨more ++ u :: rest, A, O⟩ = .ok (u, ⟨rest, A, O⟩) by simp only [getAfterStr, skip_more hu more h]), bind_ok (push_ok (by omega))]
  rfl

theorem post_paren {ts : List Lx} {e : Ex} (d : D 1 ts e) (h : ExprS c false ts e) : PostS c ((.lpar, 0) :: ts ++ [(.rpar, 0)]) e := by
  rw [List.cons_append]
  refine post_prim rfl ?_
  intro A O cs sz u rest hu hS hP
  simp only [List.length_cons, List.length_append, List.length_nil] at hS hP
  obtain ⟨N, hN⟩ := h A O (.rpar, 0) (u :: rest) rfl (by omega) (by omega)
  refine ⟨N + 1, fun n hn => ?_⟩
  obtain ⟨m, rfl⟩ : ∃ m, n = m + 1 := ⟨n - 1, by omega⟩
  have h1 := hN m (by omega)
  obtain ⟨x, xs, rfl, hx, -⟩ := D_head d
  rw [List.cons_append, bind_ok getToken_cons] at h1
  rw [List.append_assoc, List.cons_append]
  unfold primary
  show (getToken >>= _) _ = _
  rw [bind_ok getToken_cons]
  simp only [hx, if_false]
  rw [show xs ++ ([(.rpar, 0)] ++ u :: rest) = xs ++ (Tk.rpar, 0) :: u :: rest from rfl, bind_ok h1, bind_ok (failIf_ok (by rfl)), bind_ok (failIf_ok (by rfl))]
  rfl

/-- a postfix operator -/
theorem post_step {ts tp : List Lx} {a e : Ex} {x : Lx} (hx : x.1 ≠ .litStr) (ha : PostS c ts a)
    (h : ∀ A O u rest, u.1 ≠ Tk.litStr → A.length + 2 * (ts ++ x :: tp).length ≤ c.S → O.length + 2 * (ts ++ x :: tp).length ≤ c.P →
      ∃ N, ∀ n, N ≤ n → postLoop c (n + 1) A.length x ⟨tp ++ u :: rest, A ++ a.post, O⟩ = postLoop c n A.length u ⟨rest, A ++ e.post, O⟩) :
    PostS c (ts ++ x :: tp) e := by
  intro A O cs sz u rest hu hS hP
  obtain ⟨N, hN⟩ := h A O u rest hu hS hP
  simp only [List.length_append, List.length_cons] at hS hP
  obtain ⟨k, N', hN'⟩ := ha A O cs sz x (tp ++ u :: rest) hx (by omega) (by omega)
  refine ⟨k + 1, N + N', fun n hn => ?_⟩
  have e1 := hN' (n + 1) (by omega)
  rw [show n + 1 + k = n + (k + 1) by omega] at e1
  rw [List.append_assoc, List.cons_append, e1]
  show P.bind _ _ _ = P.bind _ _ _
  unfold P.bind
  rw [hN n (by omega)]

theorem post_incdec {ts : List Lx} {a : Ex} (dec : Bool) (d : D 16 ts a) (h : PostS c ts a) : PostS c (ts ++ [(if dec then .dec else .inc, 0)]) (.postfix dec a) := by
  refine post_step (by cases dec <;> simp) h ?_
  intro A O u rest _ hS _
  have la := D_len d
  simp only [List.length_append, List.length_cons, List.length_nil] at hS
  refine ⟨0, fun n _ => ?_⟩
  have h1 : postLoop c (n + 1) A.length (if dec then .dec else .inc, 0) = (push c (if dec then .postDec else .postInc, 0) >>= fun _ => getToken >>= fun y => postLoop c n A.length y) := by
    cases dec <;> rfl
  rw [h1, bind_ok (push_ok (by simp only [List.length_append]; omega)), List.append_assoc]
  rfl

theorem post_dot {ts : List Lx} {a : Ex} (m : Nat) (d : D 16 ts a) (h : PostS c ts a) : PostS c (ts ++ [(.dot, 0), (.ident, m)]) (.dot a m) := by
  refine post_step (by simp) h ?_
  intro A O u rest _ hS _
  have la := D_len d
  simp only [List.length_append, List.length_cons, List.length_nil] at hS
  refine ⟨0, fun n _ => ?_⟩
  show (push c (.uAnd, 0) >>= fun _ => getToken >>= fun x => failIf (x.1 != .ident) .unexpected >>= fun _ => push c x >>= fun _ => push c (.arrow, 0) >>= fun _ => push c (.uStar, 0)
    >>= fun _ => getToken >>= fun y => postLoop c n A.length y) _ = _
  rw [bind_ok (push_ok (by simp only [List.length_append]; omega))]
  show (failIf false .unexpected >>= fun _ => push c (.ident, m) >>= fun _ => push c (.arrow, 0) >>= fun _ => push c (.uStar, 0)
    >>= fun _ => getToken >>= fun y => postLoop c n A.length y) (⟨u :: rest, A ++ a.post ++ [(.uAnd, 0)], O⟩ : PS) = _
  rw [bind_ok (failIf_ok rfl), bind_ok (push_ok (by simp; omega)), bind_ok (push_ok (by simp; omega)), bind_ok (push_ok (by simp; omega))]
  simp only [List.append_assoc]
  rfl

theorem post_arrow {ts : List Lx} {a : Ex} (m : Nat) (d : D 16 ts a) (h : PostS c ts a) : PostS c (ts ++ [(.arrow, 0), (.ident, m)]) (.arrow a m) := by
  refine post_step (by simp) h ?_
  intro A O u rest _ hS _
  have la := D_len d
  simp only [List.length_append, List.length_cons, List.length_nil] at hS
  refine ⟨0, fun n _ => ?_⟩
  show (failIf false .unexpected >>= fun _ => push c (.ident, m) >>= fun _ => push c (.arrow, 0) >>= fun _ => push c (.uStar, 0)
    >>= fun _ => getToken >>= fun y => postLoop c n A.length y) (⟨u :: rest, A ++ a.post, O⟩ : PS) = _
  rw [bind_ok (failIf_ok rfl), bind_ok (push_ok (by simp; omega)), bind_ok (push_ok (by simp; omega)), bind_ok (push_ok (by simp; omega))]
  simp only [List.append_assoc]
  rfl

theorem post_index {ts ti : List Lx} {a i : Ex} (d : D 16 ts a) (di : D 1 ti i) (h : PostS c ts a) (hi : ExprS c false ti i) :
    PostS c (ts ++ (.lbrk, 0) :: ti ++ [(.rbrk, 0)]) (.index a i) := by
  rw [List.append_assoc, List.cons_append]
  refine post_step (by simp) h ?_
  intro A O u rest _ hS hP
  have la := D_len d
  have li := D_len di
  simp only [List.length_append, List.length_cons, List.length_nil] at hS hP
  obtain ⟨N, hN⟩ := hi (A ++ a.post) O (.rbrk, 0) (u :: rest) rfl (by simp only [List.length_append]; omega) (by omega)
  refine ⟨N, fun n hn => ?_⟩
  obtain ⟨R, hR⟩ : ∃ R, R = postLoop c n A.length u ⟨rest, A ++ (Ex.index a i).post, O⟩ := ⟨_, rfl⟩
  rw [← hR]
  unfold postLoop
  show (getToken >>= fun x => expr c n x false >>= _) _ = _
  rw [← bind_assoc, show ti ++ [(Tk.rbrk, 0)] ++ u :: rest = ti ++ (Tk.rbrk, 0) :: u :: rest by simp, bind_ok (hN n hn), bind_ok (failIf_ok (by rfl)), bind_ok (failIf_ok (by rfl)),
    bind_ok (push_ok (by simp; omega)), bind_ok (push_ok (by simp; omega)), bind_ok getToken_cons, hR]
  simp [Ex.post]

/-- the list of arguments is read from its beginning -/
def ArgF (c : Cap) (ts : List Lx) (e : Ex) : Prop :=
  ∀ A F O x rest, (A ++ x :: F).length + 2 * ts.length ≤ c.S → O.length + 2 * ts.length + 1 ≤ c.P → ∃ N, ∀ n, N ≤ n →
    args c n A.length false ⟨ts ++ (.rpar, 0) :: rest, A ++ x :: F, O⟩ = .ok ((), ⟨rest, A ++ x :: (e.post ++ F), O⟩)

theorem post_call {ts ta : List Lx} {f as : Ex} (d : D 16 ts f) (da : as.post.length ≤ 2 * ta.length) (h : PostS c ts f) (ha : ArgF c ta as) :
    PostS c (ts ++ (.lpar, 0) :: ta ++ [(.rpar, 0)]) (.call f as) := by
  rw [List.append_assoc, List.cons_append]
  refine post_step (by simp) h ?_
  intro A O u rest _ hS hP
  have la := D_len d
  simp only [List.length_append, List.length_cons, List.length_nil] at hS hP
  obtain ⟨N, hN⟩ := ha A f.post O (.lpar, 0) (u :: rest) (by simp only [List.length_append, List.length_cons]; omega) (by omega)
  refine ⟨N, fun n hn => ?_⟩
  obtain ⟨R, hR⟩ : ∃ R, R = postLoop c n A.length u ⟨rest, A ++ (Ex.call f as).post, O⟩ := ⟨_, rfl⟩
  rw [← hR]
  unfold postLoop
  show (ins c A.length (.lpar, 0) >>= fun _ => args c n A.length false >>= _) _ = _
  rw [bind_ok (ins_ok rfl (by simp only [List.length_append]; omega)), show ta ++ [(Tk.rpar, 0)] ++ u :: rest = ta ++ (Tk.rpar, 0) :: u :: rest by simp, bind_ok (hN n hn),
    bind_ok (push_ok (by simp; omega)), bind_ok getToken_cons, hR]
  simp [Ex.post]

theorem arg_one {ts : List Lx} {a : Ex} (d : D 2 ts a) (h : ExprS c true ts a) : ArgS c ts (.one a) := by
  intro A F O x acnt rest hS hP
  have la := D_len d
  obtain ⟨N, hN⟩ := h (A ++ x :: F) O (.rpar, 0) rest rfl hS hP
  refine ⟨N + 1, fun n hn => ?_⟩
  obtain ⟨m, rfl⟩ : ∃ m, n = m + 1 := ⟨n - 1, by omega⟩
  unfold args
  rw [bind_ok getSp_ok, ← bind_assoc, bind_ok (hN m (by omega)), bind_ok getSp_ok]
  have el : (A ++ x :: F ++ a.post).length - (A ++ x :: F).length = a.post.length := by simp only [List.length_append]; omega
  have e2 : A ++ x :: F ++ a.post = A ++ x :: (F ++ a.post) := by simp
  rw [el, e2, bind_ok (moveArg_ok rfl a.post F (by rw [← e2]; simp only [List.length_append] at hS ⊢; omega))]
  show (failIf false .unexpected >>= fun _ => failIf (acnt && false) .unexpected) _ = _
  rw [bind_ok (failIf_ok rfl), failIf_ok (by simp)]
  rfl

theorem arg_more {ts ts' : List Lx} {a r : Ex} (d : D 2 ts a) (h : ExprS c true ts a) (hr : ArgS c ts' r) : ArgS c (ts ++ (.comma, 0) :: ts') (.more a r) := by
  intro A F O x acnt rest hS hP
  have la := D_len d
  simp only [List.length_append, List.length_cons] at hS hP
  obtain ⟨N, hN⟩ := h (A ++ x :: F) O (.comma, 0) (ts' ++ (.rpar, 0) :: rest) rfl (by simp only [List.length_append, List.length_cons]; omega) (by omega)
  obtain ⟨N2, hN2⟩ := hr A ((.comma, 0) :: (a.post ++ F)) O x true rest (by simp only [List.length_append, List.length_cons]; omega) (by omega)
  refine ⟨N + N2 + 1, fun n hn => ?_⟩
  obtain ⟨m, rfl⟩ : ∃ m, n = m + 1 := ⟨n - 1, by omega⟩
  unfold args
  have e0 : (ts ++ (Tk.comma, 0) :: ts') ++ (Tk.rpar, 0) :: rest = ts ++ (Tk.comma, 0) :: (ts' ++ (Tk.rpar, 0) :: rest) := by simp
  rw [e0, bind_ok getSp_ok, ← bind_assoc, bind_ok (hN m (by omega)), bind_ok getSp_ok]
  have el : (A ++ x :: F ++ a.post).length - (A ++ x :: F).length = a.post.length := by simp only [List.length_append]; omega
  have e2 : A ++ x :: F ++ a.post = A ++ x :: (F ++ a.post) := by simp
  rw [el, e2, bind_ok (moveArg_ok rfl a.post F (by rw [← e2]; simp only [List.length_append, List.length_cons] at hS ⊢; omega))]
  show (failIf false .unexpected >>= fun _ => ins c (A.length + 1) (.comma, 0) >>= fun _ => args c m A.length true) _ = _
  have e3 : A ++ x :: (a.post ++ F) = (A ++ [x]) ++ (a.post ++ F) := by simp
  have e4 : (A ++ [x]) ++ (Tk.comma, 0) :: (a.post ++ F) = A ++ x :: ((Tk.comma, 0) :: (a.post ++ F)) := by simp
  rw [bind_ok (failIf_ok rfl), e3, bind_ok (ins_ok (by simp) (by simp; omega)), e4, hN2 m (by omega)]
  simp [Ex.post]

/-- an empty list of arguments -/
theorem arg_none : ArgF c [] .none := by
  intro A F O x rest hS hP
  simp only [List.length_nil] at hP
  refine ⟨4, fun n hn => ?_⟩
  obtain ⟨m, rfl⟩ : ∃ m, n = m + 4 := ⟨n - 4, by omega⟩
  have h1 : expr c (m + 3) (.rpar, 0) true ⟨rest, A ++ x :: F, O⟩ = .ok (((.rpar, 0), false), ⟨rest, A ++ x :: F, O⟩) := by
    unfold expr
    rw [bind_ok (pushop_ok (by omega))]
    rw [bind_ok (show exprUnary c (m + 2) (.rpar, 0) true false ⟨rest, A ++ x :: F, (.eof, 0) :: O⟩ = .ok (((.rpar, 0), false), _) from rfl),
      bind_ok (show exprLoop c (m + 2) (.rpar, 0) false true ⟨rest, A ++ x :: F, (.eof, 0) :: O⟩ = .ok (((.rpar, 0), false), _) from rfl), bind_ok (popAll_red (.refl _) rfl (by omega)), bind_ok popop_ok]
    rfl
  unfold args
  rw [bind_ok getSp_ok, List.nil_append, bind_ok getToken_cons, bind_ok h1, bind_ok getSp_ok]
  rw [Nat.sub_self, bind_ok (show moveArg c (A.length + 1) 0 _ = _ from rfl)]
  rfl

theorem argF_of {ts : List Lx} {e : Ex} (h : ArgS c ts e) : ArgF c ts e := fun A F O x rest => h A F O x false rest

/-! ### all rules together -/

/-- what is proved of a phrase of each level -/
def Good (c : Cap) (p : Nat) (ts : List Lx) (e : Ex) : Prop :=
  (16 ≤ p → PostS c ts e) ∧ (15 ≤ p → ∀ sz, UnS c sz ts e) ∧ (14 ≤ p → UnS c false ts e) ∧ (1 ≤ p → ExS c p ts e) ∧ (p = 0 → ArgS c ts e)

theorem good_post {p : Nat} {ts : List Lx} {e : Ex} (hp : 16 ≤ p) (h : PostS c ts e) : Good c p ts e :=
  ⟨fun _ => h, fun _ _ => unS_of_post h, fun _ => unS_of_post h, fun _ => exS_of_un (unS_of_post h), fun h => by omega⟩

theorem good_un {ts : List Lx} {e : Ex} (h : ∀ sz, UnS c sz ts e) : Good c 15 ts e :=
  ⟨fun h => by omega, fun _ => h, fun _ => h false, fun _ => exS_of_un (h false), fun h => by omega⟩

theorem good_ex {p : Nat} {ts : List Lx} {e : Ex} (hp : 1 ≤ p) (hq : p ≤ 13) (h : ExS c p ts e) : Good c p ts e :=
  ⟨fun h => by omega, fun h => by omega, fun h => by omega, fun _ => h, fun h => by omega⟩

theorem Good.expr {p : Nat} {ts : List Lx} {e : Ex} {cs : Bool} (h : Good c p ts e) (d : D p ts e) (hp : 1 ≤ p) (hcs : cs = true → 2 ≤ p) : ExprS c cs ts e :=
  exprS_of hp hcs d (h.2.2.2.1 hp)

theorem D_good {p : Nat} {ts : List Lx} {e : Ex} (d : D p ts e) : Good c p ts e := by
  induction d with
  | lit k v hk => exact good_post (by omega) (post_simple (by cases k <;> simp_all [Lit.tk]) rfl)
  | str v more h => exact good_post (by omega) (post_str v more h)
  | id v => exact good_post (by omega) (post_simple (by simp) rfl)
  | paren h ih => exact good_post (by omega) (post_paren h (ih.expr h (by omega) (by simp)))
  | index ha hi iha ihi => exact good_post (by omega) (post_index ha hi (iha.1 (by omega)) (ihi.expr hi (by omega) (by simp)))
  | call0 hf ih => 
    have h := post_call (ta := []) hf (by simp [Ex.post]) (ih.1 (by omega)) arg_none
    rw [List.append_assoc] at h
    exact good_post (by omega) h
  | call hf ha ihf iha => exact good_post (by omega) (post_call hf (D_len ha) (ihf.1 (by omega)) (argF_of (iha.2.2.2.2 rfl)))
  | dot m h ih => exact good_post (by omega) (post_dot m h (ih.1 (by omega)))
  | arrow m h ih => exact good_post (by omega) (post_arrow m h (ih.1 (by omega)))
  | «postfix» dec h ih => exact good_post (by omega) (post_incdec dec h (ih.1 (by omega)))
  | pre dec h ih => exact good_un (un_pre dec h (ih.2.1 (by omega) false))
  | un op h ih => exact good_un (un_un op h (ih.2.2.1 (by omega)))
  | sizeofExpr h ih => exact good_un (un_sizeof h (ih.2.1 (by omega) true))
  | sizeofType t => exact good_un (un_sizeofType t)
  | cast t h ih =>
    have hu := un_cast t h (ih.2.2.1 (by omega))
    exact ⟨fun h => by omega, fun h => by omega, fun _ => hu, fun _ => exS_of_un hu, fun h => by omega⟩
  | bin op ha hb iha ihb =>
    have : 4 ≤ op.level ∧ op.level ≤ 13 := by cases op <;> simp [BOp.level]
    exact good_ex (by omega) (by omega) (ex_bin op ha hb (iha.2.2.2.1 (by omega)) (ihb.2.2.2.1 (by omega)))
  | cond hc hm hr ihc ihm ihr => exact good_ex (by omega) (by omega) (ex_cond hc hm hr (ihc.2.2.2.1 (by omega)) (ihm.expr hm (by omega) (by simp)) (ihr.2.2.2.1 (by omega)))
  | assign op ha hb iha ihb => exact good_ex (by omega) (by omega) (ex_assign op ha hb (iha.2.2.1 (by omega)) (ihb.2.2.2.1 (by omega)))
  | comma ha hb iha ihb => exact good_ex (by omega) (by omega) (ex_comma ha hb (iha.2.2.2.1 (by omega)) (ihb.2.2.2.1 (by omega)))
  | @up p ts e hp h ih =>
    exact ⟨fun h => ih.1 (by omega), fun h => ih.2.1 (by omega), fun h => ih.2.2.1 (by omega), fun h => (ih.2.2.2.1 (by omega)).up hp, fun h => by omega⟩
  | one h ih => exact ⟨fun h => by omega, fun h => by omega, fun h => by omega, fun h => by omega, fun _ => arg_one h (ih.expr h (by omega) (by simp))⟩
  | more ha hr iha ihr =>
    exact ⟨fun h => by omega, fun h => by omega, fun h => by omega, fun h => by omega, fun _ => arg_more ha (iha.expr ha (by omega) (by simp)) (ihr.2.2.2.2 rfl)⟩

end Smlr.Parse
