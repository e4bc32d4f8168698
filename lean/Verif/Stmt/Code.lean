import Verif.Stmt.Facts
import Verif.Stmt.Rel
set_option autoImplicit false
/-! The code for a tree does what the tree says. -/
namespace Smlr.Stmt
open Spec

section
variable {L : Lang}

/-- the code at `p` is `c` -/
def Seg (code : List (I L.X)) (p : Nat) (c : List (I L.X)) : Prop := ∀ i x, c[i]? = some x → code[p + i]? = some x

theorem Seg.head {code : List (I L.X)} {p : Nat} {x : I L.X} {c : List (I L.X)} (h : Seg code p (x :: c)) : code[p]? = some x := h 0 x rfl
theorem Seg.tail {code : List (I L.X)} {p : Nat} {x : I L.X} {c : List (I L.X)} (h : Seg code p (x :: c)) : Seg code (p + 1) c := fun i y hy => by
  have := h (i + 1) y (by simpa using hy)
  rwa [show p + 1 + i = p + (i + 1) by omega]
theorem Seg.left {code : List (I L.X)} {p : Nat} {a b : List (I L.X)} (h : Seg code p (a ++ b)) : Seg code p a := fun i y hy => by
  refine h i y ?_
  have hi : i < a.length := by
    rcases Nat.lt_or_ge i a.length with h' | h'
    · exact h'
    · rw [List.getElem?_eq_none h'] at hy; cases hy
  rwa [List.getElem?_append_left hi]
theorem Seg.right {code : List (I L.X)} {p : Nat} {a b : List (I L.X)} (h : Seg code p (a ++ b)) : Seg code (p + a.length) b := fun i y hy => by
  have := h (a.length + i) y (by rw [List.getElem?_append_right (by omega)]; rwa [Nat.add_sub_cancel_left])
  rwa [Nat.add_assoc]
theorem Seg.cast {code : List (I L.X)} {p q : Nat} {c : List (I L.X)} (h : Seg code p c) (e : p = q) : Seg code q c := e ▸ h

theorem Seg.jn {code : List (I L.X)} {p l : Nat} {e : L.E} (h : Seg code p (jn e l)) : CN code (some e) l p (p + (Smlr.Stmt.jn e l).length) := by
  unfold CN
  unfold Smlr.Stmt.jn at h ⊢
  cases hc : L.const e with
  | some v =>
    simp only [hc] at h ⊢
    by_cases hv : L.trunc v = 0
    · simp only [hv, if_true] at h ⊢
      exact h.head
    · simp only [hv, if_false] at h ⊢
      rfl
  | none =>
    simp only [hc] at h ⊢
    by_cases hr : rel e = true
    · simp only [hr, if_true] at h ⊢
      exact .inl ⟨h.head, rfl⟩
    · simp only [hr] at h ⊢
      exact .inr ⟨h.head, h.tail.head, rfl⟩

theorem Seg.jnOpt {code : List (I L.X)} {p l : Nat} {e : Option L.E} (h : Seg code p (jnOpt e l)) : CN code e l p (p + (Smlr.Stmt.jnOpt e l).length) := by
  cases e with
  | none => rfl
  | some e => exact Seg.jn h

theorem Seg.jy {code : List (I L.X)} {p l : Nat} {e : L.E} (h : Seg code p (jy e l)) : CY code e l p (p + (Smlr.Stmt.jy e l).length) := by
  unfold CY
  unfold Smlr.Stmt.jy at h ⊢
  cases hc : L.const e with
  | some v =>
    simp only [hc] at h ⊢
    by_cases hv : L.trunc v = 0
    · simp only [hv, if_true] at h ⊢
      rfl
    · simp only [hv, if_false] at h ⊢
      exact h.head
  | none =>
    simp only [hc] at h ⊢
    by_cases hr : rel e = true
    · simp only [hr, if_true] at h ⊢
      exact .inl ⟨h.head, rfl⟩
    · simp only [hr] at h ⊢
      exact .inr ⟨h.head, h.tail.head, rfl⟩

theorem Seg.evals {code : List (I L.X)} {p : Nat} {es : List (List L.X)} (h : Seg code p (es.map .eval)) : ∀ i e, es[i]? = some e → code[p + i]? = some (.eval e) := fun i e hi =>
  h i _ (by rw [List.getElem?_map, hi]; rfl)

theorem Seg.init {code : List (I L.X)} {p : Nat} {i : Init L} (h : Seg code p (initCode i)) : InitAt code i p (p + (initCode i).length) := by
  cases i with
  | none => rfl
  | expr e => exact ⟨h.head, rfl⟩
  | decl es => exact ⟨h.evals, by simp [initCode]⟩

/-- the code behind the statement is reached from a `return` at its end that makes no jump -/
def endsRet : Stmt L → Bool
  | .ret _ => true
  | .cons s ss => if isNil ss then endsRet s else endsRet ss
  | .ift _ s => endsRet s
  | .ife _ _ s => endsRet s
  | .switch _ s => endsRet s
  | .case _ s => endsRet s
  | .default s => endsRet s
  | .label _ s => endsRet s
  | _ => false

/-- the last statement is a `while` or `for` whose body, not in braces, ends with `return` -/
def loopRet : Stmt L → Bool
  | .cons s ss => if isNil ss then loopRet s else loopRet ss
  | .whl _ b => endsRet b || loopRet b
  | .for _ _ _ b => endsRet b || loopRet b
  | .ift _ s => loopRet s
  | .ife _ _ s => loopRet s
  | .switch _ s => loopRet s
  | .case _ s => loopRet s
  | .default s => loopRet s
  | .label _ s => loopRet s
  | _ => false

def ctOf (bc : Option (Nat × Nat)) : Option Nat := bc.bind fun x => if x.2 = 0 then none else some x.2

theorem ctOf_pos {a b : Nat} (h : 1 ≤ b) : ctOf (some (a, b)) = some b := by
  unfold ctOf
  simp only [Option.bind_some]
  rw [if_neg (by omega)]
theorem ctOf_sw (a : Nat) (bc : Option (Nat × Nat)) : ctOf (some (a, cntTarget bc)) = ctOf bc := by
  cases bc with
  | none => rfl
  | some x => rfl

variable {code : List (I L.X)} {X : Ctx L} {F : Fx}

theorem gen_C (hep : code[X.ep]? = some (.lab F.epi)) : ∀ (s : Stmt L) (tl : Bool) (sl : Nat) (bc : Option (Nat × Nat)) (ci : Nat) (g : GS) (c : List (I L.X)) (g' : GS) (p : Nat),
    gen F s tl sl bc ci g = .ok (c, g') → WF g → Seg code p c → (∀ x ∈ g'.gotos, X.G x.name = x.lab) → (∀ n ∈ s.gotos, (X.body.seek (.label n) .stop).isSome = true) →
    (tl = true → (endsRet s = true → Lead code (p + c.length) X.ep) ∧ loopRet s = false) →
    ∃ ncs nds, C code X s (bc.map (·.1)) (ctOf bc) p (p + c.length) ncs nds ∧ g'.cs = g.cs ++ ncs ∧ ((nds = [] ∧ g'.d = g.d) ∨ (nds = [g'.d] ∧ g.d = 0 ∧ g.lab ≤ g'.d)) := by
  -- the labels of the tables stay
  have back : ∀ {g1 g2 : GS}, Ext g1 g2 → (∀ x ∈ g2.gotos, X.G x.name = x.lab) → ∀ x ∈ g1.gotos, X.G x.name = x.lab := by
    intro g1 g2 h h' x hx
    obtain ⟨y, hy, h1, h2, -⟩ := h.keep x hx
    rw [← h1, h' y hy, h2]
  have wfb : ∀ {g : GS} (k : Nat) (cs : List (Int × Nat)) (d : Nat), WF g → WF ⟨g.lab + k, cs, d, g.gotos⟩ := fun {g} k cs d hw =>
    ⟨Nat.le_trans hw.pos (Nat.le_add_right _ _), hw.names, hw.labs, fun x hx => Nat.lt_of_lt_of_le (hw.lt x hx) (Nat.le_add_right _ _)⟩
  have two : ∀ {g g1 g2 : GS} {ncs ncs' : List (Int × Nat)} {nds nds' : List Nat}, WF g → Ext g g1 →
      (g1.cs = g.cs ++ ncs ∧ ((nds = [] ∧ g1.d = g.d) ∨ (nds = [g1.d] ∧ g.d = 0 ∧ g.lab ≤ g1.d))) →
      (g2.cs = g1.cs ++ ncs' ∧ ((nds' = [] ∧ g2.d = g1.d) ∨ (nds' = [g2.d] ∧ g1.d = 0 ∧ g1.lab ≤ g2.d))) →
      (g2.cs = g.cs ++ (ncs ++ ncs') ∧ ((nds ++ nds' = [] ∧ g2.d = g.d) ∨ (nds ++ nds' = [g2.d] ∧ g.d = 0 ∧ g.lab ≤ g2.d))) := by
    intro g g1 g2 ncs ncs' nds nds' hw he ⟨h1, h2⟩ ⟨h3, h4⟩
    refine ⟨by rw [h3, h1, List.append_assoc], ?_⟩
    have hp := hw.pos
    have hle := he.le
    rcases h2 with ⟨h2, h2'⟩ | ⟨h2, h2', h2''⟩
    · rcases h4 with ⟨h4, h4'⟩ | ⟨h4, h4', h4''⟩
      · exact .inl ⟨by rw [h2, h4]; rfl, by omega⟩
      · exact .inr ⟨by rw [h2, h4]; rfl, by omega, by omega⟩
    · rcases h4 with ⟨h4, h4'⟩ | ⟨h4, h4', h4''⟩
      · exact .inr ⟨by rw [h2, h4, h4']; rfl, by omega, by omega⟩
      · omega
  have retC : ∀ (e : Option L.E) (tl : Bool) (bt ct : Option Nat) (p : Nat), Seg code p (retCode F tl e) → (tl = true → Lead code (p + (retCode F tl e).length) X.ep) →
      C code X (.ret e) bt ct p (p + (retCode F tl e).length) [] [] := by
    intro e tl bt ct p hs hl
    cases e with
    | none =>
      cases tl with
      | true => exact .ret0 (hl rfl)
      | false => exact .ret0 (leadP_jmp hs.head hep).lead
    | some e =>
      cases tl with
      | true => exact .ret hs.head (hl rfl)
      | false => exact .ret hs.head (leadP_jmp hs.tail.head hep).lead
  intro s
  induction s with
  | nil => intro tl sl bc ci g c g' p h hw hs hG hgo ht; cases h; exact ⟨[], [], .nil, by simp, .inl ⟨rfl, rfl⟩⟩
  | cons s ss ih ih' =>
    intro tl sl bc ci g c g' p h hw hs hG hgo ht
    obtain ⟨a, ha, h⟩ := and_inv h
    obtain ⟨b, hb, h⟩ := and_inv h
    cases h
    obtain ⟨w1, e1, -, -⟩ := gen_labs F _ _ _ _ _ _ _ _ ha hw
    obtain ⟨w2, e2, -, -⟩ := gen_labs F _ _ _ _ _ _ _ _ hb w1
    have hgo1 : ∀ n ∈ s.gotos, (X.body.seek (.label n) .stop).isSome = true := fun n hn => hgo n (by simp [Stmt.gotos, hn])
    have hgo2 : ∀ n ∈ ss.gotos, (X.body.seek (.label n) .stop).isSome = true := fun n hn => hgo n (by simp [Stmt.gotos, hn])
    have hlen : p + (a.1 ++ b.1).length = p + a.1.length + b.1.length := by simp; omega
    rw [hlen] at ht ⊢
    obtain ⟨ncs', nds', hC', hx'⟩ := ih' _ _ _ _ _ _ _ (p + a.1.length) hb w1 hs.right hG hgo2 (fun h => by
      obtain ⟨h1, h2⟩ := ht h
      simp only [endsRet, loopRet] at h1 h2
      by_cases hn : isNil ss = true
      · have : ss = .nil := by cases ss <;> first | rfl | cases hn
        subst this
        exact ⟨fun h => (by cases h), rfl⟩
      · rw [if_neg hn] at h1 h2
        exact ⟨h1, h2⟩)
    obtain ⟨ncs, nds, hC, hx⟩ := ih _ _ _ _ _ _ _ p ha hw hs.left (back e2 hG) hgo1 (fun h => by
      rw [Bool.and_eq_true] at h
      obtain ⟨h1, h2⟩ := ht h.1
      have : ss = .nil := by
        have := h.2
        cases ss <;> first | rfl | cases this
      subst this
      cases hb
      simp only [endsRet, loopRet, isNil, if_true] at h1 h2
      exact ⟨h1, h2⟩)
    exact ⟨_, _, hC.cons hC', two hw e1 hx hx'⟩
  | decl es =>
    intro tl sl bc ci g c g' p h hw hs hG hgo ht
    cases h
    refine ⟨[], [], ?_, by simp, .inl ⟨rfl, rfl⟩⟩
    rw [List.length_map]
    exact .decl hs.evals
  | empty => intro tl sl bc ci g c g' p h hw hs hG hgo ht; cases h; exact ⟨[], [], .empty, by simp, .inl ⟨rfl, rfl⟩⟩
  | expr e => intro tl sl bc ci g c g' p h hw hs hG hgo ht; cases h; exact ⟨[], [], .expr hs.head, by simp, .inl ⟨rfl, rfl⟩⟩
  | block ss ih =>
    intro tl sl bc ci g c g' p h hw hs hG hgo ht
    obtain ⟨ncs, nds, hC, hx⟩ := ih false _ _ _ _ _ _ p h hw hs hG hgo (fun h => by cases h)
    exact ⟨ncs, nds, .block hC, hx⟩
  | ret e =>
    intro tl sl bc ci g c g' p h hw hs hG hgo ht
    simp only [gen] at h
    split at h
    · cases h
    · cases h
      exact ⟨[], [], retC e tl _ _ p hs (fun h => (ht h).1 rfl), by simp, .inl ⟨rfl, rfl⟩⟩
  | whl e b ih =>
    intro tl sl bc ci g c g' p h hw hs hG hgo ht
    obtain ⟨a, ha, h⟩ := and_inv h
    cases h
    obtain ⟨q, hq⟩ : ∃ q, q = p + 1 + (jn e (g.lab + 1)).length := ⟨_, rfl⟩
    obtain ⟨r, hr⟩ : ∃ r, r = q + a.1.length := ⟨_, rfl⟩
    obtain ⟨jb, hjb⟩ : ∃ jb : List (I L.X), jb = (if condZero (some e) = true then [] else [.jmp g.lab]) := ⟨_, rfl⟩
    rw [← hjb] at hs ht ⊢
    have h0 := hs.head
    have h1 := hs.tail.left.jn
    have h2 := hs.tail.right
    have h3 := h2.left
    have h4 := h2.right
    rw [← hq] at h1 h2 h3 h4
    rw [← hr] at h4
    obtain ⟨ncs, nds, hC, hx⟩ := ih _ _ _ _ _ _ _ q ha (wfb 2 g.cs g.d hw) h3 hG hgo (fun h => by
      have := (ht h).2
      simp only [loopRet, Bool.or_eq_false_iff] at this
      exact ⟨fun h' => (by rw [this.1] at h'; cases h'), this.2⟩)
    rw [ctOf_pos hw.pos, ← hr] at hC
    obtain ⟨z, hz⟩ : ∃ z, z = r + jb.length := ⟨_, rfl⟩
    have h5 : code[z]? = some (.lab (g.lab + 1)) := by rw [hz]; exact h4.right.head
    have hlen : p + (I.lab g.lab :: (jn e (g.lab + 1) ++ (a.1 ++ (jb ++ [.lab (g.lab + 1)])))).length = z + 1 := by simp; omega
    rw [hlen]
    have hz' : Lead code z (z + 1) := (leadP_lab h5).lead
    have hT : Test code (some e) q (z + 1) p := .inl ⟨_, _, _, _, leadP_lab h0, h1, .refl _, h5, hz'⟩
    have hB : Back code (some e) none q (z + 1) r := by
      show Test code (some e) q (z + 1) r
      by_cases hcz : condZero (some e) = true
      · rw [if_pos hcz] at hjb
        subst hjb
        refine .inr ⟨hcz, ?_⟩
        rw [hz]
        exact leadP_lab (by rw [hz] at h5; exact h5)
      · rw [if_neg hcz] at hjb
        subst hjb
        exact .inl ⟨_, _, _, _, (leadP_jmp h4.head h0).trans (leadP_lab h0).lead, h1, .refl _, h5, hz'⟩
    refine ⟨ncs, nds, .whl hT hC hB h0 hT h5 hz', hx.1, ?_⟩
    rcases hx.2 with h | ⟨h, h', h''⟩
    · exact .inl h
    · exact .inr ⟨h, h', Nat.le_trans (Nat.le_add_right _ _) h''⟩
  | dow b e ih =>
    intro tl sl bc ci g c g' p h hw hs hG hgo ht
    obtain ⟨a, ha, h⟩ := and_inv h
    cases h
    obtain ⟨r, hr⟩ : ∃ r, r = p + 1 + a.1.length := ⟨_, rfl⟩
    have h0 := hs.head
    have h3 := hs.tail.left
    have h4 := hs.tail.right
    rw [← hr] at h4
    obtain ⟨ncs, nds, hC, hx⟩ := ih false _ _ _ _ _ _ (p + 1) ha (wfb 3 g.cs g.d hw) h3 hG hgo (fun h => by cases h)
    rw [ctOf_pos (Nat.le_trans hw.pos (Nat.le_add_right _ _)), ← hr] at hC
    have h5 := h4.head
    have h6 := h4.tail.left.jy
    obtain ⟨v, hv⟩ : ∃ v, v = r + 1 + (jy e g.lab).length := ⟨_, rfl⟩
    have h7 : code[v]? = some (.lab (g.lab + 2)) := by rw [hv]; exact h4.tail.right.head
    rw [← hv] at h6
    have hlen : p + (I.lab g.lab :: (a.1 ++ (.lab (g.lab + 1) :: (jy e g.lab ++ [.lab (g.lab + 2)])))).length = v + 1 := by simp; omega
    rw [hlen]
    refine ⟨ncs, nds, .dow (leadP_lab h0).lead h0 (leadP_lab h0).lead hC (leadP_lab h5) h6 (leadP_lab h7).lead h5 (leadP_lab h5) h7 (leadP_lab h7).lead, hx.1, ?_⟩
    rcases hx.2 with h | ⟨h, h', h''⟩
    · exact .inl h
    · exact .inr ⟨h, h', Nat.le_trans (Nat.le_add_right _ _) h''⟩
  | ift e s ih =>
    intro tl sl bc ci g c g' p h hw hs hG hgo ht
    obtain ⟨a, ha, h⟩ := and_inv h
    cases h
    obtain ⟨q, hq⟩ : ∃ q, q = p + (jn e g.lab).length := ⟨_, rfl⟩
    have h1 := hs.left.jn
    have h3 := hs.right.left
    have h4 := hs.right.right.head
    rw [← hq] at h1 h3 h4
    have hlen : p + (jn e g.lab ++ (a.1 ++ [I.lab g.lab])).length = q + a.1.length + 1 := by simp; omega
    rw [hlen] at ht ⊢
    obtain ⟨ncs, nds, hC, hx⟩ := ih _ _ _ _ _ _ _ q ha (wfb 2 g.cs g.d hw) h3 hG hgo (fun h => ⟨fun h' => (leadP_lab h4).lead.trans ((ht h).1 h'), (ht h).2⟩)
    refine ⟨ncs, nds, .ift h1 h4 (leadP_lab h4).lead hC (leadP_lab h4).lead, hx.1, ?_⟩
    rcases hx.2 with h | ⟨h, h', h''⟩
    · exact .inl h
    · exact .inr ⟨h, h', Nat.le_trans (Nat.le_add_right _ _) h''⟩
  | ife e s s' ih ih' =>
    intro tl sl bc ci g c g' p h hw hs hG hgo ht
    obtain ⟨a, ha, h⟩ := and_inv h
    obtain ⟨b, hb, h⟩ := and_inv h
    cases h
    have w0 := wfb 2 g.cs g.d hw
    obtain ⟨w1, e1, -, -⟩ := gen_labs F _ _ _ _ _ _ _ _ ha w0
    obtain ⟨w2, e2, -, -⟩ := gen_labs F _ _ _ _ _ _ _ _ hb w1
    have hgo1 : ∀ n ∈ s.gotos, (X.body.seek (.label n) .stop).isSome = true := fun n hn => hgo n (by simp [Stmt.gotos, hn])
    have hgo2 : ∀ n ∈ s'.gotos, (X.body.seek (.label n) .stop).isSome = true := fun n hn => hgo n (by simp [Stmt.gotos, hn])
    obtain ⟨q, hq⟩ : ∃ q, q = p + (jn e g.lab).length := ⟨_, rfl⟩
    obtain ⟨r, hr⟩ : ∃ r, r = q + a.1.length := ⟨_, rfl⟩
    have h1 := hs.left.jn
    have h3 := hs.right.left
    have h4 := hs.right.right
    rw [← hq] at h1 h3 h4
    rw [← hr] at h4
    have h5 := h4.head
    have h6 := h4.tail.head
    have h7 := h4.tail.tail.left
    have h8 := h4.tail.tail.right.head
    obtain ⟨v, hv⟩ : ∃ v, v = r + 1 + 1 + b.1.length := ⟨_, rfl⟩
    rw [← hv] at h8
    have hlen : p + (jn e g.lab ++ (a.1 ++ (I.jmp (g.lab + 1) :: I.lab g.lab :: (b.1 ++ [I.lab (g.lab + 1)])))).length = v + 1 := by simp; omega
    rw [hlen] at ht ⊢
    obtain ⟨ncs, nds, hC, hx⟩ := ih _ _ _ _ _ _ _ q ha w0 h3 (back e2 hG) hgo1 (fun h => by cases h)
    rw [← hr] at hC
    obtain ⟨ncs', nds', hC', hx'⟩ := ih' _ _ _ _ _ _ _ (r + 1 + 1) hb w1 h7 hG hgo2 (fun h => by
      rw [← hv]
      exact ⟨fun h' => (leadP_lab h8).lead.trans ((ht h).1 h'), (ht h).2⟩)
    rw [← hv] at hC'
    have hfin := two w0 e1 hx hx'
    refine ⟨_, _, .ife h1 h6 (leadP_lab h6).lead hC ((leadP_jmp h5 h8).trans (leadP_lab h8).lead).lead hC' (leadP_lab h8).lead, hfin.1, ?_⟩
    rcases hfin.2 with h | ⟨h, h', h''⟩
    · exact .inl h
    · exact .inr ⟨h, h', Nat.le_trans (Nat.le_add_right _ _) h''⟩
  | «for» i e1 e3 b ih =>
    intro tl sl bc ci g c g' p h hw hs hG hgo ht
    obtain ⟨a, ha, h⟩ := and_inv h
    cases h
    obtain ⟨pl, hpl⟩ : ∃ pl, pl = plan e1 e3 sl g.lab := ⟨_, rfl⟩
    rw [← hpl] at hs ht ha ⊢
    obtain ⟨p1, hp1⟩ : ∃ q, q = p + (initCode i).length := ⟨_, rfl⟩
    obtain ⟨u, hu⟩ : ∃ q, q = p1 + 1 + (jnOpt e1 (g.lab + 3)).length := ⟨_, rfl⟩
    obtain ⟨q, hq⟩ : ∃ q, q = u + pl.pre.length := ⟨_, rfl⟩
    obtain ⟨r, hr⟩ : ∃ r, r = q + a.1.length := ⟨_, rfl⟩
    obtain ⟨z, hz⟩ : ∃ z, z = r + pl.post.length := ⟨_, rfl⟩
    have hi := hs.left.init
    have s1 := hs.right
    rw [← hp1] at hi s1
    have h0 := s1.head
    have hc := s1.tail.left.jnOpt
    have s2 := s1.tail.right
    rw [← hu] at hc s2
    have spre := s2.left
    have s3 := s2.right
    rw [← hq] at s3
    have sb := s3.left
    have s4 := s3.right
    rw [← hr] at s4
    have spost := s4.left
    have hend := s4.right.head
    rw [← hz] at hend
    have hlen : p + (initCode i ++ (I.lab g.lab :: (jnOpt e1 (g.lab + 3) ++ (pl.pre ++ (a.1 ++ (pl.post ++ [I.lab (g.lab + 3)])))))).length = z + 1 := by simp; omega
    rw [hlen]
    obtain ⟨ncs, nds, hC, hx⟩ := ih _ _ _ _ _ _ _ q ha (wfb 4 g.cs g.d hw) sb hG hgo (fun h => by
      have := (ht h).2
      simp only [loopRet, Bool.or_eq_false_iff] at this
      exact ⟨fun h' => (by rw [this.1] at h'; cases h'), this.2⟩)
    have hcnt : 1 ≤ pl.cnt := by
      have hp := hw.pos
      rw [hpl]
      unfold plan
      cases e3 with
      | none => simp only; split <;> (simp only; omega)
      | some e => simp only; split <;> (simp only; omega)
    rw [ctOf_pos hcnt, ← hr] at hC
    have hz' : Lead code z (z + 1) := (leadP_lab hend).lead
    have fin : ∀ {t : Nat}, Lead code u q → Back code e1 e3 q (z + 1) r → code[t]? = some (.lab pl.cnt) → Back code e1 e3 q (z + 1) t →
        C code X (.for i e1 e3 b) (bc.map (·.1)) (ctOf bc) p (z + 1) ncs nds := fun h1 h2 h3 h4 =>
      .for hi (.inl ⟨_, _, _, _, leadP_lab h0, hc, h1, hend, hz'⟩) hC h2 h3 h4 hend hz'
    have goal : C code X (.for i e1 e3 b) (bc.map (·.1)) (ctOf bc) p (z + 1) ncs nds := by
      unfold plan at hpl
      cases e3 with
      | none =>
        simp only at hpl
        by_cases hcz : condZero e1 = true
        · rw [if_pos hcz] at hpl
          subst hpl
          have : z = r := hz
          have hB : Test code e1 q (z + 1) r := .inr ⟨hcz, by rw [← this]; exact leadP_lab hend⟩
          exact fin (t := z) (by rw [hq]; exact .refl _) hB hend (by rw [← this] at hB; exact hB)
        · rw [if_neg hcz] at hpl
          subst hpl
          have hq' : Lead code u q := by rw [hq]; exact .refl _
          exact fin (t := p1) hq' (.inl ⟨_, _, _, _, (leadP_jmp spost.head h0).trans (leadP_lab h0).lead, hc, hq', hend, hz'⟩) h0 (.inl ⟨_, _, _, _, leadP_lab h0, hc, hq', hend, hz'⟩)
      | some e =>
        simp only at hpl
        split at hpl
        · subst hpl
          have hq' : Lead code u q := by rw [hq]; exact .refl _
          have k0 := spost.left.head
          have k1 := spost.left.tail.head
          have k2 := spost.right
          have hT : Test code e1 q (z + 1) (r + 1 + 1) := by
            by_cases hcz : condZero e1 = true
            · have : z = r + 1 + 1 := by rw [hz]; simp [hcz]
              exact .inr ⟨hcz, by rw [← this]; exact leadP_lab hend⟩
            · have k3 : code[r + 1 + 1]? = some (.jmp g.lab) := by
                rw [if_neg hcz] at k2
                exact k2.head
              exact .inl ⟨_, _, _, _, (leadP_jmp k3 h0).trans (leadP_lab h0).lead, hc, hq', hend, hz'⟩
          have hB : Back code e1 (some e) q (z + 1) r := ⟨r + 1, (leadP_lab k0).lead, k1, hT⟩
          exact fin (t := r) hq' hB k0 hB
        · subst hpl
          have k0 := spre.head
          have k1 := spre.tail.head
          have k2 := spre.tail.tail.head
          have k3 := spre.tail.tail.tail.head
          have k4 := spre.tail.tail.tail.tail.head
          have k5 := spost.head
          have hq' : Lead code u q := by
            refine (leadP_jmp k0 k4).lead.trans ?_
            rw [hq]
            exact (leadP_lab k4).lead
          have hB : Back code e1 (some e) q (z + 1) (u + 1) := ⟨u + 1 + 1, (leadP_lab k1).lead, k2, .inl ⟨_, _, _, _, (leadP_jmp k3 h0).trans (leadP_lab h0).lead, hc, hq', hend, hz'⟩⟩
          exact fin (t := u + 1) hq' (hB.lead (leadP_jmp k5 k1).lead) k1 hB
    refine ⟨ncs, nds, goal, hx.1, ?_⟩
    rcases hx.2 with h | ⟨h, h', h''⟩
    · exact .inl h
    · exact .inr ⟨h, h', Nat.le_trans (Nat.le_add_right _ _) h''⟩
  | brk =>
    intro tl sl bc ci g c g' p h hw hs hG hgo ht
    cases bc with
    | none => cases h
    | some x => cases h; exact ⟨[], [], .brk hs.head, by simp, .inl ⟨rfl, rfl⟩⟩
  | cont =>
    intro tl sl bc ci g c g' p h hw hs hG hgo ht
    cases bc with
    | none => cases h
    | some x =>
      simp only [gen] at h
      split at h
      · cases h
      · rename_i hx
        cases h
        rw [show ctOf (some x) = some x.2 by unfold ctOf; simp only [Option.bind_some]; rw [if_neg hx]]
        exact ⟨[], [], .cont hs.head, by simp, .inl ⟨rfl, rfl⟩⟩
  | switch e b ih =>
    intro tl sl bc ci g c g' p h hw hs hG hgo ht
    simp only [gen] at h
    split at h
    · cases h
    obtain ⟨a, ha, h⟩ := and_inv h
    cases h
    have he := hs.head
    have hj := hs.tail.head
    have hb := hs.tail.tail.left
    have h4 := hs.tail.tail.right
    obtain ⟨r, hr⟩ : ∃ r, r = p + 1 + 1 + a.1.length := ⟨_, rfl⟩
    rw [← hr] at h4
    obtain ⟨jd, hjd⟩ : ∃ jd : List (I L.X), jd = (if (if a.2.d = 0 then g.lab else a.2.d) = g.lab then [] else [.jmp (if a.2.d = 0 then g.lab else a.2.d)]) := ⟨_, rfl⟩
    have esw : swEnd (L := L) g.lab (g.lab + 1) a.2.d a.2.cs = [.jmp g.lab, .lab (g.lab + 1)] ++ (a.2.cs.map (fun c => .je c.1 c.2) ++ (jd ++ [.lab g.lab])) := by
      rw [hjd]; simp only [swEnd, List.append_assoc]
    rw [esw] at h4 ht ⊢
    have k0 := h4.left.head
    have k1 := h4.left.tail.head
    have k2 := h4.right.left
    have k3 := h4.right.right
    obtain ⟨w, hw'⟩ : ∃ w, w = r + 2 + a.2.cs.length := ⟨_, rfl⟩
    rw [List.length_map, show r + [I.jmp (X := L.X) g.lab, .lab (g.lab + 1)].length = r + 2 from rfl, ← hw'] at k3
    obtain ⟨z, hz⟩ : ∃ z, z = w + jd.length := ⟨_, rfl⟩
    have k4 := k3.right.head
    rw [← hz] at k4
    have hlen : p + (I.evalR (L.rpn e) :: .jmp (g.lab + 1) :: (a.1 ++ ([.jmp g.lab, .lab (g.lab + 1)] ++ (a.2.cs.map (fun c => .je c.1 c.2) ++ (jd ++ [.lab g.lab]))))).length = z + 1 := by
      simp; omega
    rw [hlen] at ht ⊢
    have hz' : Lead code z (z + 1) := (leadP_lab k4).lead
    have hrz : Lead code r (z + 1) := (leadP_jmp k0 k4).lead.trans hz'
    obtain ⟨ncs, nds, hC, hx⟩ := ih _ _ _ _ _ _ _ (p + 1 + 1) ha (wfb 2 [] 0 hw) hb hG hgo (fun h => by
      rw [← hr]
      exact ⟨fun h' => hrz.trans ((ht h).1 h'), (ht h).2⟩)
    rw [ctOf_sw, ← hr] at hC
    have hcs : a.2.cs = ncs := by rw [hx.1]; simp
    subst hcs
    refine ⟨[], [], .switch he hj k1 ?_ ?_ hC k4 hz' hrz, by simp, .inl ⟨rfl, rfl⟩⟩
    · intro i c hi
      refine k2 i _ ?_
      rw [List.getElem?_map, hi]
      rfl
    · rw [show r + 1 + 1 + a.2.cs.length = w by omega]
      rcases hx.2 with ⟨h, h'⟩ | ⟨h, h', h''⟩
      · subst h
        have h' : a.2.d = 0 := h'
        have : jd = [] := by rw [hjd]; simp [h']
        show Lead code w (z + 1)
        rw [show w = z by rw [hz, this]; rfl]
        exact hz'
      · subst h
        have h'' : g.lab + 2 ≤ a.2.d := h''
        have e1 : (if a.2.d = 0 then g.lab else a.2.d) = a.2.d := if_neg (by omega)
        have : jd = [.jmp a.2.d] := by rw [hjd, e1, if_neg (by omega)]
        rw [this] at k3
        exact k3.left.head
  | case e s ih =>
    intro tl sl bc ci g c g' p h hw hs hG hgo ht
    simp only [gen] at h
    split at h
    · cases h
    cases hv : L.const e with
    | none => rw [hv] at h; cases h
    | some v =>
      simp only [hv] at h
      split at h
      · cases h
      split at h
      · cases h
      obtain ⟨a, ha, h⟩ := and_inv h
      cases h
      have hlen : p + (I.lab g.lab :: a.1).length = p + 1 + a.1.length := by simp; omega
      rw [hlen] at ht ⊢
      obtain ⟨ncs, nds, hC, hx⟩ := ih _ _ _ _ _ _ _ (p + 1) ha (wfb 1 _ g.d hw) hs.tail hG hgo ht
      refine ⟨_, nds, .case hv hs.head hC, by rw [hx.1]; simp, ?_⟩
      rcases hx.2 with h | ⟨h, h', h''⟩
      · exact .inl h
      · exact .inr ⟨h, h', Nat.le_trans (Nat.le_add_right _ _) h''⟩
  | default s ih =>
    intro tl sl bc ci g c g' p h hw hs hG hgo ht
    simp only [gen] at h
    split at h
    · cases h
    split at h
    · cases h
    rename_i hd
    obtain ⟨a, ha, h⟩ := and_inv h
    cases h
    have hlen : p + (I.lab g.lab :: a.1).length = p + 1 + a.1.length := by simp; omega
    rw [hlen] at ht ⊢
    obtain ⟨ncs, nds, hC, hx⟩ := ih _ _ _ _ _ _ _ (p + 1) ha (wfb 1 g.cs _ hw) hs.tail hG hgo ht
    have hp := hw.pos
    rcases hx.2 with ⟨h, h'⟩ | ⟨h, h', h''⟩
    · refine ⟨ncs, _, .default hs.head hC, hx.1, .inr ⟨?_, by omega, ?_⟩⟩
      · rw [h, h']
      · rw [h']; exact Nat.le_refl _
    · have h' : g.lab = 0 := h'
      omega
  | goto n =>
    intro tl sl bc ci g c g' p h hw hs hG hgo ht
    obtain ⟨a, ha, h⟩ := and_inv h
    cases h
    have hA := addG_ok hw ha
    obtain ⟨y, hy, h1, h2, -⟩ := hA.here
    refine ⟨[], [], .goto (hgo n (by simp [Stmt.gotos])) ?_, by rw [hA.cs]; simp, .inl ⟨rfl, hA.d'⟩⟩
    rw [← h1, hG y hy, h2]
    exact hs.head
  | label n s ih =>
    intro tl sl bc ci g c g' p h hw hs hG hgo ht
    obtain ⟨a, ha, h⟩ := and_inv h
    obtain ⟨b, hb, h⟩ := and_inv h
    cases h
    have hA := addG_ok hw ha
    obtain ⟨y, hy, h1, h2, -⟩ := hA.here
    obtain ⟨w2, e2, -, -⟩ := gen_labs F _ _ _ _ _ _ _ _ hb hA.wf
    have hlen : p + (I.lab a.1 :: b.1).length = p + 1 + b.1.length := by simp; omega
    rw [hlen] at ht ⊢
    obtain ⟨ncs, nds, hC, hx⟩ := ih _ _ _ _ _ _ _ (p + 1) hb hA.wf hs.tail hG hgo ht
    refine ⟨ncs, nds, .label ?_ hC, by rw [hx.1, hA.cs], ?_⟩
    · rw [← h1, back e2 hG y hy, h2]
      exact hs.head
    · have hle := hA.ext.le
      have hd := hA.d'
      rcases hx.2 with ⟨h, h'⟩ | ⟨h, h', h''⟩
      · exact .inl ⟨h, by omega⟩
      · exact .inr ⟨h, by omega, by omega⟩

end

end Smlr.Stmt
