import Verif.Text.Spec
import Verif.Lex.Props
import Verif.Fn.Props
import Verif.Mips.Props
set_option autoImplicit false
/-! C58: expressions are translated from their text. -/
namespace Smlr.Text
open Smlr.Lex (Str Token Tk str puncts keywords tokens Lexes Num)
open Smlr.Expr (V Ty)

/-- **C58**, signs: whatever has the spelling of a terminal symbol of the grammar is that symbol for the parser, and what begins a type name does so in exactly the memory models that have the type -/
theorem c58_signs : (∀ p ∈ spelling, (∃ q ∈ puncts ++ keywords, q.1 = str p.1) ∧ ∀ q ∈ puncts ++ keywords, q.1 = str p.1 → opOf q.2 = p.2) ∧
    ∀ W, ∀ q ∈ puncts ++ keywords, (∃ w ∈ typeNames W ++ ["struct", "union", "enum"], q.1 = str w) ↔ typeWord W q.2 = true := by
  refine ⟨by decide +kernel, fun W => ?_⟩
  by_cases h : W = 2
  · subst h
    decide +kernel
  · have h1 : typeNames W = typeNames 4 := by simp only [typeNames, if_neg h]; rfl
    have h2 : ∀ t, typeWord W t = typeWord 4 t := by
      intro t
      cases t <;> first | rfl | exact decide_eq_true h
    simp only [h1, h2]
    decide +kernel

theorem Spelled.op {w : String} {t : Tk} {k : Parse.Tk} (h : Spelled w t) (hk : (w, k) ∈ spelling) : opOf t = k :=
  (c58_signs.1 _ hk).2 (str w, t) (List.mem_append.mpr h) rfl

theorem Spelled.type {W : Nat} {w : String} {t : Tk} (h : Spelled w t) (hw : w ∈ typeNames W) : typeWord W t = true :=
  (c58_signs.2 W (str w, t) (List.mem_append.mpr h)).mp ⟨w, List.mem_append_left _ hw, rfl⟩

theorem opOf_type (W : Nat) (t : Tk) (h : typeWord W t = true) : opOf t = .other := by
  cases t <;> first | rfl | exact absurd h (by simp [typeWord])

theorem spelling_other : ∀ p ∈ spelling, p.2 ≠ .other := by decide +kernel

theorem TypeName.parts {W : Nat} {ws : List Token} (h : TypeName W ws) : (∀ t ∈ ws, typePart W t = true) ∧ ∀ r, declAhead W (ws ++ r) = true := by
  induction h with
  | word w t hw hs =>
    refine ⟨fun x hx => ?_, fun r => hs.type hw⟩
    rw [List.mem_singleton.mp hx]
    have := hs.type hw
    cases t <;> first | exact this | exact absurd this (by simp [typeWord])
  | words w t ts hw hs _ ih =>
    refine ⟨fun x hx => ?_, fun r => hs.type hw⟩
    rcases List.mem_cons.mp hx with rfl | hx
    · have := hs.type hw
      cases t <;> first | exact this | exact absurd this (by simp [typeWord])
    · exact ih.1 x hx
  | star ts _ ih =>
    refine ⟨fun x hx => ?_, fun r => by rw [List.append_assoc]; exact ih.2 _⟩
    rcases List.mem_append.mp hx with hx | hx
    · exact ih.1 x hx
    · rw [List.mem_singleton.mp hx]
      rfl

theorem takeDrop {α : Type} (p : α → Bool) (l r : List α) (x : α) (h : ∀ t ∈ l, p t = true) (hx : p x = false) : (l ++ x :: r).takeWhile p = l ∧ (l ++ x :: r).dropWhile p = x :: r := by
  induction l with
  | nil => simp [hx]
  | cons a l ih =>
    have := ih fun t ht => h t (List.mem_cons_of_mem _ ht)
    simp [h a List.mem_cons_self, this]

/-- what follows does not begin a type name -/
theorem Means.ahead {W : Nat} {id : Str → Nat} {tn : List Token → Option Nat} {ts : List Token} {ls : List Parse.Lx} (h : Means W id tn ts ls) (r : List Token) (hr : declAhead W r = false) :
    declAhead W (ts ++ r) = false := by
  cases h with
  | nil => exact hr
  | sign w t k ts ls hs hk _ =>
    show typeWord W t = false
    by_contra hc
    exact spelling_other _ hk ((hs.op hk).symm.trans (opOf_type W t (by simpa using hc)))
  | _ => rfl

theorem fuse_one {W : Nat} {id : Str → Nat} {tn : List Token → Option Nat} (t : Token) (x : Parse.Lx) (ts r : List Token) (ls : List Parse.Lx) (ht : t = .op (.chr 0x28) → declAhead W (ts ++ r) = false)
    (hx : lxOf id t = x) (ih : ∀ n, (ts ++ r).length < n → ∃ n', r.length < n' ∧ fuse W id tn n (ts ++ r) = ls ++ fuse W id tn n' r) (n : Nat) (hn : (t :: ts ++ r).length < n) :
    ∃ n', r.length < n' ∧ fuse W id tn n (t :: ts ++ r) = x :: ls ++ fuse W id tn n' r := by
  obtain ⟨n, rfl⟩ : ∃ m, n = m + 1 := ⟨n - 1, by omega⟩
  obtain ⟨n', h1, h2⟩ := ih n (by simp only [List.cons_append, List.length_cons] at hn; omega)
  refine ⟨n', h1, ?_⟩
  rw [List.cons_append, fuse, if_neg (fun hc => by rw [ht hc.1] at hc; cases hc.2), h2, hx]
  rfl

theorem fuse_means {W : Nat} {id : Str → Nat} {tn : List Token → Option Nat} {ts : List Token} {ls : List Parse.Lx} (h : Means W id tn ts ls) (r : List Token) (hr : declAhead W r = false) :
    ∀ n, (ts ++ r).length < n → ∃ n', r.length < n' ∧ fuse W id tn n (ts ++ r) = ls ++ fuse W id tn n' r := by
  induction h with
  | nil => exact fun n hn => ⟨n, hn, rfl⟩
  | sign w t k ts ls hs hk hm ih => exact fuse_one _ _ _ _ _ (fun _ => hm.ahead r hr) (by rw [← hs.op hk]; rfl) ih
  | name w ts ls hm ih => exact fuse_one _ _ _ _ _ (fun h => by cases h) rfl ih
  | int v ts ls hm ih => exact fuse_one _ _ _ _ _ (fun h => by cases h) rfl ih
  | uint v ts ls hm ih => exact fuse_one _ _ _ _ _ (fun h => by cases h) rfl ih
  | char v k ts ls hk hv hm ih =>
    refine fuse_one _ _ _ _ _ (fun h => by cases h) ?_ ih
    show (_, _) = (_, _)
    rw [BitVec.toNat_ofInt]
    congr 1
    omega
  | type ws k ts ls hw hk hm ih =>
    intro n hn
    obtain ⟨n, rfl⟩ : ∃ m, n = m + 1 := ⟨n - 1, by omega⟩
    have hp := hw.parts
    obtain ⟨t1, t2⟩ := takeDrop (typePart W) ws (ts ++ r) (.op (.chr 0x29)) hp.1 rfl
    obtain ⟨n', h1, h2⟩ := fuse_one (.op (.chr 0x29)) (.rpar, 0) ts r ls (fun _ => hm.ahead r hr) rfl ih n
      (by simp only [List.cons_append, List.length_cons, List.length_append] at hn ⊢; omega)
    refine ⟨n', h1, ?_⟩
    rw [List.cons_append, List.cons_append, List.append_assoc, List.cons_append, fuse, if_pos ⟨rfl, hp.2 _⟩, t1, t2, hk]
    show (_, _) :: (_, _) :: _ = _
    rw [← List.cons_append, h2]
    rfl

open Smlr.Trans (toE den labels lx tk)

theorem fuse_stop {W : Nat} {id : Str → Nat} {tn : List Token → Option Nat} {u : Token} {t : Parse.Lx} (h : Means W id tn [u] [t]) (hs : Parse.Spec.stop t.1) (r : List Token) :
    declAhead W (u :: r) = false ∧ ∀ n, 0 < n → ∃ rest, fuse W id tn n (u :: r) = t :: rest := by
  have ha : declAhead W (u :: r) = false := by
    have := h.ahead [] rfl
    cases u <;> exact this
  refine ⟨ha, fun n hn => ?_⟩
  obtain ⟨n, rfl⟩ : ∃ m, n = m + 1 := ⟨n - 1, by omega⟩
  generalize hu : [u] = us at h
  generalize ht : [t] = xs at h
  cases h with
  | nil => cases hu
  | sign w t k ts ls hw hk hm =>
    cases hu
    cases ht
    refine ⟨fuse W id tn n r, ?_⟩
    rw [fuse, if_neg]
    · rw [← hw.op hk]
      rfl
    · intro hc
      have := hw.op hk
      injection hc.1 with h1
      rw [h1] at this
      rw [← this] at hs
      exact hs
  | name => cases ht; exact hs.elim
  | int => cases ht; exact hs.elim
  | uint => cases ht; exact hs.elim
  | char => cases ht; exact hs.elim
  | type => cases ht

/-- The three parts one after the other: unless the expression is too long, the code generator gets the tokens of an item that means the expression. -/
theorem c58_item {T : Lex.Cfg} {c : Expr.Cfg} (hT : T.W = c.W) (hW : c.W = 2 ∨ c.W = 4) (hw : T.wcs = 2 ∨ T.wcs = 4) {nm : Nat → V} {id : Str → Nat} {tn : List Token → Option Nat} {s : Str} {line : Nat}
    {e : Expr.E} {t : Parse.Lx} (src : Source T c.W nm id tn s line e t) (d : Trans.D) (hd : den c e = some d) (cap : Parse.Cap) (lab : Nat) (h0 : 0 < lab) (hl : lab + labels e < 2 ^ 31) :
    ∃ N, ∀ fuel, N ≤ fuel → (∀ {α : Type} (gen : List Cg.T → Option α), compile gen T c nm id tn cap fuel s line lab = .error .long) ∨
      ∃ i : Fn.Item c.W, i.den = d.x ∧ i.tree.labels.Nodup ∧ (∀ l ∈ i.tree.labels, lab ≤ l ∧ l < lab + labels e) ∧
        ∀ {α : Type} (gen : List Cg.T → Option α) (code : α), gen (Cg.toks i.tree) = some code → compile gen T c nm id tn cap fuel s line lab = .ok (t, d.ty, code) := by
  obtain ⟨ts, u, rest, ls, ex, nul, hs, hc, lex, means, last, dv, he⟩ := src
  obtain ⟨N1, hN1⟩ := Lex.c49_tokens T (hT ▸ hW) hw s nul line _ lex
  obtain ⟨ha, hf⟩ := fuse_stop last hs (rest.map Prod.fst)
  obtain ⟨n', h1, h2⟩ := fuse_means means _ ha (((ts ++ u :: rest)).length + 1) (by simp)
  obtain ⟨r, hr⟩ := hf n' (by omega)
  rw [hr] at h2
  obtain ⟨N2, hN2⟩ := Parse.c24_long dv cap t hs hc r [] []
  refine ⟨N1 + N2 + e.depth, fun n hn => ?_⟩
  have hp := Trans.toE_post nm ex e he
  have hlen : (ex.post.length : Int) = e.post.length := by rw [← hp, List.length_map]
  have h2' : fuse c.W id tn ((ts ++ u :: rest).length + 1) ((ts ++ u :: rest).map Prod.fst) = ls ++ t :: r := by
    rw [← h2, List.map_append]
    rfl
  rcases hN2 n (by omega) with h | h
  · left
    intro α gen
    simp only [compile, hN1 n (by omega), h2', h]
  · rcases Fn.c47_exprval hW e d hd n (by omega) lab [] h0 hl with hv | ⟨r, S, ws', i, hv, hty, hden, hS, -, hL1, hL2⟩
    · left
      intro α gen
      simp only [compile, hN1 n (by omega), h2', h, List.nil_append, hp, hlen, hv]
    · right
      refine ⟨i, hden, hL1, hL2, fun gen code hg => ?_⟩
      rw [Fn.rpn_snd] at hS
      simp only [compile, hN1 n (by omega), h2', h, List.nil_append, hp, hlen, hv, ← hS, hg, hty]

/-- **C58**, x86: a text that begins with the tokens of an expression that has a meaning, behind which a token follows that may follow an expression, is read up to that token.  The type found is the type of the expression; and unless the compiler says that the expression is too long there is code.  Wherever it is in a program whose labels are distinct, and as long as the words under the stack pointer that it needs are not part of objects, it leaves in `ax` a value that evaluation of the expression may give, in the objects what it then leaves there, and changes nothing else.  The labels in the code are distinct, and they are new. -/
theorem c58_x86 {T : Lex.Cfg} {c : Expr.Cfg} (hT : T.W = c.W) (hW : c.W = 2 ∨ c.W = 4) (hw : T.wcs = 2 ∨ T.wcs = 4) {nm : Nat → V} {id : Str → Nat} {tn : List Token → Option Nat} {s : Str} {line : Nat}
    {e : Expr.E} {t : Parse.Lx} (src : Source T c.W nm id tn s line e t) (d : Trans.D) (hd : den c e = some d) (cap : Parse.Cap) (lab : Nat) (h0 : 0 < lab) (hl : lab + labels e < 2 ^ 31) :
    ∃ N, ∀ fuel, N ≤ fuel → compile (x86 c.W) T c nm id tn cap fuel s line lab = .error .long ∨
      ∃ (code : List Cg.Ins) (k : Nat), compile (x86 c.W) T c nm id tn cap fuel s line lab = .ok (t, d.ty, code) ∧
        (Cg.labs code).Nodup ∧ (∀ l ∈ Cg.labs code, lab ≤ l ∧ l < lab + labels e) ∧
        ∀ (V : Cg.Env c.W) (P pre post : List Cg.Ins) (s : Cg.St c.W), P = pre ++ code ++ post → (Cg.labs P).Nodup → s.bp = V.bp →
          Cg.StkOk V.A s.sp k → Cg.Safe V d.x s.mem →
          ∃ s' v m', Cg.Run V.G P pre.length s (pre.length + code.length) s' ∧ Cg.Steps V d.x s.mem (.num v) m' ∧ s'.ax = Cg.wd c.W v ∧
            s'.sp = s.sp ∧ s'.bp = s.bp ∧ (∀ a, V.A a → s'.mem a = m' a) ∧
            ∀ a, ¬ V.A a → ¬ Cg.Zone s.sp k a → s'.mem a = s.mem a := by
  obtain ⟨N, hN⟩ := c58_item hT hW hw src d hd cap lab h0 hl
  refine ⟨N, fun n hn => ?_⟩
  rcases hN n hn with h | ⟨i, hi, l1, l2, h⟩
  · exact .inl (h _)
  · right
    obtain ⟨code, g1, g2⟩ := Cg.c25_code hW i.tree i.ok
    have gl := Cg.genExpr_labs hW i.tree i.ok g1
    refine ⟨code, i.tree.depth, h _ code g1, l1.sublist gl, fun l hl => l2 l (gl.subset hl), ?_⟩
    intro V P pre post s hP hn hb hs hsafe
    rw [← hi] at hsafe ⊢
    obtain ⟨hx1, hx2⟩ := i.ref V s.mem hsafe
    obtain ⟨s', v, m', r1, r2, r3, r4, r5, r6, r7⟩ := g2 V P pre post s hP hn hb hs hx1
    obtain ⟨w, w1, w2⟩ := hx2 v m' r2
    exact ⟨s', w, m', r1, w2, by rw [r3, w1], r4, r5, r6, r7⟩

/-- **C58**, MIPS: the same; the value is in `$2`, and the registers that functions preserve are as before. -/
theorem c58_mips {T : Lex.Cfg} {c : Expr.Cfg} (hT : T.W = 4) (hW : c.W = 4) (hw : T.wcs = 2 ∨ T.wcs = 4) {nm : Nat → V} {id : Str → Nat} {tn : List Token → Option Nat} {s : Str} {line : Nat}
    {e : Expr.E} {t : Parse.Lx} (src : Source T 4 nm id tn s line e t) (d : Trans.D) (hd : den c e = some d) (cap : Parse.Cap) (lab : Nat) (h0 : 0 < lab) (hl : lab + labels e < 2 ^ 31) :
    ∃ N, ∀ fuel, N ≤ fuel → compile mips T c nm id tn cap fuel s line lab = .error .long ∨
      ∃ (code : List Mips.Ins) (k : Nat), compile mips T c nm id tn cap fuel s line lab = .ok (t, d.ty, code) ∧
        ∀ (V : Cg.Env 4) (P pre post : List Mips.Ins) (s : Mips.St), P = pre ++ code ++ post → (Mips.labs P).Nodup → s.fp = V.bp →
          Cg.StkOk V.A s.sp k → Cg.Safe V d.x s.mem →
          ∃ s' v m', Mips.Run V.G P pre.length s (pre.length + code.length) s' ∧ Cg.Steps V d.x s.mem (.num v) m' ∧ s'.r 2 = Cg.wd 4 v ∧
            s'.sp = s.sp ∧ (∀ i, Mips.saved i → s'.r i = s.r i) ∧ (∀ a, V.A a → s'.mem a = m' a) ∧
            ∀ a, ¬ V.A a → ¬ Cg.Zone s.sp k a → s'.mem a = s.mem a := by
  obtain ⟨cW, cs, env⟩ := c
  obtain rfl : cW = 4 := hW
  obtain ⟨N, hN⟩ := c58_item hT (.inr rfl) hw src d hd cap lab h0 hl
  refine ⟨N, fun n hn => ?_⟩
  rcases hN n hn with h | ⟨i, hi, l1, l2, h⟩
  · exact .inl (h _)
  · right
    obtain ⟨code, g1, g2⟩ := Mips.c51_code i.tree i.ok i.typed
    refine ⟨code, Mips.words i.tree, h _ code g1, ?_⟩
    intro V P pre post s hP hn hb hs hsafe
    rw [← hi] at hsafe ⊢
    obtain ⟨hx1, hx2⟩ := i.ref V s.mem hsafe
    obtain ⟨s', v, m', r1, r2, r3, r4, r5, r6, r7⟩ := g2 V P pre post s hP hn hb hs hx1
    obtain ⟨w, w1, w2⟩ := hx2 v m' r2
    exact ⟨s', w, m', r1, w2, by rw [r3, w1], r4, r5, r6, r7⟩

/-! ### an example: `N /* c */(char)y1;`, where the macro `N` is `M+`, `M` is `x`; `x` and `y1` are variables -/

open Smlr.Lex (exT exT_plain exWord exPunct exClosed Expands Gap)

def exId (w : Str) : Nat := if w = str "x" then 1 else if w = str "y1" then 2 else 9

def exTn (ws : List Token) : Option Nat := if ws = [.op .Char] then some 3 else none

def exNm (k : Nat) : V := BitVec.ofNat 32 (k + 1)

def exC : Expr.Cfg := ⟨4, true, fun s => if s = 1#32 then some (.globalVar .int) else if s = 2#32 then some (.localVar (-4) .int) else if s = 4#32 then some (.cast .char) else none⟩

def exS : Str := str "N /* c */(char)y1;"

theorem exLexes : Lexes exT (Num exT) true exS 1 [(.ident (str "x"), 1), (.op (.chr 0x2B), 1), (.op (.chr 0x28), 1), (.op .Char, 1), (.op (.chr 0x29), 1), (.ident (str "y1"), 1), (.op (.chr 0x3B), 1)] := by
  have hid : ∀ w ∈ [str "x", str "y1"], ∀ t, (w, t) ∉ keywords := by
    intro w hw t ht
    have : ∀ p ∈ keywords, p.1 ∉ [str "x", str "y1"] := by decide +kernel
    exact this _ ht hw
  have hx : Lexes exT (Num exT) false (str "x") 1 [(.ident (str "x"), 1)] :=
    .token _ _ 0 (str "x") _ _ [] _ (.nil _)
      (.ident _ (str "x") [] (exWord (str "x") [] (by decide +kernel) (by decide +kernel) (by decide) (by decide)) (by decide) (hid _ (by simp)) (exT_plain _ (by decide))) (.done _ _ 0 _ (.nil _))
  have hM : Lexes exT (Num exT) false (str "M+") 1 [(.ident (str "x"), 1), (.op (.chr 0x2B), 1)] :=
    .macro _ _ 0 (str "M+") _ (str "M") (str "x") (str "+") _ _ (.nil _)
      (exWord (str "M") (str "+") (by decide +kernel) (by decide +kernel) (by decide +kernel) (by decide)) (by decide) (show Expands exT 1 (str "M") (str "x") by unfold Expands; decide) hx
      (.token _ _ 0 (str "+") _ _ [] _ (.nil _) (exPunct exT _ (str "+") (.chr 0x2B) [] (by decide) (by decide)) (.done _ _ 0 _ (.nil _)))
  refine .macro _ _ 0 _ _ (str "N") (str "M+") (str " /* c */(char)y1;") _ _ (.nil _)
      (exWord (str "N") (str " /* c */(char)y1;") (by decide +kernel) (by decide +kernel) (by decide +kernel) (by decide)) (by decide) (show Expands exT 1 (str "N") (str "M+") by unfold Expands; decide) hM ?_
  refine .token _ _ 0 _ _ _ (str "char)y1;") _ (.blank _ _ _ _ (by decide) (Gap.block (str " c ") (str "(char)y1;") 0 _ rfl exClosed (.nil _))) (exPunct exT _ (str "(") (.chr 0x28) _ (by decide +kernel) (by decide)) ?_
  refine .token _ _ 0 _ _ _ (str ")y1;") _ (.nil _) (.keyword _ (str "char") _ _ (exWord (str "char") (str ")y1;") (by decide +kernel) (by decide +kernel) (by decide +kernel) (by decide)) (show (str "char", Tk.Char) ∈ keywords by decide +kernel) (by decide +kernel) (exT_plain _ (by decide))) ?_
  refine .token _ _ 0 _ _ _ (str "y1;") _ (.nil _) (exPunct exT _ (str ")") (.chr 0x29) _ (by decide +kernel) (by decide)) ?_
  refine .token _ _ 0 _ _ _ (str ";") _ (.nil _)
    (.ident _ (str "y1") _ (exWord (str "y1") (str ";") (by decide +kernel) (by decide +kernel) (by decide +kernel) (by decide)) (by decide) (hid _ (by simp)) (exT_plain _ (by decide))) ?_
  exact .token _ _ 0 _ _ _ [] _ (.nil _) (exPunct exT _ (str ";") (.chr 0x3B) _ (by decide +kernel) (by decide)) (.done _ _ 0 _ (.nil _))

theorem exSource : Source exT 4 exNm exId exTn exS 1 (.add .plus (.id 1#32) (.cast 4#32 (.id 2#32))) (.semi, 0) := by
  have up : ∀ k p ts e, 1 ≤ p → Parse.Spec.D (p + k) ts e → Parse.Spec.D p ts e := by
    intro k
    induction k with
    | zero => intro p ts e _ h; exact h
    | succ k ih => intro p ts e hp h; exact .up hp (ih (p + 1) ts e (by omega) (by rwa [show p + 1 + k = p + (k + 1) by omega]))
  have sg : ∀ (w : String) (t : Tk), (str w, t) ∈ puncts → Spelled w t := fun w t h => .inl h
  refine .mk [(.ident (str "x"), 1), (.op (.chr 0x2B), 1), (.op (.chr 0x28), 1), (.op .Char, 1), (.op (.chr 0x29), 1), (.ident (str "y1"), 1)] (.op (.chr 0x3B), 1) []
    [(.ident, 1), (.plus, 0), (.lpar, 0), (.tname, 3), (.rpar, 0), (.ident, 2)] (.bin .add (.id 1) (.cast 3 (.id 2))) (by decide +kernel) trivial (by decide) exLexes ?_ ?_ ?_ rfl
  · refine .name (str "x") _ _ (.sign "+" (.chr 0x2B) .plus _ _ (sg _ _ (by decide +kernel)) (by decide +kernel) ?_)
    exact .type [.op .Char] 3 [.ident (str "y1")] _ (.word "char" .Char (by decide +kernel) (.inr (by decide +kernel))) rfl (.name (str "y1") _ _ .nil)
  · exact .sign ";" (.chr 0x3B) .semi _ _ (sg _ _ (by decide +kernel)) (by decide +kernel) .nil
  · exact up 11 1 _ _ (by omega) (.bin .add (ts := [(.ident, 1)]) (up 5 12 _ _ (by omega) (.id 1)) (up 1 13 _ _ (by omega) (.cast 3 (up 3 14 _ _ (by omega) (.id 2)))))

/-- the expression has a meaning -/
example : den exC (.add .plus (.id 1#32) (.cast 4#32 (.id 2#32))) = some { ty := .int, x := .bin .add (.deref 4 (.glob 1)) (.un .schar (.deref 4 (.loc (-4)))) } := rfl

/-- and both theorems apply -/
example : ∃ N, ∀ fuel, N ≤ fuel → compile (x86 4) exT exC exNm exId exTn ⟨90, 90⟩ fuel exS 1 5 = .error .long ∨ ∃ code, compile (x86 4) exT exC exNm exId exTn ⟨90, 90⟩ fuel exS 1 5 = .ok ((.semi, 0), .int, code) := by
  obtain ⟨N, h⟩ := c58_x86 (T := exT) (c := exC) rfl (.inr rfl) (.inl rfl) exSource _ rfl ⟨90, 90⟩ 5 (by decide) (by decide)
  exact ⟨N, fun n hn => (h n hn).imp id fun ⟨code, _, h, _⟩ => ⟨code, h⟩⟩

example : ∃ N, ∀ fuel, N ≤ fuel → compile mips exT exC exNm exId exTn ⟨90, 90⟩ fuel exS 1 5 = .error .long ∨ ∃ code, compile mips exT exC exNm exId exTn ⟨90, 90⟩ fuel exS 1 5 = .ok ((.semi, 0), .int, code) := by
  obtain ⟨N, h⟩ := c58_mips (T := exT) (c := exC) rfl rfl (.inl rfl) exSource _ rfl ⟨90, 90⟩ 5 (by decide) (by decide)
  exact ⟨N, fun n hn => (h n hn).imp id fun ⟨code, _, h, _⟩ => ⟨code, h⟩⟩

/-- the code of the example; that of `x = y1 ? 'a' : 010 << 2u` before a parenthesis for MIPS -/
example : (compile (x86 4) exT exC exNm exId exTn ⟨90, 90⟩ 40 exS 1 5).toOption.map (fun r => (r.1, r.2.1, r.2.2)) = some ((.semi, 0), .int,
    [.i2 .mov .ax (.mem (.loc (-4)) none), .i2 .movsx .ax .al, .i2 .mov .cx .ax, .i2 .mov .ax (.mem (.lab 1) none), .i2 .add .ax .cx]) := by decide +kernel

example : (compile mips exT exC exNm exId exTn ⟨90, 90⟩ 40 (str "x = y1 ? 'a' : 010 << 2u)") 1 5).toOption.map (fun r => (r.1, r.2.1, r.2.2)) = some ((.rpar, 0), .int,
    [.load .lw 2 (.ind 30 (-4)), .bne 2 0 5, .li 2 32, .j 6, .lab 5, .li 2 97, .lab 6, .lui 1, .store .sw 2 (.lo 1)]) := by decide +kernel

end Smlr.Text
