import Verif.Mips.Cmp
set_option autoImplicit false
/-! How the loop of `GenExpr0` runs over the tokens of operands. -/
namespace Smlr.Mips
open Smlr.Cg (E Ar Cc wd)

theorem special_fits {c c' : Cc} {n n' : Int} (h : special (.cmp c) n = (.cmp c', n')) : fits c' n' := by
  cases c <;> simp only [special] at h <;> first | (cases h; trivial) | skip
  · split at h
    · cases h
    · next hc => cases h; exact hc
  · split at h
    · cases h
    · next hc => cases h; exact hc
  · split at h
    · cases h; trivial
    · next hc => cases h; exact hc
  · split at h
    · cases h; trivial
    · next hc => cases h; exact hc

def lev (g : Bool) (t : Nat) : Nat := if g then t + 1 else t
def pc (g : Bool) (t : Nat) : List Ins := if g then pushc t else []
def lastT (F : List T) : T := F.getLastD (.t .ret, 0)

theorem lastT_snoc (F : List T) (x : T) : lastT (F ++ [x]) = x := by simp [lastT, List.getLastD_eq_getLast?]
theorem lastT_app (F F' : List T) (h : F' ≠ []) : lastT (F ++ F') = lastT F' := by
  simp only [lastT, List.getLastD_eq_getLast?, List.getLast?_append_of_ne_nil _ h]

/-- the token is not a jump on the value of a comparison -/
def noIf (x : T) : Prop := x.1 ≠ .t .ifT ∧ x.1 ≠ .t .ifN

/-- the token after `p` does not use `p` in place -/
def nx (p : T) (r : List T) : Prop :=
  ∀ x, r.head? = some x → noIf x ∧ (p.1 = .t .num → x.1.is immOp = false) ∧ (p.1 = .t .ident ∨ p.1 = .t .locl → x.1.is objOp = false)

def nif (r : Option T) : Prop := ∀ x, r = some x → noIf x

theorem nx.nif {p : T} {r : List T} (h : nx p r) : nif r.head? := fun x hx => (h x hx).1

/-- tokens `F` give the code `c`: from `t` intermediate values to `t'` -/
def GenTo (F : List T) (t : Nat) (g' : Bool) (t' : Nat) (c : List Ins) : Prop :=
  F ≠ [] ∧ ∀ g t0, lev g t0 = t → ∀ prev r, nx (lastT F) r →
    gen false ⟨g, t0, wreg t0⟩ prev (F ++ r) = (gen false ⟨g', t', wreg t'⟩ (lastT F) r).map ((pc g t0 ++ c) ++ ·)

theorem gen_cons (G : Gs) (prev x : T) (r : List T) : gen false G prev (x :: r) = (step G prev r.head? x).bind fun q => (gen q.2.2 q.2.1 x r).map (q.1 ++ ·) := by
  rw [gen]; rfl

theorem gen_step {G G' : Gs} {prev x : T} {r : List T} {c : List Ins} (h : step G prev r.head? x = some (c, G', false)) :
    gen false G prev (x :: r) = (gen false G' x r).map (c ++ ·) := by
  rw [gen_cons, h]; rfl

theorem map_app (o : Option (List Ins)) (a b : List Ins) : (o.map (b ++ ·)).map (a ++ ·) = o.map ((a ++ b) ++ ·) := by
  cases o <;> simp

/-- tokens that begin operands -/
def leafT (x : T) : Prop := x.1 = .t .num ∨ x.1 = .t .ident ∨ x.1 = .t .locl

def headL (F : List T) : Prop := ∃ x r, F = x :: r ∧ leafT x

theorem headL.app {F : List T} (h : headL F) (F' : List T) : headL (F ++ F') := by
  obtain ⟨x, r, rfl, h⟩ := h
  exact ⟨x, r ++ F', rfl, h⟩

theorem headL.nx {F : List T} (h : headL F) (p : T) (r : List T) : nx p (F ++ r) := by
  obtain ⟨⟨k, v⟩, q, rfl, h⟩ := h
  intro y hy
  cases hy
  rcases h with h | h | h <;> (simp only at h; subst h) <;> refine ⟨⟨?_, ?_⟩, fun _ => rfl, fun _ => rfl⟩ <;> exact fun h => by cases h

theorem GenTo.seq {F F' : List T} {t t1 t2 : Nat} {g1 g2 : Bool} {c c' : List Ins} (h : GenTo F t g1 t1 c) (hh : headL F') (h' : GenTo F' (lev g1 t1) g2 t2 c') :
    GenTo (F ++ F') t g2 t2 (c ++ (pc g1 t1 ++ c')) := by
  refine ⟨by simp [h.1], fun g t0 ht prev r hr => ?_⟩
  rw [lastT_app _ _ h'.1] at hr ⊢
  rw [List.append_assoc, h.2 g t0 ht prev (F' ++ r) (hh.nx _ _), h'.2 g1 t1 rfl _ r hr, map_app]
  simp only [List.append_assoc]

theorem GenTo.snoc {F : List T} {x : T} {t t1 t2 : Nat} {g1 g2 : Bool} {c c' : List Ins} (h : GenTo F t g1 t1 c) (hx : nx (lastT F) [x])
    (hs : ∀ n, nif n → step ⟨g1, t1, wreg t1⟩ (lastT F) n x = some (c', ⟨g2, t2, wreg t2⟩, false)) : GenTo (F ++ [x]) t g2 t2 (c ++ c') := by
  refine ⟨by simp, fun g t0 ht prev r hr => ?_⟩
  rw [lastT_snoc] at hr ⊢
  rw [List.append_assoc, h.2 g t0 ht prev ([x] ++ r) (fun y hy => hx y hy)]
  show Option.map _ (gen false _ _ (x :: r)) = _
  rw [gen_step (hs _ hr.nif), map_app]
  simp only [List.append_assoc]

/-- an operator with a number in place -/
theorem GenTo.imm {F : List T} {n v : Int} {k : Cg.Tok} {t t1 : Nat} {c c' : List Ins} (h : GenTo F t true t1 c) (hk : immOp k = true)
    (hs : ∀ m, nif m → step ⟨true, t1, wreg t1⟩ (.t .num, n) m (.t k, v) = some (c', ⟨true, t1, wreg t1⟩, false)) :
    GenTo (F ++ [(.t .num, n), (.t k, v)]) t true t1 (c ++ c') := by
  refine ⟨by simp, fun g t0 ht prev r hr => ?_⟩
  have e : lastT (F ++ [(.t .num, n), (.t k, v)]) = (.t k, v) := by
    rw [lastT_app _ _ (by simp)]; rfl
  rw [e] at hr ⊢
  rw [List.append_assoc, h.2 g t0 ht prev ([(.t .num, n), (.t k, v)] ++ r) (headL.nx ⟨_, _, rfl, Or.inl rfl⟩ _ _)]
  show Option.map _ (gen false _ _ ((.t .num, n) :: (.t k, v) :: r)) = _
  have h1 : ∀ p, step ⟨true, t1, wreg t1⟩ p ((Tok.t k, v) :: r).head? (.t .num, n) = some ([], ⟨true, t1, wreg t1⟩, false) := by
    intro p
    simp only [step, List.head?_cons, Option.map_some, Option.getD_some, Tok.is, hk, Bool.not_true, Bool.and_false, if_true]
    rfl
  rw [gen_step (h1 _), gen_step (hs _ hr.nif), map_app, map_app]
  simp only [List.append_assoc, List.nil_append]

/-- an operator on an identifier or a local object -/
theorem GenTo.obj {x : T} (hx : x.1 = .t .ident ∨ x.1 = .t .locl) {v : Int} {k : Cg.Tok} {t : Nat} {c' : List Ins} (hk : objOp k = true)
    (hs : ∀ m, nif m → step ⟨true, t, wreg t⟩ x m (.t k, v) = some (c', ⟨true, t, wreg t⟩, false)) :
    GenTo ([x] ++ [(.t k, v)]) t true t c' := by
  refine ⟨by simp, fun g t0 ht prev r hr => ?_⟩
  rw [lastT_snoc] at hr ⊢
  show gen false _ _ (x :: (.t k, v) :: r) = _
  have h1 : step ⟨g, t0, wreg t0⟩ prev ((Tok.t k, v) :: r).head? x = some (pc g t0, ⟨true, t, wreg t⟩, false) := by
    obtain ⟨y, w⟩ := x
    subst ht
    rcases hx with rfl | rfl <;> cases g <;>
      simp only [step, List.head?_cons, Option.map_some, Option.getD_some, Tok.is, hk, Bool.and_true, Bool.true_and, Bool.false_and, if_true, push_eq, lev, pc, List.append_nil] <;> rfl
  rw [gen_step h1, gen_step (hs _ hr.nif), map_app]

theorem genTo_leaf {x : T} {t : Nat} {c : List Ins} (h : ∀ g t0, lev g t0 = t → ∀ prev r, nx x r → step ⟨g, t0, wreg t0⟩ prev r.head? x = some (pc g t0 ++ c, ⟨true, t, wreg t⟩, false)) :
    GenTo [x] t true t c := by
  refine ⟨by simp, fun g t0 ht prev r hr => ?_⟩
  exact gen_step (h g t0 ht prev r hr)

theorem nx_hidden {k : Tok} {v : Int} {r : List T} {p : Cg.Tok → Bool} (h : nx (k, v) r) (hp : (p = immOp ∧ k = .t .num) ∨ (p = objOp ∧ (k = .t .ident ∨ k = .t .locl))) :
    (r.head?.map (·.1.is p)).getD false = false := by
  cases r with
  | nil => rfl
  | cons x r =>
    have := h x rfl
    rcases hp with ⟨rfl, hk⟩ | ⟨rfl, hk⟩
    · exact this.2.1 hk
    · exact this.2.2 hk

theorem genTo_num (n : Int) (t : Nat) : GenTo [(.t .num, n)] t true t [.li (wreg t) n] := by
  refine genTo_leaf fun g t0 ht prev r hr => ?_
  have hh := nx_hidden (p := immOp) hr (Or.inl ⟨rfl, rfl⟩)
  subst ht
  cases g <;> simp only [step, hh, Bool.not_false, Bool.and_true, Bool.false_eq_true, if_false, if_true, push_eq, lev, pc]

theorem genTo_glob (n : Int) (t : Nat) : GenTo [(.t .ident, n)] t true t [.la (wreg t) n] := by
  refine genTo_leaf fun g t0 ht prev r hr => ?_
  have hh := nx_hidden (p := objOp) hr (Or.inr ⟨rfl, Or.inl rfl⟩)
  subst ht
  cases g <;> simp only [step, hh, Bool.not_false, Bool.and_true, Bool.false_eq_true, if_false, if_true, push_eq, lev, pc]

theorem genTo_loc (n : Int) (t : Nat) : GenTo [(.t .locl, n)] t true t (p3 .addu (wreg t) FP (.imm n)) := by
  refine genTo_leaf fun g t0 ht prev r hr => ?_
  have hh := nx_hidden (p := objOp) hr (Or.inr ⟨rfl, Or.inr rfl⟩)
  subst ht
  cases g <;> simp only [step, hh, Bool.not_false, Bool.and_true, Bool.false_eq_true, if_false, if_true, push_eq, lev, pc]

/-! ### the first token -/

theorem swapped_headL (k : Cg.Tok) (v : Int) {l r : List T} (hl : headL l) (hr : headL r) : headL (swapped k v l r) := by
  have fin_headL : ∀ (k : Cg.Tok) (a : List T) (x : T), headL (a ++ [x]) → headL (fin k v a x) := by
    intro k a x h
    cases a with
    | nil =>
      obtain ⟨y, q, h1, h2⟩ := h
      cases h1
      unfold fin
      split
      · exact ⟨_, _, rfl, Or.inl rfl⟩
      · exact ⟨_, _, rfl, h2⟩
    | cons b a =>
      obtain ⟨y, q, h1, h2⟩ := h
      cases h1
      unfold fin
      split
      · exact ⟨_, _, rfl, h2⟩
      · exact ⟨_, _, rfl, h2⟩
  unfold swapped
  split
  · next n x h1 h2 =>
    split
    · apply fin_headL
      have : r.dropLast ++ [x] = r := List.dropLast_append_getLast? _ (by rw [h2]; rfl)
      rw [List.append_assoc, this]
      exact hl.app _
    · apply fin_headL
      cases hd : l.dropLast with
      | nil => exact hr.app _
      | cons b a =>
        obtain ⟨y, q, rfl, h⟩ := hl
        cases q with
        | nil => cases hd
        | cons z q => cases hd; exact ⟨_, _, rfl, h⟩
  · next x h2 _ =>
    apply fin_headL
    have : r.dropLast ++ [x] = r := List.dropLast_append_getLast? _ (by rw [h2]; rfl)
    rw [List.append_assoc, this]
    exact hl.app _
  · exact (hl.app _).app _

theorem fix_headL (k : Cg.Tok) {r : List T} (h : headL r) : headL (fix k r).2 := by
  unfold fix
  split
  · exact ⟨_, _, rfl, Or.inl rfl⟩
  · exact h

theorem revd_headL (k : Tok) (v : Int) {l r : List T} (hl : headL l) (hr : headL r) : headL (revd k v l r) := by
  unfold revd
  split
  · cases hd : l.dropLast with
    | nil => exact hr.app _
    | cons b a =>
      obtain ⟨y, q, rfl, h⟩ := hl
      cases q with
      | nil => cases hd
      | cons z q => cases hd; exact ⟨_, _, rfl, h⟩
  · cases hd : l.dropLast with
    | nil => exact hr.app _
    | cons b a =>
      obtain ⟨y, q, rfl, h⟩ := hl
      cases q with
      | nil => cases hd
      | cons z q => cases hd; exact ⟨_, _, rfl, h⟩
  · exact (hl.app _).app _

theorem pt_headL (e : E) : headL (pt e) := by
  induction e with
  | num v => exact ⟨_, _, rfl, Or.inl rfl⟩
  | glob v => exact ⟨_, _, rfl, Or.inr (Or.inl rfl)⟩
  | loc v => exact ⟨_, _, rfl, Or.inr (Or.inr rfl)⟩
  | deref sz e ih | un u e ih | inc k sz e ih => exact ih.app _
  | padd b sz n e ih => exact (ih.app _).app _
  | bin o l r ihl ihr =>
    show headL (binT o _ _)
    unfold binT
    split
    · exact swapped_headL _ _ ihl (fix_headL _ ihr)
    · exact (ihl.app _).app _
  | cmp c l r ihl ihr => exact swapped_headL _ _ ihl ihr
  | asg sz l r ihl ihr => exact revd_headL _ _ ihl ihr
  | asgo o sz l r ihl ihr => exact revd_headL _ _ ihl (fix_headL _ ihr)
  | land lab l r ihl _ | lor lab l r ihl _ => exact ((ihl.app _).app _).app _
  | comma l r ihl _ => exact ((ihl.app _).app _).app _
  | cond lab c a b ihc _ _ => exact ((((ihc.app _).app _).app _).app _).app _

end Smlr.Mips
