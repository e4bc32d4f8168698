import Verif.Mips.Sim
set_option autoImplicit false
/-! What `GenPrep` makes of the tokens of an expression. -/
namespace Smlr.Mips
open Smlr.Cg (E Ar Cc wd toks)

/-- the first `switch` of `GenPrep` for an operator with the right operand `R` -/
def fix (k : Cg.Tok) (R : List T) : Cg.Tok × List T :=
  match R with
  | [(.t .num, m)] => ((prep1 k (.num, m)).1, [(.t .num, (prep1 k (.num, m)).2.2)])
  | R => (k, R)

def binT (o : Ar) (l r : List T) : List T :=
  match kind (fix (.ar o) r).1 with
  | .comm => swapped (fix (.ar o) r).1 0 l (fix (.ar o) r).2
  | _ => l ++ (fix (.ar o) r).2 ++ [(.t (fix (.ar o) r).1, 0)]

/-- the tokens that are left -/
def pt : E → List T
  | .num v => [(.t .num, v)]
  | .glob x => [(.t .ident, x)]
  | .loc o => [(.t .locl, o)]
  | .deref sz e => pt e ++ [(.t .star, sz)]
  | .un u e => pt e ++ [(.t u.tok, 0)]
  | .inc k sz e => pt e ++ [(.t k.tok, sz)]
  | .padd sub sz n e => pt e ++ [(.t .num, n)] ++ [(.t (if sub then .psub else .padd), sz)]
  | .bin o l r => binT o (pt l) (pt r)
  | .cmp c l r => swapped (.cmp c) 0 (pt l) (pt r)
  | .asg sz l r => revd (.t .asg) sz (pt l) (pt r)
  | .asgo o sz l r => revd (.t (fix (.asgo o) (pt r)).1) sz (pt l) (fix (.asgo o) (pt r)).2
  | .land lab l r => pt l ++ [(.t .short, lab)] ++ pt r ++ [(.t .logAnd, lab)]
  | .lor lab l r => pt l ++ [(.t .short, -lab)] ++ pt r ++ [(.t .logOr, lab)]
  | .cond lab c a b =>
    (pt c ++ [(.t .short, -lab)] ++ (pt b ++ [(.t .goto, lab + 1)]) ++ [(.t .logAnd, lab)]) ++ pt a ++ [(.t .logAnd, lab + 1)]
  | .comma l r => pt l ++ [(.t .void, 0)] ++ pt r ++ [(.t .comma, 0)]

/-! ### the last token -/

theorem toks_last (e : E) : (∃ n, e = .num n) ∨ ∃ a k v, toks e = a ++ [(k, v)] ∧ k ≠ .num := by
  cases e with
  | num v => exact Or.inl ⟨v, rfl⟩
  | glob x => exact Or.inr ⟨[], _, _, rfl, by simp⟩
  | loc x => exact Or.inr ⟨[], _, _, rfl, by simp⟩
  | un u e => exact Or.inr ⟨_, _, _, rfl, by cases u <;> simp [Cg.Un.tok]⟩
  | inc k sz e => exact Or.inr ⟨_, _, _, rfl, by cases k <;> simp [Cg.IncK.tok]⟩
  | padd sub sz n e =>
    refine Or.inr ⟨toks e ++ [(.num, n)], if sub then .psub else .padd, sz, by simp [toks], by cases sub <;> simp⟩
  | _ => exact Or.inr ⟨_, _, _, rfl, by simp⟩

/-- not an operand by itself that is used in place -/
def inner (x : T) : Prop := x.1 ≠ .t .num ∧ x.1 ≠ .t .ident ∧ x.1 ≠ .t .locl ∧ x.1 ≠ .revIdent ∧ x.1 ≠ .revLocl

theorem fin_last (k : Cg.Tok) (v : Int) (a : List T) (x : T) (h : ∀ n, inner (.t (special k n).1, v)) (h' : inner (.t k, v)) :
    ∃ b y, fin k v a x = b ++ [y] ∧ inner y := by
  unfold fin
  split
  · next n => exact ⟨a ++ [(.t .num, (special k n).2)], (.t (special k n).1, v), by simp, h n⟩
  · exact ⟨a ++ [x], _, by simp, h'⟩

theorem swapped_last (k : Cg.Tok) (v : Int) (l r : List T) (h : ∀ n, inner (.t (special k n).1, v)) (h' : inner (.t k, v))
    (g : ∀ n, inner (.t (special (mirror k) n).1, v)) (g' : inner (.t (mirror k), v)) :
    ∃ b y, swapped k v l r = b ++ [y] ∧ inner y := by
  unfold swapped
  split
  · split
    · exact fin_last _ _ _ _ h h'
    · exact fin_last _ _ _ _ g g'
  · exact fin_last _ _ _ _ h h'
  · exact ⟨_, _, rfl, h'⟩

def opTok (k : Cg.Tok) : Prop := (∃ o, k = .ar o) ∨ ∃ c, k = .cmp c

theorem opTok.inner {k : Cg.Tok} (h : opTok k) (v : Int) : inner (.t k, v) := by
  rcases h with ⟨o, rfl⟩ | ⟨c, rfl⟩ <;> simp [Mips.inner]

theorem special_op {k : Cg.Tok} (h : opTok k) (n : Int) : opTok (special k n).1 := by
  rcases h with ⟨o, rfl⟩ | ⟨c, rfl⟩
  · cases o <;> simp only [special] <;> try exact Or.inl ⟨_, rfl⟩
    split <;> exact Or.inl ⟨_, rfl⟩
  · cases c <;> simp only [special] <;> (try split) <;> first | exact Or.inl ⟨_, rfl⟩ | exact Or.inr ⟨_, rfl⟩

theorem mirror_op {k : Cg.Tok} (h : opTok k) : opTok (mirror k) := by
  rcases h with ⟨o, rfl⟩ | ⟨c, rfl⟩
  · exact Or.inl ⟨o, rfl⟩
  · cases c <;> exact Or.inr ⟨_, rfl⟩

theorem swapped_op (k : Cg.Tok) (v : Int) (l r : List T) (h : opTok k) : ∃ b y, swapped k v l r = b ++ [y] ∧ inner y :=
  swapped_last k v l r (fun n => (special_op h n).inner v) (h.inner v) (fun n => (special_op (mirror_op h) n).inner v) ((mirror_op h).inner v)

theorem prep1_ar (o : Ar) (x : Cg.T) : opTok (prep1 (.ar o) x).1 := by
  unfold prep1
  split
  · split
    · cases o <;> exact Or.inl ⟨_, rfl⟩
    · exact Or.inl ⟨_, rfl⟩
  · exact Or.inl ⟨_, rfl⟩

theorem fix_ar (o : Ar) (R : List T) : opTok (fix (.ar o) R).1 := by
  unfold fix
  split
  · exact prep1_ar o _
  · exact Or.inl ⟨o, rfl⟩

theorem revd_last (k : Tok) (v : Int) (l r : List T) : ∃ b, revd k v l r = b ++ [(k, v)] := by
  unfold revd
  split
  · next x _ => exact ⟨l.dropLast ++ r ++ [(.revIdent, x)], by simp⟩
  · next x _ => exact ⟨l.dropLast ++ r ++ [(.revLocl, x)], by simp⟩
  · exact ⟨_, rfl⟩

theorem prep1_asgo (o : Ar) (x : Cg.T) : ∃ o', (prep1 (.asgo o) x).1 = .asgo o' := by
  unfold prep1
  split
  · split
    · cases o <;> exact ⟨_, rfl⟩
    · exact ⟨_, rfl⟩
  · exact ⟨_, rfl⟩

theorem fix_asgo (o : Ar) (R : List T) : ∃ o', (fix (.asgo o) R).1 = .asgo o' := by
  unfold fix
  split
  · exact prep1_asgo o _
  · exact ⟨o, rfl⟩

theorem pt_last (e : E) : (∃ n, e = .num n) ∨ (∃ x, e = .glob x) ∨ (∃ x, e = .loc x) ∨ ∃ a x, pt e = a ++ [x] ∧ inner x := by
  cases e with
  | num v => exact Or.inl ⟨v, rfl⟩
  | glob x => exact Or.inr (Or.inl ⟨x, rfl⟩)
  | loc x => exact Or.inr (Or.inr (Or.inl ⟨x, rfl⟩))
  | un u e => exact Or.inr (Or.inr (Or.inr ⟨_, _, rfl, by cases u <;> simp [Cg.Un.tok, inner]⟩))
  | inc k sz e => exact Or.inr (Or.inr (Or.inr ⟨_, _, rfl, by cases k <;> simp [Cg.IncK.tok, inner]⟩))
  | padd sub sz n e => exact Or.inr (Or.inr (Or.inr ⟨_, _, rfl, by cases sub <;> simp [inner]⟩))
  | bin o l r =>
    refine Or.inr (Or.inr (Or.inr ?_))
    show ∃ a x, binT o (pt l) (pt r) = _ ∧ _
    unfold binT
    split
    · exact swapped_op _ _ _ _ (fix_ar o _)
    · exact ⟨_, _, rfl, (fix_ar o _).inner _⟩
  | cmp c l r => exact Or.inr (Or.inr (Or.inr (swapped_op _ _ _ _ (Or.inr ⟨c, rfl⟩))))
  | asg sz l r =>
    obtain ⟨b, h⟩ := revd_last (.t .asg) sz (pt l) (pt r)
    exact Or.inr (Or.inr (Or.inr ⟨b, _, h, by simp [inner]⟩))
  | asgo o sz l r =>
    obtain ⟨b, h⟩ := revd_last (.t (fix (.asgo o) (pt r)).1) sz (pt l) (fix (.asgo o) (pt r)).2
    obtain ⟨o', ho⟩ := fix_asgo o (pt r)
    exact Or.inr (Or.inr (Or.inr ⟨b, _, h, by rw [ho]; simp [inner]⟩))
  | _ => exact Or.inr (Or.inr (Or.inr ⟨_, _, rfl, by simp [inner]⟩))

def isNum : E → Bool
  | .num _ => true
  | _ => false

/-- an identifier or a local object -/
def isObj : E → Bool
  | .glob _ | .loc _ => true
  | _ => false

theorem last_not_num {e : E} (h : isNum e = false) : ∃ a x, pt e = a ++ [x] ∧ x.1 ≠ .t .num := by
  rcases pt_last e with ⟨n, rfl⟩ | ⟨x, rfl⟩ | ⟨x, rfl⟩ | ⟨a, x, h1, h2⟩
  · cases h
  · exact ⟨[], _, rfl, by simp⟩
  · exact ⟨[], _, rfl, by simp⟩
  · exact ⟨a, x, h1, h2.1⟩

theorem last_not_obj {e : E} (h : isObj e = false) : ∃ a x, pt e = a ++ [x] ∧ x.1 ≠ .t .ident ∧ x.1 ≠ .t .locl := by
  rcases pt_last e with ⟨n, rfl⟩ | ⟨x, rfl⟩ | ⟨x, rfl⟩ | ⟨a, x, h1, h2⟩
  · exact ⟨[], _, rfl, by simp⟩
  · cases h
  · cases h
  · exact ⟨a, x, h1, h2.2.1, h2.2.2.1⟩

/-! ### the tokens of operators -/

theorem fix_num (k : Cg.Tok) (n : Int) : fix k (pt (.num n)) = ((prep1 k (.num, n)).1, [(.t .num, (prep1 k (.num, n)).2.2)]) := rfl

theorem fix_not_num (k : Cg.Tok) {e : E} (h : isNum e = false) : fix k (pt e) = (k, pt e) := by
  obtain ⟨a, x, h1, h2⟩ := last_not_num h
  unfold fix
  split
  · next m he =>
    rw [h1] at he
    have : x = (.t .num, m) := by
      have := congrArg List.getLast? he
      simpa using this
    exact absurd (congrArg Prod.fst this) h2
  · rfl

theorem fin_num (k : Cg.Tok) (v : Int) (a : List T) (n : Int) : fin k v a (.t .num, n) = a ++ [(.t .num, (special k n).2), (.t (special k n).1, v)] := rfl

theorem fin_not_num (k : Cg.Tok) (v : Int) (a : List T) {x : T} (h : x.1 ≠ .t .num) : fin k v a x = a ++ [x, (.t k, v)] := by
  unfold fin
  split
  · exact absurd rfl h
  · rfl

theorem swapped_num (k : Cg.Tok) (v : Int) (l : List T) (n : Int) :
    swapped k v l [(.t .num, n)] = l ++ [(.t .num, (special k n).2), (.t (special k n).1, v)] := by
  unfold swapped
  split
  · next h1 h2 =>
    simp at h2
    subst h2
    rw [if_pos rfl, fin_num]
    simp
  · next h2 _ =>
    simp at h2
    subst h2
    rw [fin_num]
    simp
  · next h => simp at h

theorem swapped_left (k : Cg.Tok) (v : Int) (n : Int) {e : E} (h : isNum e = false) :
    swapped k v [(.t .num, n)] (pt e) = pt e ++ [(.t .num, (special (mirror k) n).2), (.t (special (mirror k) n).1, v)] := by
  obtain ⟨a, x, h1, h2⟩ := last_not_num h
  rw [h1]
  unfold swapped
  simp only [List.getLast?_singleton, List.getLast?_append_of_ne_nil _ (List.cons_ne_nil _ _), if_neg h2, fin_num]
  rfl

theorem swapped_else (k : Cg.Tok) (v : Int) {e e' : E} (h : isNum e = false) (h' : isNum e' = false) :
    swapped k v (pt e) (pt e') = pt e ++ pt e' ++ [(.t k, v)] := by
  obtain ⟨a, x, h1, h2⟩ := last_not_num h
  obtain ⟨a', x', h1', h2'⟩ := last_not_num h'
  rw [h1, h1']
  unfold swapped
  rw [List.getLast?_append_of_ne_nil _ (List.cons_ne_nil _ _), List.getLast?_append_of_ne_nil _ (List.cons_ne_nil _ _)]
  obtain ⟨y, w⟩ := x
  simp only [List.getLast?_singleton]
  split
  · next he _ =>
    cases he
    exact absurd rfl h2
  · next he _ =>
    cases he
    rw [fin_not_num _ _ _ h2']
    simp
  · next he => cases he

def comm : Ar → Bool
  | .add | .mul | .band | .xor | .bor => true
  | _ => false

/-- what an operator with the number `n` on the right becomes -/
def red (o : Ar) (n : Int) : Ar × Int :=
  match pow2 n with
  | some k =>
    match o with
    | .udiv => (.shr, k)
    | .umod => (.band, (truncU n : Int) - 1)
    | .mul => (.shl, k)
    | _ => (o, n)
  | none => (o, n)

theorem pt_bin_num (o : Ar) (l : E) (n : Int) : pt (.bin o l (.num n)) = pt l ++ [(.t .num, (red o n).2), (.t (.ar (red o n).1), 0)] := by
  show binT o (pt l) (pt (.num n)) = _
  unfold binT
  simp only [fix_num, prep1, if_pos, red]
  cases hp : pow2 n <;> cases o <;>
    simp only [kind, swapped_num, special, hp, List.append_assoc, List.cons_append, List.nil_append]

theorem kind_comm {o : Ar} (h : comm o = true) : kind (.ar o) = .comm := by cases o <;> first | rfl | cases h

theorem kind_two {o : Ar} (h : comm o = false) : kind (.ar o) = .two := by cases o <;> first | rfl | cases h

theorem pt_bin_left (o : Ar) (n : Int) {r : E} (h : isNum r = false) (ho : comm o = true) :
    pt (.bin o (.num n) r) = pt r ++ [(.t .num, (red o n).2), (.t (.ar (red o n).1), 0)] := by
  show binT o (pt (.num n)) (pt r) = _
  unfold binT
  rw [fix_not_num _ h]
  simp only [kind_comm ho]
  show swapped _ _ [(.t .num, n)] _ = _
  rw [swapped_left _ _ _ h]
  simp only [red]
  cases hp : pow2 n <;> cases o <;> first | cases ho; done | simp only [special, mirror, hp]

theorem pt_bin (o : Ar) {l r : E} (h : isNum r = false) (h' : isNum l = false ∨ comm o = false) : pt (.bin o l r) = pt l ++ pt r ++ [(.t (.ar o), 0)] := by
  show binT o (pt l) (pt r) = _
  unfold binT
  rw [fix_not_num _ h]
  cases ho : comm o with
  | false => simp only [kind_two ho]
  | true =>
    simp only [kind_comm ho]
    rcases h' with h' | h'
    · exact swapped_else _ _ h' h
    · rw [h'] at ho; cases ho

theorem pt_cmp_num (c : Cc) (l : E) (n : Int) : pt (.cmp c l (.num n)) = pt l ++ [(.t .num, (special (.cmp c) n).2), (.t (special (.cmp c) n).1, 0)] :=
  swapped_num _ _ _ _

theorem pt_cmp_left (c : Cc) (n : Int) {r : E} (h : isNum r = false) :
    pt (.cmp c (.num n) r) = pt r ++ [(.t .num, (special (mirror (.cmp c)) n).2), (.t (special (mirror (.cmp c)) n).1, 0)] :=
  swapped_left _ _ _ h

theorem pt_cmp (c : Cc) {l r : E} (h : isNum r = false) (h' : isNum l = false) : pt (.cmp c l r) = pt l ++ pt r ++ [(.t (.cmp c), 0)] :=
  swapped_else _ _ h' h

theorem revd_glob (k : Tok) (v x : Int) (r : List T) : revd k v (pt (.glob x)) r = r ++ [(.revIdent, x), (k, v)] := rfl
theorem revd_loc (k : Tok) (v x : Int) (r : List T) : revd k v (pt (.loc x)) r = r ++ [(.revLocl, x), (k, v)] := rfl

theorem revd_else (k : Tok) (v : Int) {l : E} (h : isObj l = false) (r : List T) : revd k v (pt l) r = pt l ++ r ++ [(k, v)] := by
  obtain ⟨a, x, h1, h2, h3⟩ := last_not_obj h
  rw [h1]
  unfold revd
  rw [List.getLast?_append_of_ne_nil _ (List.cons_ne_nil _ _)]
  obtain ⟨y, w⟩ := x
  simp only [List.getLast?_singleton]
  split
  · next he => cases he; exact absurd rfl h2
  · next he => cases he; exact absurd rfl h3
  · rfl

/-- what a compound assignment with the number `n` on the right becomes -/
def redA (o : Ar) (n : Int) : Ar × Int :=
  match pow2 n with
  | some k =>
    match o with
    | .udiv => (.shr, k)
    | .umod => (.band, (truncU n : Int) - 1)
    | _ => (o, n)
  | none => (o, n)

theorem fix_asgo_num (o : Ar) (n : Int) : fix (.asgo o) (pt (.num n)) = (.asgo (redA o n).1, pt (.num (redA o n).2)) := by
  simp only [fix_num, prep1, if_pos, redA]
  cases hp : pow2 n <;> cases o <;> rfl

/-! ### `prep` gives these tokens -/

theorem prep1_not_num (k : Cg.Tok) {x : Cg.T} (h : x.1 ≠ .num) : prep1 k x = (k, x) := if_neg h

theorem prep1_snd (k : Cg.Tok) (n : Int) : (prep1 k (.num, n)).2 = (.num, (prep1 k (.num, n)).2.2) := by
  unfold prep1
  split
  · split
    · split <;> rfl
    · rfl
  · rfl

/-- operators that the first `switch` leaves alone -/
def Plain (k : Cg.Tok) : Prop := ∀ x, prep1 k x = (k, x)

theorem plain_of {k : Cg.Tok} (h1 : k ≠ .ar .udiv) (h2 : k ≠ .ar .umod) (h3 : k ≠ .asgo .udiv) (h4 : k ≠ .asgo .umod) : Plain k := by
  intro x
  unfold prep1
  split
  · split
    · split <;> first | contradiction | rfl
    · rfl
  · rfl

theorem head_plain {k : Cg.Tok} (h : Plain k) (rest : List Cg.T) :
    first k rest = (k, rest) := by
  cases rest with
  | nil => rfl
  | cons x r => simp only [first, h x]

theorem prep_leaf (f : Nat) (top : Bool) {k : Cg.Tok} (hk : kind k = .leaf) (hp : Plain k) (v : Int) (rest : List Cg.T) :
    prep (f + 1) top ((k, v) :: rest) = some ([(.t k, v)], rest) := by
  unfold prep
  simp only [head_plain hp, hk]

theorem prep_one (f : Nat) (top : Bool) {k : Cg.Tok} (hk : kind k = .one) (hp : Plain k) (v : Int) {rest rest' : List Cg.T} {l : List T}
    (h : prep f false rest = some (l, rest')) : prep (f + 1) top ((k, v) :: rest) = some (l ++ [(.t k, v)], rest') := by
  unfold prep
  simp only [head_plain hp, hk, h, Option.map_some]

theorem prep_two (f : Nat) (top : Bool) {k : Cg.Tok} (hk : kind k = .two) (hp : Plain k) (v : Int) {rest rest' rest'' : List Cg.T} {l r : List T}
    (h : prep f false rest = some (r, rest')) (h' : prep f false rest' = some (l, rest'')) :
    prep (f + 1) top ((k, v) :: rest) = some (l ++ r ++ [(.t k, v)], rest'') := by
  unfold prep
  simp only [head_plain hp, hk, h, h', Option.map_some, Option.bind_some]

theorem prep_comm (f : Nat) (top : Bool) {k : Cg.Tok} (hk : kind k = .comm) (hp : Plain k) (v : Int) {rest rest' rest'' : List Cg.T} {l r : List T}
    (h : prep f false rest = some (r, rest')) (h' : prep f false rest' = some (l, rest'')) :
    prep (f + 1) top ((k, v) :: rest) = some (swapped k v l r, rest'') := by
  unfold prep
  simp only [head_plain hp, hk, h, h', Option.map_some, Option.bind_some]

theorem toks_rev (e : E) (rest : List Cg.T) : ((∃ n, e = .num n) ∧ True) ∨
    ∃ k v a, (toks e).reverse ++ rest = (k, v) :: (a ++ rest) ∧ k ≠ .num := by
  rcases toks_last e with h | ⟨a, k, v, h, hk⟩
  · exact Or.inl ⟨h, trivial⟩
  · exact Or.inr ⟨k, v, a.reverse, by rw [h]; simp, hk⟩

/-- the operators with two operands: what `fix` says -/
theorem prep_fix (f : Nat) (top : Bool) (k : Cg.Tok) (v : Int) (r : E) (rest rest'' : List Cg.T) {l : List T} {out : List T}
    (hr : prep f false ((toks r).reverse ++ rest) = some (pt r, rest)) (hl : prep f false rest = some (l, rest'')) (hf : f ≠ 0)
    (hk : (kind (fix k (pt r)).1 = .two ∧ out = l ++ (fix k (pt r)).2 ++ [(.t (fix k (pt r)).1, v)]) ∨
      (kind (fix k (pt r)).1 = .comm ∧ out = swapped (fix k (pt r)).1 v l (fix k (pt r)).2) ∨
      ((∃ o, k = .asgo o) ∧ out = revd (.t (fix k (pt r)).1) v l (fix k (pt r)).2)) :
    prep (f + 1) top ((k, v) :: ((toks r).reverse ++ rest)) = some (out, rest'') := by
  have key : ∃ R, first k ((toks r).reverse ++ rest) = ((fix k (pt r)).1, R) ∧
      prep f false R = some ((fix k (pt r)).2, rest) := by
    rcases toks_rev r rest with ⟨⟨n, rfl⟩, -⟩ | ⟨k', v', a, h, hk'⟩
    · refine ⟨(prep1 k (.num, n)).2 :: rest, rfl, ?_⟩
      obtain ⟨f, rfl⟩ : ∃ g, f = g + 1 := ⟨f - 1, by omega⟩
      rw [prep1_snd, prep_leaf f false (k := .num) rfl (plain_of (by simp) (by simp) (by simp) (by simp))]
      rfl
    · have hn : isNum r = false := by
        cases r <;> first | rfl | (simp [toks] at h; exact absurd h.1.1.symm hk')
      rw [h] at hr ⊢
      rw [fix_not_num k hn]
      refine ⟨(k', v') :: (a ++ rest), ?_, hr⟩
      simp only [first, prep1_not_num k (x := (k', v')) hk']
  obtain ⟨R, h1, h2⟩ := key
  unfold prep
  simp only [h1]
  rcases hk with ⟨hk, rfl⟩ | ⟨hk, rfl⟩ | ⟨⟨o, rfl⟩, rfl⟩
  · simp only [hk, h2, hl, Option.map_some, Option.bind_some]
  · simp only [hk, h2, hl, Option.map_some, Option.bind_some]
  · obtain ⟨o', ho⟩ := fix_asgo o (pt r)
    rw [ho]
    simp only [kind, h2, hl, Option.map_some, Option.bind_some]

theorem toks_pos (e : E) : 0 < (toks e).length := by
  rcases toks_last e with ⟨n, rfl⟩ | ⟨a, k, v, h, -⟩
  · exact Nat.one_pos
  · rw [h]; simp

theorem prep_asg (f : Nat) (v : Int) {rest rest' rest'' : List Cg.T} {l r : List T}
    (h : prep f false rest = some (r, rest')) (h' : prep f false rest' = some (l, rest'')) :
    prep (f + 1) false ((.asg, v) :: rest) = some (revd (.t .asg) v l r, rest'') := by
  have hp : Plain .asg := plain_of (by simp) (by simp) (by simp) (by simp)
  unfold prep
  simp only [head_plain hp, kind, h, h', Option.map_some, Option.bind_some]

theorem prep_toks (e : E) : ∀ f rest, (toks e).length ≤ f → prep f false ((toks e).reverse ++ rest) = some (pt e, rest) := by
  have plain : ∀ k : Cg.Tok, k ≠ .ar .udiv ∧ k ≠ .ar .umod ∧ k ≠ .asgo .udiv ∧ k ≠ .asgo .umod → Plain k := fun k h => plain_of h.1 h.2.1 h.2.2.1 h.2.2.2
  have fs : ∀ (e' : E) (f : Nat), (toks e').length + 1 ≤ f → ∃ g, f = g + 1 ∧ (toks e').length ≤ g := fun e' f h => ⟨f - 1, by omega, by omega⟩
  induction e with
  | num v => intro f rest hf; obtain ⟨f, rfl⟩ : ∃ g, f = g + 1 := ⟨f - 1, by simp [toks] at hf; omega⟩; exact prep_leaf f _ rfl (plain _ (by simp)) _ _
  | glob v => intro f rest hf; obtain ⟨f, rfl⟩ : ∃ g, f = g + 1 := ⟨f - 1, by simp [toks] at hf; omega⟩; exact prep_leaf f _ rfl (plain _ (by simp)) _ _
  | loc v => intro f rest hf; obtain ⟨f, rfl⟩ : ∃ g, f = g + 1 := ⟨f - 1, by simp [toks] at hf; omega⟩; exact prep_leaf f _ rfl (plain _ (by simp)) _ _
  | deref sz e ih =>
    intro f rest hf
    simp only [toks, List.length_append, List.length_singleton] at hf
    obtain ⟨f, rfl, hg⟩ := fs e f hf
    simp only [toks, List.reverse_append, List.reverse_singleton, List.singleton_append, List.cons_append]
    exact prep_one f _ rfl (plain _ (by simp)) _ (ih f rest hg)
  | un u e ih =>
    intro f rest hf
    simp only [toks, List.length_append, List.length_singleton] at hf
    obtain ⟨f, rfl, hg⟩ := fs e f hf
    simp only [toks, List.reverse_append, List.reverse_singleton, List.singleton_append, List.cons_append]
    exact prep_one f _ (by cases u <;> rfl) (plain _ (by cases u <;> simp [Cg.Un.tok])) _ (ih f rest hg)
  | inc k sz e ih =>
    intro f rest hf
    simp only [toks, List.length_append, List.length_singleton] at hf
    obtain ⟨f, rfl, hg⟩ := fs e f hf
    simp only [toks, List.reverse_append, List.reverse_singleton, List.singleton_append, List.cons_append]
    exact prep_one f _ (by cases k <;> rfl) (plain _ (by cases k <;> simp [Cg.IncK.tok])) _ (ih f rest hg)
  | padd b sz n e ih =>
    intro f rest hf
    have he := toks_pos e
    simp only [toks, List.length_append, List.length_cons, List.length_nil] at hf
    obtain ⟨f, rfl, hg⟩ := fs e f (by omega)
    obtain ⟨f, rfl⟩ : ∃ g, f = g + 1 := ⟨f - 1, by omega⟩
    simp only [toks, List.reverse_append, List.reverse_cons, List.reverse_nil, List.nil_append, List.singleton_append, List.cons_append]
    exact prep_two _ _ (by cases b <;> rfl) (plain _ (by cases b <;> simp)) _ (prep_leaf f _ rfl (plain _ (by simp)) _ _) (ih _ rest hg)
  | bin o l r ihl ihr =>
    intro f rest hf
    have hl := toks_pos l
    have hr := toks_pos r
    simp only [toks, List.length_append, List.length_singleton] at hf
    obtain ⟨f, rfl⟩ : ∃ g, f = g + 1 := ⟨f - 1, by omega⟩
    simp only [toks, List.reverse_append, List.reverse_singleton, List.singleton_append, List.cons_append, List.append_assoc]
    refine prep_fix f _ _ _ r _ rest (ihr f _ (by omega)) (ihl f rest (by omega)) (by omega) ?_
    show _ ∨ (_ ∧ binT o (pt l) (pt r) = _) ∨ _
    have : kind (fix (.ar o) (pt r)).1 = .comm ∨ kind (fix (.ar o) (pt r)).1 = .two := by
      have hh : ∀ k, opTok k → kind k = .comm ∨ kind k = .two := by
        rintro k (⟨o, rfl⟩ | ⟨c, rfl⟩)
        · cases o <;> simp [kind]
        · exact Or.inl rfl
      exact hh _ (fix_ar o _)
    rcases this with h | h
    · exact Or.inr (Or.inl ⟨h, by rw [binT]; simp only [h]⟩)
    · exact Or.inl ⟨h, by show binT o (pt l) (pt r) = _; rw [binT]; simp only [h]⟩
  | cmp c l r ihl ihr =>
    intro f rest hf
    have hl := toks_pos l
    have hr := toks_pos r
    simp only [toks, List.length_append, List.length_singleton] at hf
    obtain ⟨f, rfl⟩ : ∃ g, f = g + 1 := ⟨f - 1, by omega⟩
    simp only [toks, List.reverse_append, List.reverse_singleton, List.singleton_append, List.cons_append, List.append_assoc]
    exact prep_comm f _ rfl (plain _ (by simp)) _ (ihr f _ (by omega)) (ihl f rest (by omega))
  | asg sz l r ihl ihr =>
    intro f rest hf
    have hl := toks_pos l
    have hr := toks_pos r
    simp only [toks, List.length_append, List.length_singleton] at hf
    obtain ⟨f, rfl⟩ : ∃ g, f = g + 1 := ⟨f - 1, by omega⟩
    simp only [toks, List.reverse_append, List.reverse_singleton, List.singleton_append, List.cons_append, List.append_assoc]
    exact prep_asg f _ (ihr f _ (by omega)) (ihl f rest (by omega))
  | asgo o sz l r ihl ihr =>
    intro f rest hf
    have hl := toks_pos l
    have hr := toks_pos r
    simp only [toks, List.length_append, List.length_singleton] at hf
    obtain ⟨f, rfl⟩ : ∃ g, f = g + 1 := ⟨f - 1, by omega⟩
    simp only [toks, List.reverse_append, List.reverse_singleton, List.singleton_append, List.cons_append, List.append_assoc]
    exact prep_fix f _ _ _ r _ rest (ihr f _ (by omega)) (ihl f rest (by omega)) (by omega) (Or.inr (Or.inr ⟨⟨o, rfl⟩, rfl⟩))
  | land lab l r ihl ihr =>
    intro f rest hf
    have hl := toks_pos l
    have hr := toks_pos r
    simp only [toks, List.length_append, List.length_singleton] at hf
    obtain ⟨f, rfl⟩ : ∃ g, f = g + 2 := ⟨f - 2, by omega⟩
    have h1 := prep_one f false (k := .short) rfl (plain _ (by simp)) lab (ihl f rest (by omega))
    have h2 := prep_two (f + 1) false (k := .logAnd) rfl (plain _ (by simp)) lab (ihr (f + 1) _ (by omega)) h1
    simpa [toks, pt] using h2
  | lor lab l r ihl ihr =>
    intro f rest hf
    have hl := toks_pos l
    have hr := toks_pos r
    simp only [toks, List.length_append, List.length_singleton] at hf
    obtain ⟨f, rfl⟩ : ∃ g, f = g + 2 := ⟨f - 2, by omega⟩
    have h1 := prep_one f false (k := .short) rfl (plain _ (by simp)) (-lab) (ihl f rest (by omega))
    have h2 := prep_two (f + 1) false (k := .logOr) rfl (plain _ (by simp)) lab (ihr (f + 1) _ (by omega)) h1
    simpa [toks, pt] using h2
  | comma l r ihl ihr =>
    intro f rest hf
    have hl := toks_pos l
    have hr := toks_pos r
    simp only [toks, List.length_append, List.length_singleton] at hf
    obtain ⟨f, rfl⟩ : ∃ g, f = g + 2 := ⟨f - 2, by omega⟩
    have h1 := prep_one f false (k := .void) rfl (plain _ (by simp)) 0 (ihl f rest (by omega))
    have h2 := prep_two (f + 1) false (k := .comma) rfl (plain _ (by simp)) 0 (ihr (f + 1) _ (by omega)) h1
    simpa [toks, pt] using h2
  | cond lab c a b ihc iha ihb =>
    intro f rest hf
    have hl := toks_pos c
    have hr := toks_pos a
    have hb := toks_pos b
    simp only [toks, List.length_append, List.length_singleton] at hf
    obtain ⟨f, rfl⟩ : ∃ g, f = g + 3 := ⟨f - 3, by omega⟩
    have h1 := prep_one f false (k := .short) rfl (plain _ (by simp)) (-lab) (ihc f rest (by omega))
    have h2 := prep_one f false (k := .goto) rfl (plain _ (by simp)) (lab + 1) (ihb f ((.short, -lab) :: ((toks c).reverse ++ rest)) (by omega))
    have h3 := prep_two _ false (k := .logAnd) rfl (plain _ (by simp)) lab h2 h1
    have h4 := prep_two (f + 2) false (k := .logAnd) rfl (plain _ (by simp)) (lab + 1) (iha (f + 2) _ (by omega)) h3
    simpa [toks, pt] using h4

end Smlr.Mips
