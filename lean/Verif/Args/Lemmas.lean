import Verif.Args.Model
import Verif.Args.Spec
import Verif.Mem.Spec
set_option autoImplicit false
namespace Smlr.Args
open Smlr.Mem Smlr.Mem.Spec Spec

/-- memory after the bytes have been written -/
def put : Mem → Nat → Str → Mem
  | m, _, [] => m
  | m, o, c :: v => put (upd m o c) (o + 1) v

theorem put_append (a b : Str) : ∀ (m : Mem) (o : Nat), put m o (a ++ b) = put (put m o a) (o + a.length) b := by
  induction a with
  | nil => intro m o; rfl
  | cons c a ih => intro m o; simp only [List.cons_append, put, ih, List.length_cons]; congr 1; omega

theorem put_other (v : Str) : ∀ (m : Mem) (o a : Nat), a < o ∨ o + v.length ≤ a → put m o v a = m a := by
  induction v with
  | nil => intro m o a _; rfl
  | cons c v ih =>
    intro m o a h
    simp only [List.length_cons] at h
    rw [put, ih _ _ _ (by omega), upd, if_neg (by omega)]

theorem cstr_congr (s : Str) : ∀ (m m' : Mem) (i : Nat), CStr m i s → (∀ a, i ≤ a → a ≤ i + s.length → m' a = m a) → CStr m' i s := by
  induction s with
  | nil => intro m m' i h g; unfold CStr at *; rw [g i (by omega) (by simp)]; exact h
  | cons c s ih =>
    intro m m' i h g
    obtain ⟨h1, h2, h3⟩ := h
    refine ⟨h1, by rw [g i (by omega) (by simp)]; exact h2, ih m m' (i + 1) h3 fun a x y => g a (by omega) (by simp; omega)⟩

theorem cstr_put (s v : Str) (m : Mem) (i o : Nat) (h : CStr m i s) (hr : o + v.length ≤ i ∨ i + s.length < o) : CStr (put m o v) i s :=
  cstr_congr s m _ i h fun a x y => put_other v m o a (by omega)

theorem cstr_drop (a s : Str) : ∀ (m : Mem) (i : Nat), CStr m i (a ++ s) → CStr m (i + a.length) s := by
  induction a with
  | nil => intro m i h; exact h
  | cons c a ih => intro m i h; have := ih m (i + 1) h.2.2; rw [List.length_cons]; rwa [show i + (a.length + 1) = i + 1 + a.length by omega]

theorem cstr_ne (s : Str) : ∀ (m : Mem) (i : Nat), CStr m i s → ∀ c ∈ s, c ≠ 0 := by
  induction s with
  | nil => intro m i _ c hc; cases hc
  | cons d s ih =>
    intro m i h c hc
    rcases List.mem_cons.1 hc with x | x
    · subst x; exact h.1
    · exact ih m _ h.2.2 c x

theorem put_cstr (v : Str) : ∀ (m : Mem) (o : Nat), (∀ c ∈ v, c ≠ 0) → CStr (put m o (v ++ [0])) o v := by
  induction v with
  | nil => intro m o _; simp [CStr, put, upd]
  | cons c v ih =>
    intro m o h
    refine ⟨h c (by simp), ?_, ?_⟩
    · rw [List.cons_append, put, put_other _ _ _ _ (by omega)]; simp [upd]
    · exact ih _ _ fun d hd => h d (by simp [hd])

theorem backslashes_eq (n : Nat) : ∀ (m : Mem) (o : Nat), backslashes n m o = (put m o (bs n), o + n) := by
  induction n with
  | zero => intro m o; rfl
  | succ n ih =>
    intro m o
    rw [backslashes, ih]
    simp only [bs, List.replicate_succ, put]
    congr 1; omega

theorem bs_length (n : Nat) : (bs n).length = n := by simp [bs]

/-- several rounds -/
inductive Steps : St → St → Prop
  | refl (s : St) : Steps s s
  | step (s t u : St) : step s = some t → Steps t u → Steps s u

theorem Steps.trans {s t u : St} (h : Steps s t) (g : Steps t u) : Steps s u := by
  induction h with
  | refl => exact g
  | step s t' _ h1 _ ih => exact .step s t' _ h1 (ih g)

theorem Steps.one {s t : St} (h : Args.step s = some t) : Steps s t := .step s t t h (.refl t)

theorem steps_run {s t : St} (h : Steps s t) {N : Nat} {r : Mem × List Nat} (hr : ∀ k, N ≤ k → run k t = some r) :
    ∃ N', ∀ k, N' ≤ k → run k s = some r := by
  induction h with
  | refl => exact ⟨N, hr⟩
  | step s t u h1 _ ih =>
    obtain ⟨N', h⟩ := ih hr
    refine ⟨N' + 1, fun k hk => ?_⟩
    obtain ⟨k, rfl⟩ : ∃ j, k = j + 1 := ⟨k - 1, by omega⟩
    rw [run, h1]
    exact h k (by omega)

/-- the mode within or outside quotes -/
def md (q : Bool) : Mode := if q then .quot else .plain

theorem md_ne (q : Bool) : md q ≠ .white := by cases q <;> simp [md]

theorem read_bs (n : Nat) : ∀ (m : Mem) (i o sl : Nat) (q : Bool) (av : List Nat) (s : Str), CStr m i (bs n ++ s) →
    Steps ⟨m, i, o, md q, sl, av⟩ ⟨m, i + n, o, md q, sl + n, av⟩ := by
  induction n with
  | zero => intro m i o sl q av s _; exact .refl _
  | succ n ih =>
    intro m i o sl q av s h
    have h' : CStr m i (0x5C :: (bs n ++ s)) := by simpa [bs, List.replicate_succ] using h
    have := ih m (i + 1) o (sl + 1) q av s h'.2.2
    rw [show i + (n + 1) = i + 1 + n by omega, show sl + (n + 1) = sl + 1 + n by omega]
    refine .step _ _ _ ?_ this
    simp [step, h'.2.1, md_ne]

/-- an argument does not get longer, and what follows is an end of the text -/
theorem arg_split {q : Bool} {s v r : Str} (h : Arg q s v r) : ∃ t, s = t ++ r ∧ v.length ≤ t.length := by
  induction h with
  | done q => exact ⟨[], rfl, by simp⟩
  | white c s _ => exact ⟨[], rfl, by simp⟩
  | char q c s v r _ _ _ _ ih => obtain ⟨t, rfl, h⟩ := ih; exact ⟨c :: t, rfl, by simpa using h⟩
  | slashes q n s v r _ _ _ ih => obtain ⟨t, rfl, h⟩ := ih; exact ⟨bs (n + 1) ++ t, by simp, by simpa using h⟩
  | quote q n s v r _ ih =>
    obtain ⟨t, rfl, h⟩ := ih; exact ⟨bs (2 * n + 1) ++ 0x22 :: t, by simp, by simp [bs_length]; omega⟩
  | opening n s v r _ ih => obtain ⟨t, rfl, h⟩ := ih; exact ⟨bs (2 * n) ++ 0x22 :: t, by simp, by simp [bs_length]; omega⟩
  | closing n s v r _ _ ih => obtain ⟨t, rfl, h⟩ := ih; exact ⟨bs (2 * n) ++ 0x22 :: t, by simp, by simp [bs_length]; omega⟩
  | double n s v r _ ih => obtain ⟨t, rfl, h⟩ := ih; exact ⟨bs (2 * n) ++ 0x22 :: 0x22 :: t, by simp, by simp [bs_length]; omega⟩

theorem arg_mem {q : Bool} {s v r : Str} (h : Arg q s v r) : ∀ c ∈ v, c ∈ s ∨ c = 0x5C ∨ c = 0x22 := by
  have hb : ∀ n c, c ∈ bs n → c = 0x5C := fun n c h => (List.mem_replicate.1 h).2
  induction h with
  | done q => simp
  | white c s _ => simp
  | char q c s v r _ _ _ _ ih =>
    intro d hd; rcases List.mem_cons.1 hd with x | x
    · simp [x]
    · rcases ih d x with y | y <;> simp [y]
  | slashes q n s v r _ _ _ ih =>
    intro d hd; rcases List.mem_append.1 hd with x | x
    · simp [hb _ _ x]
    · rcases ih d x with y | y <;> simp [y]
  | quote q n s v r _ ih =>
    intro d hd; rcases List.mem_append.1 hd with x | x
    · simp [hb _ _ x]
    · rcases List.mem_cons.1 x with x | x
      · simp [x]
      · rcases ih d x with y | y <;> simp [y]
  | opening n s v r _ ih =>
    intro d hd; rcases List.mem_append.1 hd with x | x
    · simp [hb _ _ x]
    · rcases ih d x with y | y <;> simp [y]
  | closing n s v r _ _ ih =>
    intro d hd; rcases List.mem_append.1 hd with x | x
    · simp [hb _ _ x]
    · rcases ih d x with y | y <;> simp [y]
  | double n s v r _ ih =>
    intro d hd; rcases List.mem_append.1 hd with x | x
    · simp [hb _ _ x]
    · rcases List.mem_cons.1 x with x | x
      · simp [x]
      · rcases ih d x with y | y <;> simp [y]

theorem arg_nil {q : Bool} {s v r : Str} (h : Arg q s v r) : s = [] → v = [] ∧ r = [] := by
  induction h with
  | done q => intro _; exact ⟨rfl, rfl⟩
  | white c s _ => intro h; cases h
  | _ => intro h; simp [bs] at h

/-- the state at the end of an argument: what has been written and the backslashes still to be written are `v` -/
structure AtEnd (m : Mem) (i o : Nat) (av : List Nat) (s v r : Str) (c : St) : Prop where
  mode : c.mode ≠ .white
  argv : c.argv = av
  rd : c.i + r.length = i + s.length
  wr : c.o + c.sl = o + v.length
  mem : put c.m c.o (bs c.sl) = put m o v
  src : CStr c.m c.i r
  more : r ≠ [] → c.sl = 0 ∧ c.mode = .plain

/-- after `a` has been read and `w` written -/
theorem AtEnd.pre {m : Mem} {i o : Nat} {av : List Nat} {s v r : Str} {c : St} (a w : Str)
    (h : AtEnd (put m o w) (i + a.length) (o + w.length) av s v r c) : AtEnd m i o av (a ++ s) (w ++ v) r c :=
  ⟨h.mode, h.argv, by rw [h.rd, List.length_append]; omega, by rw [h.wr, List.length_append]; omega,
    by rw [h.mem, put_append], h.src, h.more⟩

theorem arg_run {q : Bool} {s v r : Str} (h : Arg q s v r) : ∀ (m : Mem) (i o : Nat) (av : List Nat), CStr m i s →
    (o ≤ i ∨ i + s.length < o) → ∃ c, Steps ⟨m, i, o, md q, 0, av⟩ c ∧ AtEnd m i o av s v r c := by
  induction h with
  | done q => intro m i o av hc _; exact ⟨_, .refl _, md_ne q, rfl, rfl, rfl, rfl, hc, by simp⟩
  | white c s _ => intro m i o av hc _; exact ⟨_, .refl _, by simp [md], rfl, rfl, rfl, rfl, hc, fun _ => ⟨rfl, rfl⟩⟩
  | char q c s v r h1 h2 h3 _ ih =>
    intro m i o av hc ho
    simp only [List.length_cons] at ho
    obtain ⟨d, g1, g2⟩ := ih (put m o [c]) (i + 1) (o + 1) av (cstr_put _ _ _ _ _ hc.2.2 (by simp; omega)) (by omega)
    refine ⟨d, .step _ _ _ ?_ g1, AtEnd.pre [c] [c] g2⟩
    have hw : ¬ (md q = .plain ∧ (c = 0x20 ∨ c = 0x09)) := by
      intro ⟨x, y⟩
      cases q
      · exact h3 rfl y
      · simp [md] at x
    simp only [step, hc.2.1, if_neg hc.1, if_neg (md_ne q), if_neg h1, if_neg h2, ne_eq, not_true_eq_false, if_false, if_neg hw, put]
  | slashes q n s v r h1 h2 ha ih =>
    intro m i o av hc ho
    have hb := bs_length (n + 1)
    simp only [List.length_append, hb] at ho
    have hs := cstr_drop _ _ _ _ hc
    rw [hb] at hs
    have st := read_bs (n + 1) m i o 0 q av s hc
    cases s with
    | nil =>
      obtain ⟨rfl, rfl⟩ := arg_nil ha rfl
      exact ⟨_, st, md_ne q, rfl, by simp [hb], by simp [hb], by simp, hs, by simp⟩
    | cons c s =>
      have hp := cstr_put _ (bs (n + 1)) m _ o hs (by simp [bs_length] at ho ⊢; omega)
      obtain ⟨d, g1, g2⟩ := ih (put m o (bs (n + 1))) (i + (n + 1)) (o + (n + 1)) av hp (by omega)
      refine ⟨d, st.trans (.step _ _ _ ?_ g1), AtEnd.pre (bs (n + 1)) (bs (n + 1)) (by rw [hb]; exact g2)⟩
      have e1 : c ≠ 0x5C := by simpa using h1
      have e2 : c ≠ 0x22 := by simpa using h2
      simp only [step, hs.2.1, if_neg hs.1, if_neg (md_ne q), if_neg e1, if_neg e2, backslashes_eq]
      simp
  | quote q n s v r _ ih =>
    intro m i o av hc ho
    have hb := bs_length (2 * n + 1)
    simp only [List.length_append, hb, List.length_cons] at ho
    have hs := cstr_drop _ _ _ _ hc
    rw [hb] at hs
    have st := read_bs (2 * n + 1) m i o 0 q av _ hc
    obtain ⟨d, g1, g2⟩ := ih (put m o (bs n ++ [0x22])) (i + (2 * n + 1) + 1) (o + n + 1) av
      (cstr_put _ _ _ _ _ hs.2.2 (by simp [bs_length]; omega)) (by omega)
    refine ⟨d, st.trans (.step _ _ _ ?_ g1), ?_⟩
    · simp only [step, hs.2.1, md_ne q, backslashes_eq, put_append, bs_length]
      simp [put, show (2 * n + 1) / 2 = n by omega]
    · have := AtEnd.pre (m := m) (i := i) (o := o) (bs (2 * n + 1) ++ [0x22]) (bs n ++ [0x22]) (s := s) (v := v) (r := r) (c := d) (av := av)
        (by simp only [List.length_append, bs_length, List.length_singleton]; exact g2)
      simpa using this
  | opening n s v r _ ih =>
    intro m i o av hc ho
    have hb := bs_length (2 * n)
    simp only [List.length_append, hb, List.length_cons] at ho
    have hs := cstr_drop _ _ _ _ hc
    rw [hb] at hs
    have st := read_bs (2 * n) m i o 0 false av _ hc
    obtain ⟨d, g1, g2⟩ := ih (put m o (bs n)) (i + 2 * n + 1) (o + n) av
      (cstr_put _ _ _ _ _ hs.2.2 (by simp [bs_length]; omega)) (by omega)
    refine ⟨d, st.trans (.step _ _ _ ?_ g1), ?_⟩
    · simp only [step, hs.2.1, backslashes_eq]
      simp [md]
    · have := AtEnd.pre (m := m) (i := i) (o := o) (bs (2 * n) ++ [0x22]) (bs n) (s := s) (v := v) (r := r) (c := d) (av := av)
        (by simp only [List.length_append, bs_length, List.length_singleton]; exact g2)
      simpa using this
  | closing n s v r hq _ ih =>
    intro m i o av hc ho
    have hb := bs_length (2 * n)
    simp only [List.length_append, hb, List.length_cons] at ho
    have hs := cstr_drop _ _ _ _ hc
    rw [hb] at hs
    have st := read_bs (2 * n) m i o 0 true av _ hc
    have hp := cstr_put _ (bs n) _ _ o hs.2.2 (by simp [bs_length]; omega)
    obtain ⟨d, g1, g2⟩ := ih (put m o (bs n)) (i + 2 * n + 1) (o + n) av hp (by omega)
    have hn : put m o (bs n) (i + 2 * n + 1) ≠ 0x22 := by
      cases s with
      | nil => have : put m o (bs n) (i + 2 * n + 1) = 0 := hp
               rw [this]; decide
      | cons c s => rw [hp.2.1]; simpa using hq
    refine ⟨d, st.trans (.step _ _ _ ?_ g1), ?_⟩
    · simp only [step, hs.2.1, backslashes_eq]
      simp [md, hn]
    · have := AtEnd.pre (m := m) (i := i) (o := o) (bs (2 * n) ++ [0x22]) (bs n) (s := s) (v := v) (r := r) (c := d) (av := av)
        (by simp only [List.length_append, bs_length, List.length_singleton]; exact g2)
      simpa using this
  | double n s v r _ ih =>
    intro m i o av hc ho
    have hb := bs_length (2 * n)
    simp only [List.length_append, hb, List.length_cons] at ho
    have hs := cstr_drop _ _ _ _ hc
    rw [hb] at hs
    have st := read_bs (2 * n) m i o 0 true av _ hc
    have hp := cstr_put _ (bs n) _ _ o hs.2.2 (by simp [bs_length]; omega)
    obtain ⟨d, g1, g2⟩ := ih (put m o (bs n ++ [0x22])) (i + 2 * n + 1 + 1) (o + n + 1) av
      (cstr_put _ _ _ _ _ hs.2.2.2.2 (by simp [bs_length]; omega)) (by omega)
    refine ⟨d, st.trans (.step _ _ _ ?_ g1), ?_⟩
    · simp only [step, hs.2.1, backslashes_eq, put_append, bs_length]
      simp [md, put, hp.2.1]
    · have := AtEnd.pre (m := m) (i := i) (o := o) (bs (2 * n) ++ [0x22, 0x22]) (bs n ++ [0x22]) (s := s) (v := v) (r := r) (c := d) (av := av)
        (by simp only [List.length_append, bs_length, List.length_cons, List.length_nil]; exact g2)
      simpa using this

/-- what follows an argument: nothing, or a blank -/
theorem arg_rest {q : Bool} {s v r : Str} (h : Arg q s v r) : r = [] ∨ ∃ c t, r = c :: t ∧ White c := by
  induction h with
  | done q => exact Or.inl rfl
  | white c s h => exact Or.inr ⟨c, s, rfl, h⟩
  | _ => assumption

end Smlr.Args
