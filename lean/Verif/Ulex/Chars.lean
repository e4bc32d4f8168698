import Verif.Ulex.Spec
set_option autoImplicit false
/-! `next_char` gives the characters of the text after phases 1 and 2. -/
namespace Smlr.Ulex

/-- what `readChar` has left -/
def nl : Bool → Str → Str
  | true, 0x0A :: r => newlines r
  | _, s => newlines s

theorem nl_true_lf (r : Str) : nl true (0x0A :: r) = newlines r := rfl

theorem nl_true_ne (c : UInt8) (r : Str) (h : c ≠ 0x0A) : nl true (c :: r) = newlines (c :: r) := by
  unfold nl
  split
  · rename_i h1; injection h1 with h1; exact absurd h1 h
  · rfl

theorem nl_false (s : Str) : nl false s = newlines s := by
  unfold nl
  split
  · contradiction
  · rfl

theorem newlines_cons (c : UInt8) (r : Str) : newlines (c :: r) = if c = 0x0D then 0x0A :: nl true r else c :: newlines r := by
  cases r with
  | nil => simp only [newlines, nl]; split <;> rfl
  | cons b r =>
    rw [newlines]
    by_cases h : c = 0x0D
    · subst h
      by_cases hb : b = 0x0A
      · subst hb; rfl
      · rw [if_neg (fun h => hb h.2), if_pos rfl, if_pos rfl, nl_true_ne _ _ hb]
    · rw [if_neg (fun hc => h hc.1), if_neg h, if_neg h]

theorem readChar_spec (mac : Bool) (s : Str) : (readChar mac s).1 = (nl mac s).head? ∧ nl (readChar mac s).2.2 (readChar mac s).2.1 = (nl mac s).tail ∧ (readChar mac s).2.1.length ≤ s.length := by
  have key : ∀ (m : Bool) (c : UInt8) (r : Str), ¬ (m = true ∧ c = 0x0A) → (readChar m (c :: r)).1 = (newlines (c :: r)).head? ∧ nl (readChar m (c :: r)).2.2 (readChar m (c :: r)).2.1 = (newlines (c :: r)).tail ∧
      (readChar m (c :: r)).2.1.length ≤ (c :: r).length := by
    intro m c r h
    rw [readChar, if_neg h, newlines_cons]
    by_cases hc : c = 0x0D
    · rw [if_pos hc, if_pos hc]
      exact ⟨rfl, rfl, Nat.le_succ _⟩
    · rw [if_neg hc, if_neg hc]
      exact ⟨rfl, nl_false r, Nat.le_succ _⟩
  cases s with
  | nil => cases mac <;> exact ⟨rfl, rfl, Nat.le_refl _⟩
  | cons c r =>
    by_cases h : mac = true ∧ c = 0x0A
    · obtain ⟨rfl, rfl⟩ := h
      rw [readChar, if_pos ⟨rfl, rfl⟩, nl_true_lf]
      cases r with
      | nil => exact ⟨rfl, rfl, Nat.zero_le _⟩
      | cons c r =>
        have := key false c r (by simp)
        exact ⟨this.1, this.2.1, Nat.le_succ_of_le this.2.2⟩
    · have e : nl mac (c :: r) = newlines (c :: r) := by
        cases mac with
        | false => exact nl_false _
        | true => exact nl_true_ne _ _ (fun hc => h ⟨rfl, hc⟩)
      rw [e]
      exact key mac c r h

/-- the characters looked at, and those after them -/
def pull : List (Option UInt8) → Str → Str
  | some c :: l, x => c :: pull l x
  | none :: _, _ => []
  | [], x => x

def rem (s : St) : Str := pull s.lka (nl s.mac s.inp)

/-- behind the end there is nothing -/
def Ended : List (Option UInt8) → Str → Prop
  | some _ :: l, x => Ended l x
  | none :: l, x => pull l x = [] ∧ Ended l x
  | [], _ => True

def Ok (s : St) : Prop := Ended s.lka (nl s.mac s.inp)

/-- everything else is the same -/
def Same (s s' : St) : Prop := s'.last = s.last ∧ s'.discard = s.discard ∧ s'.pending = s.pending ∧ s'.line = s.line

theorem Same.refl (s : St) : Same s s := ⟨rfl, rfl, rfl, rfl⟩

theorem Same.trans {a b c : St} (h : Same a b) (k : Same b c) : Same a c :=
  ⟨k.1.trans h.1, k.2.1.trans h.2.1, k.2.2.1.trans h.2.2.1, k.2.2.2.trans h.2.2.2⟩

theorem fifo_spec (s : St) (h : Ok s) : (fifo s).1 = (rem s).head? ∧ rem (fifo s).2 = (rem s).tail ∧ Ok (fifo s).2 ∧ Same s (fifo s).2 := by
  obtain ⟨inp, mac, lka, last, dis, pend, line⟩ := s
  cases lka with
  | nil =>
    have := readChar_spec mac inp
    exact ⟨this.1, this.2.1, trivial, Same.refl _⟩
  | cons c l =>
    cases c with
    | none => exact ⟨rfl, h.1, h.2, Same.refl _⟩
    | some c => exact ⟨rfl, rfl, h, Same.refl _⟩

theorem ahead (s : St) (l : List (Option UInt8)) (h : ∀ c ∈ l, c ≠ none) :
    pull (l ++ [(read s).1]) (nl (read s).2.mac (read s).2.inp) = pull l (nl s.mac s.inp) ∧ Ended (l ++ [(read s).1]) (nl (read s).2.mac (read s).2.inp) := by
  have := readChar_spec s.mac s.inp
  induction l with
  | nil =>
    show pull [(readChar s.mac s.inp).1] (nl (readChar s.mac s.inp).2.2 (readChar s.mac s.inp).2.1) = nl s.mac s.inp ∧ Ended [(readChar s.mac s.inp).1] (nl (readChar s.mac s.inp).2.2 (readChar s.mac s.inp).2.1)
    rw [this.1, this.2.1]
    cases nl s.mac s.inp with
    | nil => exact ⟨rfl, rfl, trivial⟩
    | cons c r => exact ⟨rfl, trivial⟩
  | cons c l ih =>
    have := ih fun d hd => h d (List.mem_cons_of_mem _ hd)
    cases c with
    | none => exact absurd rfl (h _ List.mem_cons_self)
    | some c => exact ⟨congrArg (c :: ·) this.1, this.2⟩

theorem lka1_spec (s : St) (h : Ok s) : (lka1 s).1 = (rem s).head? ∧ rem (lka1 s).2 = rem s ∧ Ok (lka1 s).2 ∧ Same s (lka1 s).2 ∧ (lka1 s).2.lka.head? = some (lka1 s).1 := by
  obtain ⟨inp, mac, lka, last, dis, pend, line⟩ := s
  cases lka with
  | nil =>
    have := ahead ⟨inp, mac, [], last, dis, pend, line⟩ [] (by simp)
    exact ⟨(readChar_spec mac inp).1, this.1, this.2, Same.refl _, rfl⟩
  | cons c l =>
    cases c with
    | none => exact ⟨rfl, rfl, h, Same.refl _, rfl⟩
    | some c => exact ⟨rfl, rfl, h, Same.refl _, rfl⟩

theorem lka2_spec (s : St) (h : Ok s) (c : UInt8) (hc : s.lka.head? = some (some c)) : (lka2 s).1 = (rem s).tail.head? ∧ rem (lka2 s).2 = rem s ∧ Ok (lka2 s).2 ∧ Same s (lka2 s).2 := by
  obtain ⟨inp, mac, lka, last, dis, pend, line⟩ := s
  match lka, hc with
  | some d :: [], hc =>
    have := ahead ⟨inp, mac, [some d], last, dis, pend, line⟩ [some d] (by simp)
    exact ⟨(readChar_spec mac inp).1, this.1, this.2, Same.refl _⟩
  | some d :: none :: l, hc => exact ⟨rfl, rfl, h, Same.refl _⟩
  | some d :: some e :: l, hc => exact ⟨rfl, rfl, h, Same.refl _⟩

theorem find_third (d : UInt8) : (trig.find? (fun t => some d = some t.1)).map Prod.snd = third d := by
  have : ∀ n < 256, (trig.find? (fun t => some (UInt8.ofNat n) = some t.1)).map Prod.snd = third (UInt8.ofNat n) := by decide +kernel
  have h := this d.toNat d.toNat_lt
  rwa [UInt8.ofNat_toNat] at h

/-- phase 1 after the ends of lines -/
def tri (fl : Flags) (s : Str) : Str := if fl.trig then trigraphs s else s

theorem trigraphs_ne (c : UInt8) (r : Str) (h : c ≠ 0x3F ∨ r.head? ≠ some 0x3F) : trigraphs (c :: r) = c :: trigraphs r := by
  match r with
  | [] => rfl
  | [b] => rfl
  | b :: d :: r =>
    rw [trigraphs, if_neg]
    rintro ⟨rfl, rfl⟩
    rcases h with h | h <;> exact h rfl

theorem trigraph_spec (fl : Flags) (s : St) (h : Ok s) :
    (trigraph fl s).1 = (tri fl (rem s)).head? ∧ tri fl (rem (trigraph fl s).2) = (tri fl (rem s)).tail ∧ Ok (trigraph fl s).2 ∧ Same s (trigraph fl s).2 ∧
      (rem (trigraph fl s).2).length ≤ (rem s).length - 1 := by
  obtain ⟨f1, f2, f3, f4⟩ := fifo_spec s h
  unfold trigraph
  dsimp only
  by_cases hq : (fifo s).1 = some 0x3F
  · rw [if_pos hq]
    obtain ⟨a1, a2, a3, a4, a5⟩ := lka1_spec _ f3
    obtain ⟨r, hr⟩ : ∃ r, rem s = 0x3F :: r := by
      rw [f1] at hq
      cases hs : rem s with
      | nil => rw [hs] at hq; cases hq
      | cons c r => rw [hs] at hq; injection hq with hq; exact ⟨r, by rw [hq]⟩
    rw [hr] at f2 ⊢
    rw [f2] at a1 a2
    by_cases hc : (lka1 (fifo s).2).1 = some 0x3F ∧ fl.trig = true
    · rw [if_pos hc]
      rw [hc.1] at a5
      obtain ⟨b1, b2, b3, b4⟩ := lka2_spec _ a3 _ a5
      rw [a2] at b1 b2
      obtain ⟨r', hr'⟩ : ∃ r', r = 0x3F :: r' := by
        have := a1.symm.trans hc.1
        cases hs : r with
        | nil => rw [hs] at this; cases this
        | cons c r => rw [hs] at this; injection this with hq; exact ⟨r, by rw [hq]⟩
      subst hr'
      have ht : ∀ x, tri fl x = trigraphs x := fun x => if_pos hc.2
      simp only [ht]
      cases hs : r' with
      | nil =>
        rw [hs] at b1
        rw [hs] at b2
        rw [b1]
        have : trig.find? (fun t => (none : Option UInt8) = some t.1) = none := by decide
        rw [show List.head? (List.tail (List.tail (0x3F :: 0x3F :: ([] : Str)))) = none from rfl, this]
        exact ⟨hq, by dsimp only; rw [b2]; rfl, b3, (f4.trans a4).trans b4, by dsimp only; rw [b2]; simp⟩
      | cons d r'' =>
        rw [hs] at b1
        rw [hs] at b2
        rw [b1, show List.head? (List.tail (List.tail (0x3F :: 0x3F :: d :: r''))) = some d from rfl]
        have hf := find_third d
        cases hx : trig.find? (fun t => some d = some t.1) with
        | none =>
          rw [hx] at hf
          simp only [trigraphs, and_self, if_pos, ← hf, Option.map_none]
          exact ⟨hq, by rw [b2]; rfl, b3, (f4.trans a4).trans b4, by rw [b2]; simp⟩
        | some t =>
          rw [hx] at hf
          obtain ⟨c1, c2, c3, c4⟩ := fifo_spec _ b3
          obtain ⟨d1, d2, d3, d4⟩ := fifo_spec _ c3
          rw [c2, b2] at d2
          simp only [trigraphs, and_self, if_pos, ← hf, Option.map_some]
          exact ⟨rfl, by rw [d2]; rfl, d3, (((f4.trans a4).trans b4).trans c4).trans d4, by rw [d2]; simp⟩
    · rw [if_neg hc]
      have : tri fl (0x3F :: r) = 0x3F :: tri fl r := by
        unfold tri
        split
        · rename_i ht
          exact trigraphs_ne _ _ (.inr fun he => hc ⟨a1.trans he, ht⟩)
        · rfl
      rw [this]
      exact ⟨hq, by rw [a2]; rfl, a3, f4.trans a4, by rw [a2]; simp⟩
  · rw [if_neg hq]
    rw [f1] at hq
    cases hs : rem s with
    | nil =>
      rw [hs] at f1 f2
      refine ⟨?_, ?_, f3, f4, by rw [f2]; simp⟩
      · rw [f1]; unfold tri; split <;> rfl
      · rw [f2]; unfold tri; split <;> rfl
    | cons c r =>
      rw [hs] at f1 f2 hq
      have : tri fl (c :: r) = c :: tri fl r := by
        unfold tri
        split
        · exact trigraphs_ne _ _ (.inl fun he => hq (by rw [he]; rfl))
        · rfl
      rw [this]
      exact ⟨f1, by rw [f2]; rfl, f3, f4, by rw [f2]; simp⟩

theorem tri_lf (fl : Flags) (x : Str) : (tri fl x).head? = some 0x0A ↔ x.head? = some 0x0A := by
  unfold tri
  split
  · match x with
    | [] => rfl
    | [a] => rfl
    | [a, b] => rfl
    | a :: b :: d :: r =>
      rw [trigraphs]
      split
      · rename_i h
        obtain ⟨rfl, rfl⟩ := h
        have hd : third d ≠ some 0x0A := by
          have : ∀ n < 256, third (UInt8.ofNat n) ≠ some 0x0A := by decide +kernel
          have h := this d.toNat d.toNat_lt
          rwa [UInt8.ofNat_toNat] at h
        cases ht : third d with
        | none => exact Iff.rfl
        | some t =>
          rw [ht] at hd
          constructor
          · intro h; exact absurd h hd
          · intro h; injection h with h; exact absurd h (by decide)
      · exact Iff.rfl
  · exact Iff.rfl

theorem tri_tail (fl : Flags) (x : Str) (h : x.head? = some 0x0A) : tri fl x.tail = (tri fl x).tail := by
  cases x with
  | nil => cases h
  | cons c r =>
    injection h with h
    unfold tri
    split
    · rw [trigraphs_ne _ _ (.inl (by rw [h]; decide))]; rfl
    · rfl

/-- the characters that are left -/
def ph (fl : Flags) (x : Str) : Str := splice (tri fl x)

theorem splice_ne (c : UInt8) (r : Str) (h : c ≠ 0x5C ∨ r.head? ≠ some 0x0A) : splice (c :: r) = c :: splice r := by
  match r with
  | [] => rfl
  | b :: r =>
    rw [splice, if_neg]
    rintro ⟨rfl, rfl⟩
    rcases h with h | h <;> exact h rfl

theorem nextN_spec (fl : Flags) : ∀ n s, Ok s → (rem s).length < n →
    ∃ s', nextN fl n s = some ((ph fl (rem s)).head?, s') ∧ ph fl (rem s') = (ph fl (rem s)).tail ∧ s'.last = (ph fl (rem s)).head? ∧ Ok s' ∧ s'.discard = s.discard ∧ s'.pending = s.pending := by
  intro n
  induction n with
  | zero => intro s _ h; omega
  | succ n ih =>
    intro s h hn
    obtain ⟨t1, t2, t3, t4, t5⟩ := trigraph_spec fl s h
    rw [nextN]
    dsimp only
    by_cases hb : (trigraph fl s).1 = some 0x5C
    · rw [if_pos hb]
      obtain ⟨a1, a2, a3, a4, a5⟩ := lka1_spec _ t3
      obtain ⟨r, hr⟩ : ∃ r, tri fl (rem s) = 0x5C :: r := by
        rw [t1] at hb
        cases hs : tri fl (rem s) with
        | nil => rw [hs] at hb; cases hb
        | cons c r => rw [hs] at hb; injection hb with hb; exact ⟨r, by rw [hb]⟩
      rw [hr] at t2
      change tri fl (rem (trigraph fl s).2) = r at t2
      by_cases hl : (lka1 (trigraph fl s).2).1 = some 0x0A
      · rw [if_pos hl]
        obtain ⟨f1, f2, f3, f4⟩ := fifo_spec _ a3
        rw [a2] at f2
        have hne : (rem s).length ≠ 0 := by
          intro h0
          rw [List.length_eq_zero_iff.mp h0] at hr
          unfold tri at hr
          split at hr <;> cases hr
        have hx := ih { (fifo (lka1 (trigraph fl s).2).2).2 with line := (fifo (lka1 (trigraph fl s).2).2).2.line + 1 } f3 (by
          show (rem (fifo (lka1 (trigraph fl s).2).2).2).length < n
          rw [f2, List.length_tail]
          omega)
        have e : ph fl (rem s) = ph fl (rem (fifo (lka1 (trigraph fl s).2).2).2) := by
          unfold ph
          rw [f2, tri_tail _ _ (a1.symm.trans hl), t2, hr]
          have h2 := (tri_lf fl _).mpr (a1.symm.trans hl)
          rw [t2] at h2
          cases hs : r with
          | nil => rw [hs] at h2; cases h2
          | cons b r => rw [hs] at h2; injection h2 with h2; rw [splice, if_pos ⟨rfl, h2⟩]; rfl
        rw [e]
        obtain ⟨s', h1, h2, h3, h4, h5, h6⟩ := hx
        refine ⟨s', h1, h2, h3, h4, h5.trans ?_, h6.trans ?_⟩
        · exact ((t4.trans a4).trans f4).2.1
        · exact ((t4.trans a4).trans f4).2.2.1
      · rw [if_neg hl]
        have e : ph fl (rem s) = 0x5C :: splice r := by
          unfold ph
          rw [hr]
          refine splice_ne _ _ (.inr fun hc => hl ?_)
          rw [a1]
          exact (tri_lf fl _).mp (by rw [t2]; exact hc)
        rw [e]
        refine ⟨{ (lka1 (trigraph fl s).2).2 with last := some 0x5C }, by rw [hb]; rfl, ?_, rfl, a3, (t4.trans a4).2.1, (t4.trans a4).2.2.1⟩
        show splice (tri fl (rem (lka1 (trigraph fl s).2).2)) = _
        rw [a2, t2]
        rfl
    · rw [if_neg hb]
      have e : (ph fl (rem s)).head? = (tri fl (rem s)).head? ∧ (ph fl (rem s)).tail = splice (tri fl (rem s)).tail := by
        unfold ph
        rw [t1] at hb
        cases hs : tri fl (rem s) with
        | nil => exact ⟨rfl, rfl⟩
        | cons c r =>
          rw [splice_ne _ _ (.inl fun hc => hb (by rw [hs, hc]; rfl))]
          exact ⟨rfl, rfl⟩
      rw [e.1, e.2, ← t1]
      refine ⟨_, rfl, ?_, rfl, t3, t4.2.1, t4.2.2.1⟩
      show splice (tri fl (rem (trigraph fl s).2)) = _
      rw [t2]

/-- the text that is left, with the character that is kept -/
def text (fl : Flags) (s : St) : Str := if s.discard then ph fl (rem s) else s.last.toList ++ ph fl (rem s)

/-- what is true between steps -/
structure Inv (fl : Flags) (s : St) : Prop where
  ok : Ok s
  eof : s.discard = false → s.last = none → ph fl (rem s) = []

theorem pull_length (l : List (Option UInt8)) (x : Str) : (pull l x).length ≤ l.length + x.length := by
  induction l with
  | nil => simp [pull]
  | cons c l ih => cases c <;> simp [pull] <;> omega

theorem newlines_length (s : Str) : (newlines s).length ≤ s.length := by
  fun_induction newlines s <;> simp_all <;> omega

theorem nl_length (m : Bool) (s : Str) : (nl m s).length ≤ s.length := by
  unfold nl
  split
  · exact Nat.le_succ_of_le (newlines_length _)
  · exact newlines_length _

theorem next_spec (fl : Flags) (s : St) (h : Inv fl s) :
    ∃ s', next fl s = some ((text fl s).head?, s') ∧ text fl s' = text fl s ∧ Inv fl s' ∧ s'.discard = false ∧ s'.pending = s.pending ∧ s'.last = (text fl s).head? := by
  cases hd : s.discard with
  | false =>
    refine ⟨s, ?_, rfl, h, hd, rfl, ?_⟩
    · rw [next, if_pos hd, text, hd]
      cases hl : s.last with
      | none => simp [h.eof hd hl]
      | some c => rfl
    · rw [text, hd]
      cases hl : s.last with
      | none => simp [h.eof hd hl]
      | some c => rfl
  | true =>
    obtain ⟨s', h1, h2, h3, h4, h5, h6⟩ := nextN_spec fl (s.inp.length + s.lka.length + 1) { s with discard := false } h.ok (by
      have := pull_length s.lka (nl s.mac s.inp)
      have := nl_length s.mac s.inp
      show (pull s.lka (nl s.mac s.inp)).length < _
      omega)
    have e : text fl s = ph fl (rem s) := by rw [text, hd]; rfl
    have e' : rem { s with discard := false } = rem s := rfl
    rw [e'] at h1 h2 h3
    refine ⟨s', by rw [next, if_neg (by simp [hd]), h1, e], ?_, ⟨h4, fun _ hl => ?_⟩, h5, h6, by rw [e]; exact h3⟩
    · rw [e, text, h5, h2, h3]
      cases ph fl (rem s) <;> rfl
    · rw [h3] at hl
      rw [h2, List.head?_eq_none_iff.mp hl]
      rfl

theorem discard_spec (fl : Flags) (s : St) (h : Inv fl s) (hd : s.discard = false) : text fl (discardChar s) = (text fl s).tail ∧ Inv fl (discardChar s) := by
  refine ⟨?_, h.ok, fun h => by cases h⟩
  show ph fl (rem s) = _
  rw [text, hd]
  cases hl : s.last with
  | none => simp [h.eof hd hl]
  | some c => rfl

end Smlr.Ulex
