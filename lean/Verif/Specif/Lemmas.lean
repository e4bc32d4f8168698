import Verif.Specif.Spec
set_option autoImplicit false
namespace Smlr.Specif

def maskOf (ks : List Kw) : Nat := ks.foldl (fun m k => m ||| (masks k).1) 0

def arith : Kw → Bool
  | .void => false
  | .float => false
  | _ => true

/-- the rows the loop deals with -/
def rows : List (List Kw) := (table.map Prod.fst).filter (fun r => r.all arith)

/-- masks of the rows, and the empty one -/
def good (m : Nat) : Prop := m = 0 ∨ ∃ r ∈ rows, maskOf r = m

def allowedFor (m : Nat) : Nat :=
  ([Kw.char, .short, .int, .long, .signed, .unsigned, .double].foldl
    (fun a k => if m &&& (masks k).1 ≠ 0 then a &&& (0x7F - ((masks k).2 ||| (masks k).1)) else a) 0x7F)

instance (m : Nat) : Decidable (good m) := inferInstanceAs (Decidable (_ ∨ _))

def kws : List Kw := [.void, .char, .short, .int, .long, .signed, .unsigned, .float, .double]

theorem mem_kws (k : Kw) : k ∈ kws := by cases k <;> decide

def goods : List Nat := 0 :: rows.map maskOf

theorem mem_goods (m : Nat) : m ∈ goods ↔ good m := by
  unfold goods good
  rw [List.mem_cons, List.mem_map]

/-- one step of the loop, for all masks -/
theorem step_table : ∀ m ∈ goods, ∀ k ∈ kws,
    (allowedFor m &&& (masks k).1 ≠ 0 ↔ (arith k = true ∧ m &&& (masks k).1 = 0 ∧ good (m ||| (masks k).1))) ∧
    (allowedFor m &&& (masks k).1 ≠ 0 →
      allowedFor m &&& (0x7F - ((masks k).2 ||| (masks k).1)) = allowedFor (m ||| (masks k).1)) := by
  decide +kernel

theorem maskOf_append (a b : List Kw) : maskOf (a ++ b) = b.foldl (fun m k => m ||| (masks k).1) (maskOf a) := by
  unfold maskOf; rw [List.foldl_append]

theorem foldl_or (ks : List Kw) (m : Nat) : ks.foldl (fun m k => m ||| (masks k).1) m = m ||| maskOf ks := by
  unfold maskOf
  induction ks generalizing m with
  | nil => simp
  | cons k ks ih =>
    simp only [List.foldl_cons]
    rw [ih, ih (0 ||| (masks k).1), Nat.zero_or, Nat.or_assoc]

theorem maskOf_cons (k : Kw) (ks : List Kw) : maskOf (k :: ks) = (masks k).1 ||| maskOf ks := by
  show (k :: ks).foldl _ 0 = _
  rw [List.foldl_cons, foldl_or, Nat.zero_or]

/-- bit number of a keyword -/
def bit : Kw → Nat
  | .char => 0 | .short => 1 | .int => 2 | .long => 3 | .signed => 4 | .unsigned => 5 | .double => 6 | .void => 7 | .float => 8

theorem bit_inj (a b : Kw) (h : bit a = bit b) : a = b := by
  cases a <;> cases b <;> first | rfl | (exact absurd h (by decide))

theorem mask_bit (k : Kw) (h : arith k = true) : (masks k).1 = 2 ^ bit k := by
  cases k <;> first | rfl | (exact absurd h (by decide))

theorem test_maskOf (ks : List Kw) (h : ∀ k ∈ ks, arith k = true) (k : Kw) : (maskOf ks).testBit (bit k) = true ↔ k ∈ ks := by
  induction ks with
  | nil => simp [maskOf]
  | cons a ks ih =>
    rw [maskOf_cons, mask_bit a (h a (by simp)), Nat.testBit_or, Nat.testBit_two_pow, Bool.or_eq_true,
      ih (fun k hk => h k (by simp [hk])), List.mem_cons, decide_eq_true_eq]
    constructor
    · rintro (h | h)
      · exact Or.inl (bit_inj _ _ h).symm
      · exact Or.inr h
    · rintro (h | h)
      · exact Or.inl (by rw [h])
      · exact Or.inr h

/-- the loop consumes everything exactly if no keyword repeats and all intermediate masks are good -/
theorem loop_all (ks : List Kw) : ∀ m, good m → ∀ m', loop (allowedFor m) m ks = (m', []) ↔
    (m' = m ||| maskOf ks ∧ (∀ k ∈ ks, arith k = true) ∧ (∀ pre k post, ks = pre ++ k :: post →
      (m ||| maskOf pre) &&& (masks k).1 = 0 ∧ good (m ||| maskOf pre ||| (masks k).1))) := by
  induction ks with
  | nil =>
    intro m hm m'
    simp only [loop, Prod.mk.injEq, and_true, maskOf, List.foldl_nil, Nat.or_zero]
    constructor
    · rintro rfl
      exact ⟨rfl, by simp, fun pre k post h => by simp at h⟩
    · rintro ⟨rfl, -, -⟩; rfl
  | cons k ks ih =>
    intro m hm m'
    have hst := step_table m ((mem_goods m).2 hm) k (mem_kws k)
    unfold loop
    by_cases ha : allowedFor m &&& (masks k).1 ≠ 0
    · rw [if_pos ha, hst.2 ha]
      obtain ⟨h1, h2, h3⟩ := hst.1.1 ha
      rw [ih _ h3, maskOf_cons, Nat.or_assoc]
      constructor
      · rintro ⟨rfl, ha, hp⟩
        refine ⟨rfl, ?_, ?_⟩
        · intro x hx
          rcases List.mem_cons.1 hx with rfl | hx
          · exact h1
          · exact ha x hx
        · intro pre x post he
          cases pre with
          | nil =>
            simp only [List.nil_append, List.cons.injEq] at he
            obtain ⟨rfl, rfl⟩ := he
            simp only [maskOf, List.foldl_nil, Nat.or_zero]
            exact ⟨h2, h3⟩
          | cons y pre =>
            simp only [List.cons_append, List.cons.injEq] at he
            obtain ⟨rfl, rfl⟩ := he
            rw [maskOf_cons, ← Nat.or_assoc]
            exact hp pre x post rfl
      · rintro ⟨rfl, ha, hp⟩
        refine ⟨rfl, fun x hx => ha x (by simp [hx]), fun pre x post he => ?_⟩
        have := hp (k :: pre) x post (by rw [he]; rfl)
        rwa [maskOf_cons, ← Nat.or_assoc] at this
    · rw [if_neg ha]
      constructor
      · intro h; simp at h
      · rintro ⟨-, hb, hp⟩
        have := hp [] k ks rfl
        simp only [maskOf, List.foldl_nil, Nat.or_zero] at this
        exact absurd (hst.1.2 ⟨hb k (by simp), this.1, this.2⟩) ha

theorem rows_nodup : ∀ r ∈ rows, r.Nodup := by decide +kernel

/-- every part of a good mask is good -/
theorem good_down : ∀ m ∈ goods, ∀ n < 128, n &&& m = n → good n := by decide +kernel

theorem good_lt : ∀ m ∈ goods, m < 128 := by decide +kernel

/-- the loop consumes everything exactly for the permutations of the rows -/
theorem loop_rows (ks : List Kw) (hne : ks ≠ []) (m : Nat) : loop 0x7F 0 ks = (m, []) ↔ (m = maskOf ks ∧ ∃ r ∈ rows, ks.Perm r) := by
  have h0 : good 0 := Or.inl rfl
  have := loop_all ks 0 h0 m
  rw [show allowedFor 0 = 0x7F by decide, Nat.zero_or] at this
  rw [this]
  refine and_congr_right (fun _ => ?_)
  have hra : ∀ r ∈ rows, ∀ k ∈ r, arith k = true := by
    intro r hr k hk
    have := (List.mem_filter.1 hr).2
    exact List.all_eq_true.1 this k hk
  constructor
  · rintro ⟨ha, hp⟩
    -- no keyword repeats
    have hnd : ks.Nodup := by
      rw [List.nodup_iff_pairwise_ne, List.pairwise_iff_getElem]
      intro i j hi hj hij heq
      have hsplit : ks = ks.take j ++ ks[j] :: ks.drop (j + 1) := by
        rw [← List.drop_eq_getElem_cons hj, List.take_append_drop]
      have h1 := (hp _ _ _ hsplit).1
      rw [Nat.zero_or] at h1
      have hmem : ks[j] ∈ ks.take j := by
        rw [← heq, List.mem_take_iff_getElem]
        exact ⟨i, by omega, rfl⟩
      have hj2 : arith ks[j] = true := ha _ (List.getElem_mem hj)
      have ht := (test_maskOf (ks.take j) (fun k hk => ha k (List.mem_of_mem_take hk)) ks[j]).2 hmem
      have : ((maskOf (ks.take j)) &&& (masks ks[j]).1).testBit (bit ks[j]) = true := by
        rw [Nat.testBit_and, ht, mask_bit _ hj2, Nat.testBit_two_pow_self]; rfl
      rw [h1] at this
      simp at this
    -- the whole mask is good
    have hg : good (maskOf ks) := by
      rcases List.eq_nil_or_concat ks with h | ⟨pre, k, h⟩
      · exact absurd h hne
      · rw [List.concat_eq_append] at h
        have h1 := (hp pre k [] (by rw [h])).2
        rw [h, maskOf_append]
        simpa using h1
    rcases hg with h | ⟨r, hr, h⟩
    · exfalso
      cases ks with
      | nil => exact hne rfl
      | cons k ks =>
        have := (test_maskOf (k :: ks) ha k).2 (by simp)
        rw [h] at this
        simp at this
    · refine ⟨r, hr, ?_⟩
      rw [List.perm_ext_iff_of_nodup hnd (rows_nodup r hr)]
      intro k
      rw [← test_maskOf ks ha, ← test_maskOf r (hra r hr), h]
  · rintro ⟨r, hr, hperm⟩
    have ha : ∀ k ∈ ks, arith k = true := fun k hk => hra r hr k (hperm.mem_iff.1 hk)
    have hnd : ks.Nodup := hperm.nodup_iff.2 (rows_nodup r hr)
    refine ⟨ha, fun pre k post he => ?_⟩
    rw [Nat.zero_or]
    have hpa : ∀ x ∈ pre, arith x = true := fun x hx => ha x (by rw [he]; simp [hx])
    have hka : arith k = true := ha k (by rw [he]; simp)
    have hgr : good (maskOf r) := Or.inr ⟨r, hr, rfl⟩
    have sub : ∀ l : List Kw, (∀ x ∈ l, x ∈ r) → ∀ i, (maskOf l).testBit i = true → (maskOf r).testBit i = true := by
      intro l
      induction l with
      | nil => intro _ i h; simp [maskOf] at h
      | cons a l ih =>
        intro hl i h
        rw [maskOf_cons, Nat.testBit_or, Bool.or_eq_true] at h
        rcases h with h | h
        · have haa := hra r hr a (hl a (by simp))
          rw [mask_bit a haa, Nat.testBit_two_pow, decide_eq_true_eq] at h
          rw [← h]
          exact (test_maskOf r (hra r hr) a).2 (hl a (by simp))
        · exact ih (fun x hx => hl x (by simp [hx])) i h
    constructor
    · apply Nat.eq_of_testBit_eq
      intro i
      rw [Nat.testBit_and, mask_bit k hka, Nat.testBit_two_pow, Nat.zero_testBit]
      by_cases hi : bit k = i
      · have : (maskOf pre).testBit (bit k) = false := by
          cases ht : (maskOf pre).testBit (bit k) with
          | false => rfl
          | true =>
            have hm := (test_maskOf pre hpa k).1 ht
            rw [he] at hnd
            have := (List.nodup_append.1 hnd).2.2 k hm k (by simp)
            exact absurd rfl this
        rw [← hi, this]; rfl
      · simp [hi]
    · have hml : maskOf (pre ++ [k]) = maskOf pre ||| (masks k).1 := by rw [maskOf_append]; rfl
      rw [← hml]
      have hs := sub (pre ++ [k]) (fun x hx => hperm.mem_iff.1 (by
        rw [he]
        rcases List.mem_append.1 hx with h | h
        · simp [h]
        · simp [List.mem_singleton.1 h]))
      have hand : maskOf (pre ++ [k]) &&& maskOf r = maskOf (pre ++ [k]) := by
        apply Nat.eq_of_testBit_eq
        intro i
        rw [Nat.testBit_and]
        cases ht : (maskOf (pre ++ [k])).testBit i with
        | false => rfl
        | true => rw [hs i ht]; rfl
      have hmr := (mem_goods _).2 hgr
      refine good_down _ hmr _ ?_ hand
      have := good_lt _ hmr
      exact Nat.lt_of_le_of_lt (by rw [← hand]; exact Nat.and_le_right) this

end Smlr.Specif
