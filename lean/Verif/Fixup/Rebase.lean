import Verif.Fixup.Spec
set_option autoImplicit false
namespace Smlr.Fixup
open Smlr.Sect (Bytes)
open Smlr.Whole (RawRel Item MSec Module Value Names Marks Final Part Clear)

/-! ### adding to words -/

/-- words that do not overlap -/
def Off (a b : Nat) : Prop := a + 4 ≤ b ∨ b + 4 ≤ a

theorem addTo_out (d : Nat) (m : Mem) (a k : Nat) (h : k < a ∨ a + 4 ≤ k) : addTo d m a k = m k := by
  unfold addTo
  rw [if_neg (by omega)]

theorem rebase_out (d : Nat) (l : List Nat) : ∀ (m : Mem) (k : Nat), (∀ a ∈ l, k < a ∨ a + 4 ≤ k) → rebase d l m k = m k := by
  induction l with
  | nil =>
    intro m k _
    rfl
  | cons a l ih =>
    intro m k h
    show rebase d l (addTo d m a) k = _
    rw [ih _ _ (fun x hx => h x (List.mem_cons_of_mem _ hx)), addTo_out _ _ _ _ (h a (List.mem_cons_self ..))]

theorem word_eq (m m' : Mem) (a : Nat) (h : ∀ k, a ≤ k → k < a + 4 → m' k = m k) : word m' a = word m a := by
  unfold word
  rw [h a (by omega) (by omega), h (a + 1) (by omega) (by omega), h (a + 2) (by omega) (by omega), h (a + 3) (by omega) (by omega)]

theorem word_addTo (d : Nat) (m : Mem) (a : Nat) : word (addTo d m a) a = (word m a + d) % 2 ^ 32 := by
  obtain ⟨v, hv⟩ : ∃ v, v = word m a + d := ⟨_, rfl⟩
  rw [← hv]
  unfold word addTo
  rw [if_pos (by omega), if_pos (by omega), if_pos (by omega), if_pos (by omega), ← hv, Nat.sub_self, Nat.add_sub_cancel_left, Nat.add_sub_cancel_left, Nat.add_sub_cancel_left]
  simp only [UInt8.toNat_ofNat']
  omega

theorem rebase_word (d : Nat) (l : List Nat) : ∀ (m : Mem) (a : Nat), l.Pairwise Off → a ∈ l → word (rebase d l m) a = (word m a + d) % 2 ^ 32 := by
  induction l with
  | nil =>
    intro m a _ h
    cases h
  | cons b l ih =>
    intro m a hp h
    rw [List.pairwise_cons] at hp
    show word (rebase d l (addTo d m b)) a = _
    rcases List.mem_cons.1 h with rfl | h
    · rw [word_eq (addTo d m a), word_addTo]
      intro k h1 h2
      refine rebase_out _ _ _ _ (fun x hx => ?_)
      have := hp.1 x hx
      unfold Off at this
      omega
    · rw [ih _ _ hp.2 h, word_eq m]
      intro k h1 h2
      have := hp.1 a h
      unfold Off at this
      exact addTo_out _ _ _ _ (by omega)

/-! ### the places -/

section
variable {imageBase base : Nat}

theorem ofSection_mem (rs : List RawRel) : ∀ l, ofSection imageBase base rs = .ok l → ∀ a, a ∈ l ↔ ∃ r ∈ rs, r.type = 1 ∧ a = Exe.sub32 (r.off + base) imageBase := by
  induction rs with
  | nil =>
    intro l h a
    cases h
    simp
  | cons r rs ih =>
    intro l h a
    unfold ofSection at h
    split at h
    · cases h
    split at h
    · rename_i ht
      rw [ih l h a]
      constructor
      · rintro ⟨x, hx, h1⟩
        exact ⟨x, List.mem_cons_of_mem _ hx, h1⟩
      · rintro ⟨x, hx, h1⟩
        rcases List.mem_cons.1 hx with rfl | hx
        · omega
        · exact ⟨x, hx, h1⟩
    split at h
    · cases h
    · rename_i _ _ ht
      cases ho : ofSection imageBase base rs with
      | error e => rw [ho] at h; cases h
      | ok l' =>
        rw [ho] at h
        cases h
        rw [List.mem_cons, ih l' ho a]
        constructor
        · rintro (rfl | ⟨x, hx, h1⟩)
          · exact ⟨r, List.mem_cons_self .., by omega, rfl⟩
          · exact ⟨x, List.mem_cons_of_mem _ hx, h1⟩
        · rintro ⟨x, hx, h1⟩
          rcases List.mem_cons.1 hx with rfl | hx
          · exact .inl h1.2
          · exact .inr ⟨x, hx, h1⟩

theorem ofSection_types (rs : List RawRel) : ∀ l, ofSection imageBase base rs = .ok l → ∀ r ∈ rs, r.sym ≠ 0 ∧ (r.type = 1 ∨ r.type = 2 ∨ r.type = 21) := by
  induction rs with
  | nil =>
    intro l _ r h
    cases h
  | cons r rs ih =>
    intro l h x hx
    unfold ofSection at h
    split at h
    · cases h
    rename_i h0
    split at h
    · rename_i ht
      rcases List.mem_cons.1 hx with rfl | hx
      · exact ⟨h0, by omega⟩
      · exact ih l h x hx
    split at h
    · cases h
    · rename_i _ ht
      cases ho : ofSection imageBase base rs with
      | error e => rw [ho] at h; cases h
      | ok l' =>
        rcases List.mem_cons.1 hx with rfl | hx
        · exact ⟨h0, by omega⟩
        · exact ih l' ho x hx

/-- what is in the table -/
theorem sites_mem (tab : List (Item × Nat)) : ∀ l, sites imageBase tab = .ok l → ∀ a, a ∈ l ↔
    ∃ x ∈ tab, (x.1.s.sec.attrs.nobits || isImport x.1.s.sec.name) = false ∧ ∃ r ∈ x.1.s.rels, r.type = 1 ∧ a = Exe.sub32 (r.off + x.2) imageBase := by
  induction tab with
  | nil =>
    intro l h a
    cases h
    simp
  | cons x xs ih =>
    intro l h a
    unfold sites at h
    split at h
    · rename_i hc
      rw [ih l h a]
      constructor
      · rintro ⟨y, hy, h1⟩
        exact ⟨y, List.mem_cons_of_mem _ hy, h1⟩
      · rintro ⟨y, hy, h1, h2⟩
        rcases List.mem_cons.1 hy with rfl | hy
        · rw [hc] at h1
          cases h1
        · exact ⟨y, hy, h1, h2⟩
    · rename_i hc
      cases ho : ofSection imageBase x.2 x.1.s.rels with
      | error e => rw [ho] at h; cases h
      | ok p =>
        rw [ho] at h
        cases hs : sites imageBase xs with
        | error e => rw [hs] at h; cases h
        | ok q =>
          rw [hs] at h
          cases h
          rw [List.mem_append, ih q hs a, ofSection_mem _ _ ho a]
          constructor
          · rintro (h1 | ⟨y, hy, h1⟩)
            · exact ⟨x, List.mem_cons_self .., by simpa using hc, h1⟩
            · exact ⟨y, List.mem_cons_of_mem _ hy, h1⟩
          · rintro ⟨y, hy, h1, h2⟩
            rcases List.mem_cons.1 hy with rfl | hy
            · exact .inl h2
            · exact .inr ⟨y, hy, h1, h2⟩

theorem sites_types (tab : List (Item × Nat)) : ∀ l, sites imageBase tab = .ok l → ∀ x ∈ tab, (x.1.s.sec.attrs.nobits || isImport x.1.s.sec.name) = false →
    ∀ r ∈ x.1.s.rels, r.sym ≠ 0 ∧ (r.type = 1 ∨ r.type = 2 ∨ r.type = 21) := by
  induction tab with
  | nil =>
    intro l _ x hx
    cases hx
  | cons x xs ih =>
    intro l h y hy hn
    unfold sites at h
    split at h
    · rename_i hc
      rcases List.mem_cons.1 hy with rfl | hy
      · rw [hc] at hn
        cases hn
      · exact ih l h y hy hn
    · cases ho : ofSection imageBase x.2 x.1.s.rels with
      | error e => rw [ho] at h; cases h
      | ok p =>
        rw [ho] at h
        cases hs : sites imageBase xs with
        | error e => rw [hs] at h; cases h
        | ok q =>
          rcases List.mem_cons.1 hy with rfl | hy
          · exact ofSection_types _ _ ho
          · exact ih q hs y hy hn

theorem ofSection_len (rs : List RawRel) : ∀ l, ofSection imageBase base rs = .ok l → l.length ≤ rs.length := by
  induction rs with
  | nil =>
    intro l h
    cases h
    exact Nat.le_refl _
  | cons r rs ih =>
    intro l h
    unfold ofSection at h
    split at h
    · cases h
    split at h
    · have := ih l h
      rw [List.length_cons]
      omega
    split at h
    · cases h
    · cases ho : ofSection imageBase base rs with
      | error e => rw [ho] at h; cases h
      | ok l' =>
        rw [ho] at h
        cases h
        have := ih l' ho
        rw [List.length_cons, List.length_cons]
        omega

theorem sites_len (tab : List (Item × Nat)) : ∀ l, sites imageBase tab = .ok l → l.length ≤ (tab.map (fun x => x.1.s.rels.length)).sum := by
  induction tab with
  | nil =>
    intro l h
    cases h
    exact Nat.le_refl _
  | cons x xs ih =>
    intro l h
    rw [List.map_cons, List.sum_cons]
    unfold sites at h
    split at h
    · have := ih l h
      omega
    · cases ho : ofSection imageBase x.2 x.1.s.rels with
      | error e => rw [ho] at h; cases h
      | ok p =>
        rw [ho] at h
        cases hs : sites imageBase xs with
        | error e => rw [hs] at h; cases h
        | ok q =>
          rw [hs] at h
          cases h
          have := ih q hs
          have := ofSection_len _ _ ho
          rw [List.length_append]
          omega

theorem ofSection_ok (rs : List RawRel) (h : ∀ r ∈ rs, r.sym ≠ 0 ∧ (r.type = 1 ∨ r.type = 2 ∨ r.type = 21)) : ∃ l, ofSection imageBase base rs = .ok l := by
  induction rs with
  | nil => exact ⟨_, rfl⟩
  | cons r rs ih =>
    obtain ⟨l, hl⟩ := ih (fun x hx => h x (List.mem_cons_of_mem _ hx))
    have hr := h r (List.mem_cons_self ..)
    unfold ofSection
    rw [if_neg hr.1]
    split
    · exact ⟨l, hl⟩
    · rw [if_neg (by omega), hl]
      exact ⟨_, rfl⟩

theorem sites_ok (tab : List (Item × Nat)) (h : ∀ x ∈ tab, (x.1.s.sec.attrs.nobits || isImport x.1.s.sec.name) = false → ∀ r ∈ x.1.s.rels, r.sym ≠ 0 ∧ (r.type = 1 ∨ r.type = 2 ∨ r.type = 21)) :
    ∃ l, sites imageBase tab = .ok l := by
  induction tab with
  | nil => exact ⟨_, rfl⟩
  | cons x xs ih =>
    obtain ⟨l, hl⟩ := ih (fun y hy => h y (List.mem_cons_of_mem _ hy))
    unfold sites
    split
    · exact ⟨l, hl⟩
    · rename_i hc
      obtain ⟨p, hp⟩ := ofSection_ok (imageBase := imageBase) (base := x.2) _ (h x (List.mem_cons_self ..) (by simpa using hc))
      rw [hp, hl]
      exact ⟨_, rfl⟩

theorem sub_place (a b i : Nat) (h : i ≤ b) (h' : a + b < 2 ^ 32) : Exe.sub32 (a + b) i = a + (b - i) := by
  unfold Exe.sub32
  omega

theorem width_1 (t w : Nat) (h : Reloc.width t = some w) (h1 : t = 1) : w = 4 := by
  subst h1
  revert h
  unfold Reloc.width
  simp
  omega

theorem ofSection_apart (n : Nat) (hb : imageBase ≤ base) (hn : base + n ≤ 2 ^ 32) (rs : List RawRel) (hi : ∀ r ∈ rs, ∃ w, Reloc.width r.type = some w ∧ r.off + w ≤ n) (hc : rs.Pairwise Clear) :
    ∀ l, ofSection imageBase base rs = .ok l → l.Pairwise Off := by
  induction rs with
  | nil =>
    intro l h
    cases h
    exact .nil
  | cons r rs ih =>
    intro l h
    rw [List.pairwise_cons] at hc
    have hi' : ∀ r ∈ rs, ∃ w, Reloc.width r.type = some w ∧ r.off + w ≤ n := fun x hx => hi x (List.mem_cons_of_mem _ hx)
    unfold ofSection at h
    split at h
    · cases h
    split at h
    · exact ih hi' hc.2 l h
    split at h
    · cases h
    · rename_i _ _ ht
      cases ho : ofSection imageBase base rs with
      | error e => rw [ho] at h; cases h
      | ok l' =>
        rw [ho] at h
        cases h
        refine List.pairwise_cons.2 ⟨?_, ih hi' hc.2 l' ho⟩
        intro a ha
        obtain ⟨x, hx, hx1, rfl⟩ := (ofSection_mem rs l' ho a).1 ha
        obtain ⟨w, hw, hwn⟩ := hi r (List.mem_cons_self ..)
        obtain ⟨w', hw', hwn'⟩ := hi' x hx
        have hcl := hc.1 x hx w w' hw hw'
        have e1 := width_1 _ _ hw (by omega)
        have e2 := width_1 _ _ hw' (by omega)
        subst e1 e2
        rw [sub_place _ _ _ hb (by omega), sub_place _ _ _ hb (by omega)]
        unfold Off
        omega

theorem sites_apart (tab : List (Item × Nat)) (hp : Placed imageBase tab) : ∀ l, sites imageBase tab = .ok l → l.Pairwise Off := by
  induction tab with
  | nil =>
    intro l h
    cases h
    exact .nil
  | cons x xs ih =>
    intro l h
    have hp' : Placed imageBase xs := ⟨fun y hy => hp.range y (List.mem_cons_of_mem _ hy), (List.pairwise_cons.1 hp.apart).2, fun y hy => hp.inside y (List.mem_cons_of_mem _ hy), fun y hy => hp.clear y (List.mem_cons_of_mem _ hy)⟩
    have hx := hp.range x (List.mem_cons_self ..)
    unfold sites at h
    split at h
    · exact ih hp' l h
    · cases ho : ofSection imageBase x.2 x.1.s.rels with
      | error e => rw [ho] at h; cases h
      | ok p =>
        rw [ho] at h
        cases hs : sites imageBase xs with
        | error e => rw [hs] at h; cases h
        | ok q =>
          rw [hs] at h
          cases h
          refine List.pairwise_append.2 ⟨ofSection_apart _ hx.1 hx.2 _ (hp.inside x (List.mem_cons_self ..)) (hp.clear x (List.mem_cons_self ..)) p ho, ih hp' q hs, ?_⟩
          intro a ha b hb
          obtain ⟨r, hr, hr1, rfl⟩ := (ofSection_mem _ _ ho a).1 ha
          obtain ⟨y, hy, -, r', hr', hr1', rfl⟩ := (sites_mem _ _ hs b).1 hb
          obtain ⟨w, hw, hwn⟩ := hp.inside x (List.mem_cons_self ..) r hr
          obtain ⟨w', hw', hwn'⟩ := hp.inside y (List.mem_cons_of_mem _ hy) r' hr'
          have e1 := width_1 _ _ hw hr1
          have e2 := width_1 _ _ hw' hr1'
          subst e1 e2
          have hy' := hp.range y (List.mem_cons_of_mem _ hy)
          have hap := (List.pairwise_cons.1 hp.apart).1 y hy
          rw [sub_place _ _ _ hx.1 (by omega), sub_place _ _ _ hy'.1 (by omega)]
          unfold Off
          omega

theorem apart_mem (tab : List (Item × Nat)) (h : tab.Pairwise (fun x y => x.2 + x.1.s.sec.size ≤ y.2 ∨ y.2 + y.1.s.sec.size ≤ x.2)) (x y : Item × Nat) (hx : x ∈ tab) (hy : y ∈ tab) :
    x = y ∨ x.2 + x.1.s.sec.size ≤ y.2 ∨ y.2 + y.1.s.sec.size ≤ x.2 := by
  induction tab with
  | nil => cases hx
  | cons z zs ih =>
    rw [List.pairwise_cons] at h
    rcases List.mem_cons.1 hx with hx | hx <;> rcases List.mem_cons.1 hy with hy | hy
    · exact .inl (hx.trans hy.symm)
    · exact .inr (hx ▸ h.1 y hy)
    · have := h.1 x hx
      rw [hy]
      exact .inr (by omega)
    · exact ih h.2 hx hy

/-- a byte of a section is in a word of the table only if it is in a field of the section -/
theorem untouched (tab : List (Item × Nat)) (hp : Placed imageBase tab) (l : List Nat) (hs : sites imageBase tab = .ok l) (x : Item × Nat) (hx : x ∈ tab) (k : Nat) (hk : k < x.1.s.sec.size)
    (h : (x.1.s.sec.attrs.nobits || isImport x.1.s.sec.name) = false → ∀ r ∈ x.1.s.rels, r.type = 1 → k < r.off ∨ r.off + 4 ≤ k) (d : Nat) (m : Mem) :
    rebase d l m (x.2 - imageBase + k) = m (x.2 - imageBase + k) := by
  refine rebase_out _ _ _ _ (fun a ha => ?_)
  obtain ⟨y, hy, hn, r, hr, hr1, rfl⟩ := (sites_mem _ _ hs a).1 ha
  obtain ⟨w, hw, hwn⟩ := hp.inside y hy r hr
  have e1 := width_1 _ _ hw hr1
  subst e1
  have h1 := hp.range x hx
  have h2 := hp.range y hy
  rw [sub_place _ _ _ h2.1 (by omega)]
  rcases apart_mem _ hp.apart x y hx hy with rfl | hap
  · have := h hn r hr hr1
    omega
  · omega

end

/-! ### the values of symbols -/

section
variable {mods : List Module} {entry : Link.Name} {place place' : Nat → Nat → Nat} {B B' : Nat}

theorem marks_shift (hsh : ∀ i j, place' i j + B = place i j + B') (n : Link.Name) (a : Nat) (h : Marks mods entry place n a) : ∃ a', Marks mods entry place' n a' ∧ a' + B = a + B' := by
  obtain ⟨x, P, hx, hst, h⟩ := h
  rcases h with ⟨hn, hle, i, j, s, hpt, hP, rfl⟩ | ⟨hn, hle, i, j, s, hpt, hP, rfl⟩
  · refine ⟨place' i j, ⟨x, P, hx, hst, .inl ⟨hn, ?_, i, j, s, hpt, hP, rfl⟩⟩, hsh i j⟩
    intro i' j' s' hp' hP'
    have := hle i' j' s' hp' hP'
    have := hsh i j
    have := hsh i' j'
    omega
  · refine ⟨place' i j + s.sec.size, ⟨x, P, hx, hst, .inr ⟨hn, ?_, i, j, s, hpt, hP, rfl⟩⟩, by have := hsh i j; omega⟩
    intro i' j' s' hp' hP'
    have := hle i' j' s' hp' hP'
    have := hsh i j
    have := hsh i' j'
    omega

theorem names_shift (hsh : ∀ i j, place' i j + B = place i j + B') (n : Link.Name) (a : Nat) (h : Names mods entry place n a) :
    ∃ a', Names mods entry place' n a' ∧ (a' + B) % 2 ^ 32 = (a + B') % 2 ^ 32 := by
  cases h with
  | defined i m s h1 h2 h3 h4 h5 h6 =>
    refine ⟨_, .defined i m s h1 h2 h3 h4 h5 h6, ?_⟩
    have := hsh i s.shndx
    omega
  | marks _ hd hm =>
    obtain ⟨a', hm', he⟩ := marks_shift hsh n a hm
    exact ⟨a', .marks a' hd hm', by rw [he]⟩

theorem value_shift (hsh : ∀ i j, place' i j + B = place i j + B') (i : Nat) (m : Module) (k a : Nat) (hk : k ≠ 0) (h : Value mods entry place i m k a) :
    ∃ a', Value mods entry place' i m k a' ∧ (a' + B) % 2 ^ 32 = (a + B') % 2 ^ 32 := by
  cases h with
  | none => exact absurd rfl hk
  | sect _ s h1 h2 => exact ⟨_, .sect k s h1 h2, by rw [hsh]⟩
  | name _ s _ h1 h2 h3 h4 =>
    obtain ⟨a', h4', he⟩ := names_shift hsh _ a h4
    exact ⟨a', .name k s a' h1 h2 h3 h4', he⟩

end

theorem bytesAt_sub (m : Mem) (a n o w : Nat) (h : o + w ≤ n) : ((bytesAt m a n).drop o).take w = bytesAt m (a + o) w := by
  unfold bytesAt
  apply List.ext_getElem
  · simp
    omega
  · intro i h1 h2
    simp [Nat.add_assoc]

theorem bytesAt_len (m : Mem) (a n : Nat) : (bytesAt m a n).length = n := by simp [bytesAt]

theorem bytesAt_congr (m m' : Mem) (a n : Nat) (h : ∀ k, k < n → m' (a + k) = m (a + k)) : bytesAt m' a n = bytesAt m a n := by
  unfold bytesAt
  exact List.map_congr_left (fun k hk => h k (List.mem_range.1 hk))

theorem le_word (m : Mem) (a : Nat) : Reloc.le (bytesAt m a 4) = word m a := by
  show (m (a + 0)).toNat + 256 * ((m (a + 1)).toNat + 256 * ((m (a + 2)).toNat + 256 * ((m (a + 3)).toNat + 256 * 0))) = _
  unfold word
  rw [Nat.add_zero]
  omega

theorem final_rebase (mods : List Module) (entry : Link.Name) (place place' : Nat → Nat → Nat) (imageBase newBase d : Nat) (hd : (imageBase + d) % 2 ^ 32 = newBase % 2 ^ 32)
    (hsh : ∀ i j, place' i j + imageBase = place i j + newBase) (tab : List (Item × Nat)) (hp : Placed imageBase tab) (l : List Nat) (hs : sites imageBase tab = .ok l)
    (x : Item × Nat) (hx : x ∈ tab) (hni : isImport x.1.s.sec.name = false) (i j : Nat) (hpl : place i j = x.2) (mo : Module) (mem : Mem)
    (hf : Final mods entry place i mo x.2 x.1.s (bytesAt mem (x.2 - imageBase) x.1.s.sec.size)) :
    Final mods entry place' i mo (place' i j) x.1.s (bytesAt (rebase d l mem) (x.2 - imageBase) x.1.s.sec.size) := by
  have hb := hsh i j
  rw [hpl] at hb
  have hrg := hp.range x hx
  constructor
  · exact bytesAt_len ..
  · intro hz
    rw [bytesAt_congr mem]
    · exact hf.zero hz
    · intro k hk
      refine untouched tab hp l hs x hx k hk ?_ d mem
      intro hn
      rw [hz] at hn
      cases hn
  · intro hz r hr w hw
    have hn : (x.1.s.sec.attrs.nobits || isImport x.1.s.sec.name) = false := by rw [hz, hni]; rfl
    obtain ⟨hsym, hty⟩ := sites_types tab l hs x hx hn r hr
    obtain ⟨w', hw', hin⟩ := hp.inside x hx r hr
    rw [hw] at hw'
    cases hw'
    obtain ⟨a, hv, hfx⟩ := hf.fields hz r hr w hw
    obtain ⟨a', hv', he⟩ := value_shift hsh i mo r.sym a hsym hv
    refine ⟨a', hv', ?_⟩
    rw [bytesAt_sub _ _ _ _ _ hin] at hfx ⊢
    have hol : ((x.1.s.sec.data.drop r.off).take w).length = w := by rw [← hfx.length, bytesAt_len]
    generalize (x.1.s.sec.data.drop r.off).take w = old at hfx hol ⊢
    refine ⟨by rw [bytesAt_len, hol], ?_, ?_⟩
    · intro hpc
      have h1 : r.type = 1 := by
        unfold Reloc.pcRel at hpc
        simp only at hpc
        omega
      have hw4 := width_1 _ _ hw h1
      subst hw4
      have hab := hfx.absolute hpc
      rw [hol] at hab ⊢
      have hm : x.2 - imageBase + r.off ∈ l := by
        refine (sites_mem tab l hs _).2 ⟨x, hx, hn, r, hr, h1, ?_⟩
        rw [sub_place _ _ _ hrg.1 (by omega)]
        omega
      rw [le_word] at hab ⊢
      rw [rebase_word d l mem _ (sites_apart tab hp l hs) hm]
      simp only at hab ⊢
      omega
    · intro hpc
      have hun : bytesAt (rebase d l mem) (x.2 - imageBase + r.off) w = bytesAt mem (x.2 - imageBase + r.off) w := by
        refine bytesAt_congr _ _ _ _ (fun k hk => ?_)
        rw [Nat.add_assoc]
        refine untouched tab hp l hs x hx (r.off + k) (by omega) ?_ d mem
        intro _ r' hr' h1'
        have hne : r ≠ r' := by
          rintro rfl
          unfold Reloc.pcRel at hpc
          simp only at hpc
          omega
        obtain ⟨w', hw', hin'⟩ := hp.inside x hx r' hr'
        have := width_1 _ _ hw' h1'
        subst this
        have hcl : r = r' ∨ Clear r r' ∨ Clear r' r := by
          have hc := hp.clear x hx
          clear hin hin' hw hfx
          generalize x.1.s.rels = rs at hr hr' hc
          induction rs with
          | nil => cases hr
          | cons z zs ih =>
            rw [List.pairwise_cons] at hc
            rcases List.mem_cons.1 hr with hr | hr <;> rcases List.mem_cons.1 hr' with hr' | hr'
            · exact .inl (hr.trans hr'.symm)
            · exact .inr (.inl (hr ▸ hc.1 _ hr'))
            · exact .inr (.inr (hr' ▸ hc.1 _ hr))
            · exact ih hr hr' hc.2
        rcases hcl with h | h | h
        · exact absurd h hne
        · have := h _ _ hw hw'
          omega
        · have := h _ _ hw' hw
          omega
      have hre := hfx.relative hpc
      rw [hun]
      have hw2 : w = 4 ∨ w = 2 := by
        unfold Reloc.width at hw
        split at hw
        · cases hw
          exact .inl rfl
        split at hw
        · cases hw
          exact .inr rfl
        · cases hw
      generalize Reloc.le (bytesAt mem (x.2 - imageBase + r.off) w) = v at hre ⊢
      rw [hol] at hre ⊢
      simp only at hre ⊢
      rcases hw2 with rfl | rfl <;> omega
  · intro hz k hk
    rw [← hf.others hz k hk]
    by_cases hkn : k < x.1.s.sec.size
    · unfold bytesAt
      simp only [List.getElem?_map, List.getElem?_range hkn, Option.map_some]
      rw [untouched tab hp l hs x hx k hkn]
      intro _ r hr h1
      have := hk r hr 4 (by rw [h1]; rfl)
      omega
    · rw [List.getElem?_eq_none (by rw [bytesAt_len]; omega), List.getElem?_eq_none (by rw [bytesAt_len]; omega)]

end Smlr.Fixup
