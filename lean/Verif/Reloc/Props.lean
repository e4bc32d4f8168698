import Verif.Reloc.Lemmas
set_option autoImplicit false
/-! C29 and C30: relocation. -/
namespace Smlr.Reloc

/-- **C29** streaming gives what patching the whole section in memory gives, and consumes exactly the section.  Relocations may overlap -/
theorem c29_stream (base : Nat) (s rest : Bytes) (rels : List Rel) (hs : s.length ≤ 2 ^ 32 - 1024)
    (hin : ∀ r ∈ rels, Inside s.length r) (hsort : rels.Pairwise (fun r r' => r.off ≤ r'.off)) :
    ∃ t, whole base rels s = .ok t ∧ write base (s ++ rest) s.length rels = .ok (t, rest) := by
  unfold write
  obtain ⟨csz, hc⟩ : ∃ csz, csz = (if 3 > s.length then s.length else 3) := ⟨_, rfl⟩
  have hc' : csz = min s.length 3 := by rw [hc]; split <;> omega
  simp only [← hc]
  rw [if_neg (by rw [List.length_append]; omega)]
  have e1 : (s ++ rest).take csz = s.take csz := List.take_append_of_le_length (by omega)
  have e2 : (s ++ rest).drop csz = s.drop csz ++ rest := List.drop_append_of_le_length (by omega)
  have e3 : s.length - csz = (s.drop csz).length := by simp
  have e4 : [] ++ s.take csz ++ s.drop csz = s := by simp
  rw [e1, e2, e3]
  have h := outer_spec base (s.length + 1) (s.drop csz) rest (s.take csz) [] rels s.length (by rw [e4])
    (by simp only [fbuf]; omega) (by simp; omega) (by simp; omega) hin (by simp) (.inl (by simp)) hsort 0 (.inl rfl)
  rwa [e4] at h

theorem mem_width_pos {r : Rel} {w : Nat} (hw : width r.type = some w) : 0 < w := by
  unfold width at hw
  split at hw
  · cases hw; omega
  · split at hw
    · cases hw; omega
    · cases hw

theorem patched_whole (base : Nat) (rels : List Rel) (s t : Bytes) (hin : ∀ r ∈ rels, Inside s.length r) (hap : rels.Pairwise Apart)
    (h : whole base rels s = .ok t) : Patched base rels s t := by
  induction rels generalizing s with
  | nil =>
    cases h
    exact ⟨rfl, by simp, by simp⟩
  | cons r rs ih =>
    obtain ⟨w, hw, hwn⟩ := hin r (by simp)
    obtain ⟨new, h1, h2⟩ := relocate_ok r (r.off + base) r.off w hw s hwn
    have hlen := relocate_length r (r.off + base) r.off w hw s _ hwn h1
    rw [whole, h1] at h
    obtain ⟨u, hu⟩ : ∃ u, u = s.take r.off ++ new ++ s.drop (r.off + w) := ⟨_, rfl⟩
    rw [← hu] at h1 hlen h
    have hnew : new.length = w := by
      rw [h2.length]
      simp; omega
    have hg : ∀ i, ¬ (r.off ≤ i ∧ i < r.off + w) → u[i]? = s[i]? := by
      intro i hi
      rw [hu]
      by_cases hlt : i < r.off
      · rw [List.append_assoc, List.getElem?_append_left (by simp; omega), List.getElem?_take_of_lt hlt]
      · have hge : r.off + w ≤ i := by omega
        rw [List.getElem?_append_right (by simp; omega), List.getElem?_drop]
        congr 1
        simp; omega
    obtain ⟨hap1, hap2⟩ := List.pairwise_cons.1 hap
    have IH := ih u (fun r h => by rw [hlen]; exact hin r (List.mem_cons_of_mem _ h)) hap2 h
    have hafter : ∀ r' ∈ rs, r.off + w ≤ r'.off := fun r' hr' => hap1 r' hr' w hw
    have hext : ∀ (a b : Bytes) (o v : Nat), (∀ i, o ≤ i → i < o + v → a[i]? = b[i]?) → (a.drop o).take v = (b.drop o).take v := by
      intro a b o v hab
      apply List.ext_getElem?
      intro i
      by_cases hi : i < v
      · rw [List.getElem?_take_of_lt hi, List.getElem?_take_of_lt hi, List.getElem?_drop, List.getElem?_drop]
        exact hab _ (by omega) (by omega)
      · rw [List.getElem?_take_eq_none (by omega), List.getElem?_take_eq_none (by omega)]
    refine ⟨by rw [IH.length, hlen], ?_, ?_⟩
    · intro r' hr' v hv
      rcases List.mem_cons.1 hr' with rfl | hr''
      · rw [hw] at hv
        cases hv
        have e : fieldOf t r' w = new := by
          have e1 : fieldOf t r' w = fieldOf u r' w := by
            apply hext
            intro i h3 h4
            apply IH.others
            intro q hq x hx hc
            have := hafter q hq
            omega
          rw [e1, hu, fieldOf, List.append_assoc, List.drop_append, List.drop_eq_nil_of_le (by simp; omega)]
          rw [List.length_take, Nat.min_eq_left (by omega), Nat.sub_self, List.drop_zero, List.nil_append]
          rw [← hnew, List.take_left]
        rw [e]
        exact h2
      · have hf := IH.fields r' hr'' v hv
        have e : fieldOf u r' v = fieldOf s r' v := by
          apply hext
          intro i h3 h4
          apply hg
          have := hafter r' hr''
          omega
        rw [e] at hf
        exact hf
    · intro i hi
      rw [IH.others i (fun q hq x hx => hi q (List.mem_cons_of_mem _ hq) x hx)]
      exact hg i (hi r (by simp) w hw)

/-- **C29** for relocations with separate fields: every field is fixed once according to the specification, every other byte is unchanged -/
theorem c29_bytes (base : Nat) (s rest : Bytes) (rels : List Rel) (hs : s.length ≤ 2 ^ 32 - 1024)
    (hin : ∀ r ∈ rels, Inside s.length r) (hap : rels.Pairwise Apart) :
    ∃ t, write base (s ++ rest) s.length rels = .ok (t, rest) ∧ Patched base rels s t := by
  have hsort : rels.Pairwise (fun r r' => r.off ≤ r'.off) := by
    apply List.Pairwise.imp_of_mem ?_ hap
    intro a b ha _ hab
    obtain ⟨w, hw, -⟩ := hin a ha
    have := hab w hw
    omega
  obtain ⟨t, h1, h2⟩ := c29_stream base s rest rels hs hin hsort
  exact ⟨t, h2, patched_whole base rels s t hin hap h1⟩

/-- **C30** the field of a relocation becomes what the specification says, modulo the width of the field -/
theorem c30_field (r : Rel) (place w : Nat) (hw : width r.type = some w) (buf : Bytes) (hl : w ≤ buf.length) :
    ∃ new, field r place buf = .ok (new ++ buf.drop w) ∧ Fixed r place (buf.take w) new := field_spec r place w hw buf hl

/-- **C30** as the processor sees it: a jump whose field held `d - w` (the assembler counts from the field, the processor from the next instruction, `w` bytes later) goes to the symbol's address plus `d` -/
theorem c30_jump (r : Rel) (place w d : Nat) (hw : width r.type = some w) (hpc : pcRel r.type) (buf : Bytes) (hl : w ≤ buf.length)
    (hd : (le (buf.take w) + w) % 256 ^ w = d % 256 ^ w) :
    ∃ new, field r place buf = .ok (new ++ buf.drop w) ∧ ((place + w) + le new) % 256 ^ w = (r.addr + d) % 256 ^ w := by
  obtain ⟨new, h1, h2⟩ := field_spec r place w hw buf hl
  refine ⟨new, h1, ?_⟩
  have h3 := h2.relative hpc
  have hlen : (buf.take w).length = w := by simp; omega
  rw [hlen] at h3
  have e1 : place + w + le new = (le new + place) + w := by omega
  rw [e1, Nat.add_mod, h3, ← Nat.add_mod, Nat.add_assoc, Nat.add_mod, hd, ← Nat.add_mod]

theorem le_lt (b : Bytes) : le b < 256 ^ b.length := by
  induction b with
  | nil => simp [le]
  | cons b bs ih =>
    have := b.toNat_lt
    rw [le, List.length_cons, Nat.pow_succ]
    omega

/-- **C30** an absolute field that can hold the address holds exactly it.  Missing: the rejection of addresses that do not fit in a 16-bit field (`c30_defect`) -/
theorem c30_exact_partial (r : Rel) (place w : Nat) (hw : width r.type = some w) (hpc : ¬ pcRel r.type) (buf : Bytes) (hl : w ≤ buf.length)
    (hfit : r.addr + le (buf.take w) < 256 ^ w) :
    ∃ new, field r place buf = .ok (new ++ buf.drop w) ∧ le new = r.addr + le (buf.take w) := by
  obtain ⟨new, h1, h2⟩ := field_spec r place w hw buf hl
  refine ⟨new, h1, ?_⟩
  have h3 := h2.absolute hpc
  have hlen : (buf.take w).length = w := by simp; omega
  have h4 := le_lt new
  rw [h2.length, hlen] at h4
  rw [hlen, Nat.mod_eq_of_lt h4, Nat.mod_eq_of_lt hfit] at h3
  exact h3

/-- an address that does not fit in a 16-bit field is cut off without a message -/
theorem c30_defect : ∃ (r : Rel) (buf new : Bytes), r.type = 20 ∧ field r 0 buf = .ok new ∧ r.addr + le buf = 0x12345 ∧ le new = 0x2345 :=
  ⟨⟨0, 20, 0x12345⟩, [0, 0], [0x45, 0x23], rfl, rfl, rfl, rfl⟩

/-! ### symbols -/

/-- the local section symbols in front of a table, each with its index -/
def sections (l : List Sym) (i : Nat) : List Sym :=
  match l with
  | [] => []
  | s :: l => if s.isSection && s.shndx ≠ 0 then { s with value := i } :: sections l (i + 1) else sections l (i + 1)

theorem sections_length (l : List Sym) (i : Nat) : (sections l i).length ≤ l.length := by
  induction l generalizing i with
  | nil => simp [sections]
  | cons s l ih =>
    have := ih (i + 1)
    simp only [sections]
    split
    · simp only [List.length_cons]; omega
    · simp only [List.length_cons]; omega

theorem collect_spec (k i cnt : Nat) (a orig : List Sym) (hc : cnt ≤ i) (hk : i + k ≤ orig.length) (hl : a.length = orig.length) (hd : a.drop i = orig.drop i) :
    (collect k i cnt a).1 = cnt + (sections ((orig.drop i).take k) i).length ∧
    (collect k i cnt a).2.take (collect k i cnt a).1 = a.take cnt ++ sections ((orig.drop i).take k) i ∧
    (collect k i cnt a).2.drop (i + k) = orig.drop (i + k) := by
  induction k generalizing i cnt a with
  | zero => simp [collect, sections, hd]
  | succ k ih =>
    have hi : i < orig.length := by omega
    have hai : a[i]! = orig[i] := by
      have h1 : a[i]? = orig[i]? := by
        have := congrArg (·[0]?) hd
        simpa [List.getElem?_drop] using this
      rw [List.getElem!_eq_getElem?_getD, h1, List.getElem?_eq_getElem hi]
      rfl
    have hsplit : (orig.drop i).take (k + 1) = orig[i] :: (orig.drop (i + 1)).take k := by
      rw [List.drop_eq_getElem_cons hi, List.take_succ_cons]
    have hd1 : a.drop (i + 1) = orig.drop (i + 1) := by
      have := congrArg (List.drop 1) hd
      simpa [List.drop_drop] using this
    have hik : i + (k + 1) = i + 1 + k := by omega
    simp only [collect, hai, hsplit, sections, hik]
    by_cases hs : (orig[i].isSection && decide (orig[i].shndx ≠ 0)) = true
    · rw [if_pos hs, if_pos hs]
      obtain ⟨a1, ha1⟩ : ∃ a1, a1 = (if i > cnt then a.set cnt orig[i] else a) := ⟨_, rfl⟩
      rw [← ha1]
      have hl1 : a1.length = orig.length := by rw [ha1]; split <;> simp [hl]
      have hc1 : a1[cnt]! = orig[i] := by
        rw [ha1]
        by_cases h : i > cnt
        · rw [if_pos h, List.getElem!_eq_getElem?_getD, List.getElem?_set_self (by omega)]
          rfl
        · rw [if_neg h]
          have : cnt = i := by omega
          rw [this, hai]
      rw [hc1]
      have hdr : ∀ (x : List Sym) (v : Sym), (x.set cnt v).drop (i + 1) = x.drop (i + 1) := by
        intro x v
        rw [List.drop_set_of_lt (by omega)]
      have hd2 : (a1.set cnt { orig[i] with value := i }).drop (i + 1) = orig.drop (i + 1) := by
        rw [hdr, ha1]
        split
        · rw [hdr, hd1]
        · exact hd1
      obtain ⟨g1, g2, g3⟩ := ih (i + 1) (cnt + 1) (a1.set cnt { orig[i] with value := i }) (by omega) (by omega) (by simp [hl1]) hd2
      refine ⟨by rw [g1, List.length_cons]; omega, ?_, g3⟩
      rw [g2]
      have ht : (a1.set cnt { orig[i] with value := i }).take (cnt + 1) = a.take cnt ++ [{ orig[i] with value := i }] := by
        rw [List.take_succ, List.getElem?_set_self (by omega), List.take_set_of_le (Nat.le_refl _), ha1]
        split
        · rw [List.take_set_of_le (Nat.le_refl _)]; rfl
        · rfl
      rw [ht, List.append_assoc]
      rfl
    · rw [if_neg hs, if_neg hs]
      obtain ⟨g1, g2, g3⟩ := ih (i + 1) cnt a (by omega) (by omega) hl hd1
      exact ⟨g1, g2, g3⟩

theorem compact_spec (info : Nat) (a : List Sym) (h : info ≤ a.length) :
    compact info a = (sections (a.take info) 0 ++ a.drop info, (sections (a.take info) 0).length) := by
  obtain ⟨g1, g2, g3⟩ := collect_spec info 0 0 a a (Nat.le_refl _) (by omega) rfl rfl
  simp only [List.drop_zero, Nat.zero_add, List.take_zero, List.nil_append] at g1 g2 g3
  show (List.take (collect info 0 0 a).1 (collect info 0 0 a).2 ++ List.drop info (collect info 0 0 a).2, (collect info 0 0 a).1) = _
  rw [g2, g3, g1]

theorem findLocal_sections (l r : List Sym) (i j : Nat) :
    findLocal j (sections l i).length (sections l i ++ r) =
      if h : i ≤ j ∧ j - i < l.length then (if (l[j - i]'h.2).isSection && (l[j - i]'h.2).shndx ≠ 0 then some { l[j - i]'h.2 with value := j } else none) else none := by
  induction l generalizing i with
  | nil => simp [sections, findLocal]
  | cons s l ih =>
    have hnext : findLocal j (sections l (i + 1)).length (sections l (i + 1) ++ r) =
        if h : i + 1 ≤ j ∧ j - (i + 1) < l.length then (if (l[j - (i + 1)]'h.2).isSection && (l[j - (i + 1)]'h.2).shndx ≠ 0 then some { l[j - (i + 1)]'h.2 with value := j } else none) else none := ih (i + 1)
    by_cases hij : i = j
    · subst hij
      rw [dif_neg (by omega)] at hnext
      rw [dif_pos ⟨Nat.le_refl _, by simp⟩]
      simp only [Nat.sub_self, List.getElem_cons_zero, sections]
      by_cases hs : (s.isSection && decide (s.shndx ≠ 0)) = true
      · rw [if_pos hs, if_pos hs]
        simp only [List.length_cons, List.cons_append, findLocal, if_true]
      · rw [if_neg hs, if_neg hs]
        exact hnext
    · have hrhs : (if h : i ≤ j ∧ j - i < (s :: l).length then (if ((s :: l)[j - i]'h.2).isSection && ((s :: l)[j - i]'h.2).shndx ≠ 0 then some { (s :: l)[j - i]'h.2 with value := j } else none) else none) =
          if h : i + 1 ≤ j ∧ j - (i + 1) < l.length then (if (l[j - (i + 1)]'h.2).isSection && (l[j - (i + 1)]'h.2).shndx ≠ 0 then some { l[j - (i + 1)]'h.2 with value := j } else none) else none := by
        by_cases h : i + 1 ≤ j ∧ j - (i + 1) < l.length
        · have h' : i ≤ j ∧ j - i < (s :: l).length := ⟨by omega, by simp; omega⟩
          rw [dif_pos h, dif_pos h']
          have e : (s :: l)[j - i]'h'.2 = l[j - (i + 1)]'h.2 := by
            have : j - i = (j - (i + 1)) + 1 := by omega
            simp only [this, List.getElem_cons_succ]
          simp only [e]
        · rw [dif_neg h, dif_neg (by simp; omega)]
      rw [hrhs, ← hnext]
      simp only [sections]
      by_cases hs : (s.isSection && decide (s.shndx ≠ 0)) = true
      · rw [if_pos hs]
        simp only [List.length_cons, List.cons_append, findLocal]
        rw [if_neg hij]
      · rw [if_neg hs]

/-- the address C30 speaks of: that of a section for a section symbol, that of the name for a global one; nothing for other local symbols and symbols without a section -/
def addressOf (outOffset global : Nat → Nat) (info i : Nat) (s : Sym) : Option Nat :=
  if s.isSection then (if i < info ∧ s.shndx = 0 then none else some (outOffset s.shndx))
  else if i ≥ info ∧ s.isGlobal ∧ s.name ≠ 0 then some (global s.name)
  else none

/-- **C30** although local symbols are thrown away, a relocation gets the address of the symbol with its index in the object file; a relocation against a local symbol that is no section is reported -/
theorem c30_symbol (info : Nat) (syms : List Sym) (h : info ≤ syms.length) (outOffset global : Nat → Nat) (i : Nat) (h0 : i ≠ 0) (hi : i < syms.length) :
    symAddr info (compact info syms) outOffset global i =
      match addressOf outOffset global info i syms[i] with
      | some a => .ok a
      | none => .error .error := by
  rw [compact_spec info syms h]
  unfold symAddr lookup addressOf
  rw [if_neg h0]
  by_cases hg : i ≥ info
  · rw [if_pos hg]
    have e : (sections (syms.take info) 0 ++ syms.drop info)[i - info + (sections (syms.take info) 0).length]? = some syms[i] := by
      rw [List.getElem?_append_right (by omega), List.getElem?_drop, ← List.getElem?_eq_getElem hi]
      congr 1
      omega
    simp only [e]
    by_cases h1 : syms[i].isSection = true
    · rw [if_pos h1, if_pos h1, if_neg (by omega)]
    · rw [if_neg h1, if_neg h1]
      by_cases h2 : syms[i].isGlobal = true ∧ syms[i].name ≠ 0
      · rw [if_pos (show (syms[i].isGlobal && decide (syms[i].name ≠ 0)) = true by simpa using h2), if_pos ⟨hg, h2⟩]
      · rw [if_neg (show ¬ (syms[i].isGlobal && decide (syms[i].name ≠ 0)) = true by simpa using h2), if_neg (by rintro ⟨-, h3⟩; exact h2 h3)]
  · rw [if_neg hg]
    simp only [findLocal_sections]
    have hlt : i - 0 < (syms.take info).length := by simp; omega
    rw [dif_pos ⟨Nat.zero_le _, hlt⟩]
    have e : (syms.take info)[i - 0]'hlt = syms[i] := by simp
    simp only [e]
    have hlt2 : i < info := by omega
    by_cases h1 : syms[i].isSection = true
    · have h1' : Sym.isSection { syms[i] with value := i } = true := h1
      by_cases h2 : syms[i].shndx = 0
      · simp [h1, h2, hlt2]
      · simp [h1, h2, h1']
    · simp [h1, hg]

/-! concrete cases -/

/-- a relocation across the boundary of the buffer -/
example : Inside 2000 ⟨1022, 1, 5⟩ ∧ Apart ⟨1022, 1, 5⟩ ⟨1500, 21, 7⟩ :=
  ⟨⟨4, rfl, by decide⟩, fun w hw => by cases hw; decide⟩

example : write 0x100 [1, 0, 0, 0, 9, 0xFC, 0xFF, 0xFF, 0xFF, 7] 9 [⟨0, 1, 0x2000⟩, ⟨5, 2, 0x1000⟩] = .ok ([1, 0x20, 0, 0, 9, 0xF7, 0x0E, 0, 0], [7]) := by rfl

/-- section symbol 2 of a table with a file symbol in front, global symbol 3 -/
example : symAddr 3 (compact 3 [⟨0, 0, 0, 0⟩, ⟨1, 0, 4, 0xFFF1⟩, ⟨0, 0, 3, 1⟩, ⟨8, 0x10, 0x10, 1⟩]) (fun n => n * 0x1000) (fun n => n + 0x50) 2 = .ok 0x1000 := by rfl

example : symAddr 3 (compact 3 [⟨0, 0, 0, 0⟩, ⟨1, 0, 4, 0xFFF1⟩, ⟨0, 0, 3, 1⟩, ⟨8, 0x10, 0x10, 1⟩]) (fun n => n * 0x1000) (fun n => n + 0x50) 3 = .ok 0x58 := by rfl

end Smlr.Reloc
