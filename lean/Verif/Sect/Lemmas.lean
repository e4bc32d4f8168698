import Verif.Sect.Order
set_option autoImplicit false
namespace Smlr.Sect

theorem alignTo_cases (ofs al : Nat) (h1 : ofs < 2 ^ 32) (h2 : 1 ≤ al) (h3 : al < 2 ^ 32) :
    (ofs + al - 1 < 2 ^ 32 ∧ ofs ≤ alignTo ofs al ∧ alignTo ofs al < ofs + al ∧ al ∣ alignTo ofs al ∧ alignTo ofs al < 2 ^ 32) ∨
    (ofs + al - 1 ≥ 2 ^ 32 ∧ alignTo ofs al < ofs ∧ ∀ up, ofs ≤ up → al ∣ up → up ≥ 2 ^ 32 ∨ up + al > 2 ^ 32) := by
  unfold alignTo
  by_cases h : ofs + al - 1 < 2 ^ 32
  · left
    rw [Nat.mod_eq_of_lt h]
    have hd := Nat.div_add_mod (ofs + al - 1) al
    have hm := Nat.mod_lt (ofs + al - 1) h2
    have hc : (ofs + al - 1) / al * al = ofs + al - 1 - (ofs + al - 1) % al := by
      rw [Nat.mul_comm]
      omega
    generalize hq : (ofs + al - 1) / al * al = q at *
    have hdv : al ∣ q := ⟨(ofs + al - 1) / al, by rw [← hq, Nat.mul_comm]⟩
    have hqlt : q < 2 ^ 32 := by omega
    rw [Nat.mod_eq_of_lt hqlt]
    exact ⟨h, by omega, by omega, hdv, hqlt⟩
  · right
    have hlt : ofs + al - 1 - 2 ^ 32 < al := by omega
    have e : (ofs + al - 1) % 2 ^ 32 = ofs + al - 1 - 2 ^ 32 := by
      rw [Nat.mod_eq_sub_mod (by omega), Nat.mod_eq_of_lt (by omega)]
    rw [e, Nat.div_eq_of_lt hlt]
    refine ⟨by omega, by simp; omega, ?_⟩
    intro up hu _
    omega

/-- the alignment applied -/
theorem effAlign_ok (c : Cfg) (s : Sec) (al : Nat) (h : effAlign c.fmt (!s.attrs.exec) s = .ok al) (ha : s.align < 2 ^ 32) :
    al < 2 ^ 32 ∧ ∀ addr, (al ≤ 1 ∨ al ∣ addr) → Aligned c s addr := by
  unfold effAlign at h
  split at h
  · cases h
  · by_cases h16 : is16 c.fmt = true
    · have hf : c.fmt = .dosComTiny ∨ c.fmt = .flat16 ∨ c.fmt = .dosExeSmall := by
        simp only [is16, Bool.or_eq_true, decide_eq_true_eq] at h16
        rcases h16 with (h | h) | h
        · exact .inl h
        · exact .inr (.inl h)
        · exact .inr (.inr h)
      have hnh : ¬ (c.fmt = .dosExeHuge ∧ (s.name = str ".relot" ∨ s.name = str ".relod")) := by
        rintro ⟨h, -⟩
        rw [h] at hf
        simp at hf
      rw [if_pos h16] at h
      simp only [Except.ok.injEq] at h
      unfold Aligned
      cases he : s.attrs.exec with
      | true =>
        rw [he] at h
        by_cases h4 : s.align > 4
        · simp only [Bool.not_true, Bool.not_false, Bool.true_and, decide_eq_true_eq, h4, if_true] at h
          subst h
          refine ⟨by decide, fun addr hd => ?_⟩
          rw [if_pos ⟨hf, rfl⟩]
          exact .inr (.inr ⟨h4, hd.resolve_left (by decide)⟩)
        · simp only [Bool.not_true, Bool.not_false, Bool.true_and, decide_eq_true_eq, h4, if_false] at h
          subst h
          refine ⟨ha, fun addr hd => ?_⟩
          rw [if_pos ⟨hf, rfl⟩]
          rcases hd with hd | hd
          · by_cases h0 : s.align = 0
            · exact .inr (.inl h0)
            · have : s.align = 1 := by omega
              exact .inl (by rw [this]; exact Nat.one_dvd _)
          · exact .inl hd
      | false =>
        rw [he] at h
        simp only [Bool.not_false, Bool.not_true, Bool.false_and, Bool.false_eq_true, if_false] at h
        subst h
        refine ⟨ha, fun addr hd => ?_⟩
        rw [if_neg (by simp), if_neg hnh]
        rcases hd with hd | hd
        · by_cases h0 : s.align = 0
          · exact .inr h0
          · have : s.align = 1 := by omega
            exact .inl (by rw [this]; exact Nat.one_dvd _)
        · exact .inl hd
    · have hf : ¬ (c.fmt = .dosComTiny ∨ c.fmt = .flat16 ∨ c.fmt = .dosExeSmall) := by
        simp only [is16, Bool.or_eq_true, decide_eq_true_eq] at h16
        rintro (h | h | h)
        · exact h16 (.inl (.inl h))
        · exact h16 (.inl (.inr h))
        · exact h16 (.inr h)
      rw [if_neg h16] at h
      have main : ∀ addr, ¬ (c.fmt = .dosExeHuge ∧ (s.name = str ".relot" ∨ s.name = str ".relod")) → (s.align ≤ 1 ∨ s.align ∣ addr) → Aligned c s addr := by
        intro addr hnh hd
        unfold Aligned
        rw [if_neg (fun hh => hf hh.1), if_neg hnh]
        rcases hd with hd | hd
        · by_cases h0 : s.align = 0
          · exact .inr h0
          · have : s.align = 1 := by omega
            exact .inl (by rw [this]; exact Nat.one_dvd _)
        · exact .inl hd
      by_cases hh : c.fmt = .dosExeHuge
      · rw [if_pos hh] at h
        simp only at h
        by_cases hn : s.name = str ".relot" ∨ s.name = str ".relod"
        · rw [if_pos hn, if_neg (by decide)] at h
          cases h
          refine ⟨by decide, fun addr hd => ?_⟩
          unfold Aligned
          rw [if_neg (fun hh => hf hh.1), if_pos ⟨hh, hn⟩]
          exact hd.resolve_left (by decide)
        · rw [if_neg hn] at h
          split at h
          · cases h
          · cases h
            exact ⟨ha, fun addr hd => main addr (fun hx => hn hx.2) hd⟩
      · rw [if_neg hh] at h
        have hal : s.align = al := by
          split at h
          · split at h
            · cases h
            · cases h; rfl
          · cases h; rfl
        rw [← hal]
        exact ⟨ha, fun addr hd => main addr (fun hx => hh hx.1) hd⟩

theorem pad_ok (wr : Bool) (fill : UInt8) (al : Nat) (st st' : St) (h : pad wr fill al st = .ok st') (h1 : st.ofs < 2 ^ 32) (h2 : al < 2 ^ 32) :
    ∃ up, st.ofs ≤ up ∧ up < 2 ^ 32 ∧ (al ≤ 1 ∨ al ∣ up) ∧ up < st.ofs + max al 1 ∧
      st' = { st with ofs := up, out := st.out ++ (if wr then List.replicate (up - st.ofs) fill else []) } := by
  unfold pad at h
  split at h
  · rename_i hal
    simp only at h
    split at h
    · cases h
    · cases h
      rcases alignTo_cases st.ofs al h1 (by omega) h2 with ⟨_, g1, g2, g3, g4⟩ | ⟨_, g, _⟩
      · exact ⟨alignTo st.ofs al, g1, g4, .inr g3, by omega, rfl⟩
      · omega
  · cases h
    refine ⟨st.ofs, Nat.le_refl _, h1, .inl (by omega), by omega, ?_⟩
    simp

/-- the bytes written for a section -/
def written (c : Cfg) (s : Sec) : Bytes := if !s.attrs.nobits then s.data else if !c.useBss then List.replicate s.size 0 else []

theorem place_ok (c : Cfg) (s : Sec) (st st' : St) (h : place c (!s.attrs.exec) s st = .ok st') (h1 : st.ofs < 2 ^ 32) (ha : s.align < 2 ^ 32) (hs : s.size < 2 ^ 32) :
    ∃ up, ∃ fill : Bytes, st.ofs ≤ up ∧ up + s.size < 2 ^ 32 ∧ Aligned c s up ∧ (is16 c.fmt = true → up + s.size ≤ 0x10000) ∧
      (InFile c s → fill.length = up - st.ofs) ∧
      st'.ofs = up + s.size ∧ st'.startOfs = st.startOfs ∧ st'.written = st.written ∧ st'.out = st.out ++ fill ++ written c s ∧
      st'.placed = st.placed ++ [⟨s, up, (c.hdrsz + st.written + (up + 2 ^ 32 - st.startOfs)) % 2 ^ 32⟩] ∧ st'.spans = st.spans ∧
      (st'.span = (widen (!s.attrs.exec) up (up + s.size) st).span ∧ st'.code = (widen (!s.attrs.exec) up (up + s.size) st).code ∧
        st'.data = (widen (!s.attrs.exec) up (up + s.size) st).data) := by
  unfold place at h
  cases he : effAlign c.fmt (!s.attrs.exec) s with
  | error e => rw [he] at h; cases h
  | ok al =>
    rw [he] at h
    simp only at h
    obtain ⟨hal, hA⟩ := effAlign_ok c s al he ha
    cases hp : pad (!s.attrs.nobits || !c.useBss) (fillByte (!s.attrs.exec)) al st with
    | error e => rw [hp] at h; cases h
    | ok st1 =>
      rw [hp] at h
      simp only at h
      obtain ⟨up, g1, g2, g3, -, rfl⟩ := pad_ok _ _ _ _ _ hp h1 hal
      unfold put at h
      simp only at h
      split at h
      · cases h
      · rename_i hov
        have hlt : up + s.size < 2 ^ 32 := by
          apply Classical.byContradiction
          intro hn
          apply hov
          rw [Nat.mod_eq_sub_mod (by omega), Nat.mod_eq_of_lt (by omega)]
          omega
        rw [Nat.mod_eq_of_lt hlt] at h
        split at h
        · cases h
        · rename_i h16
          injection h with h
          subst h
          refine ⟨up, if (!s.attrs.nobits || !c.useBss) then List.replicate (up - st.ofs) (fillByte (!s.attrs.exec)) else [], g1, hlt, hA up g3, ?_, ?_, rfl, rfl, rfl, rfl, rfl, rfl, rfl, rfl, rfl⟩
          · intro hf
            rw [hf] at h16
            simpa using h16
          · rintro (hb | hb)
            · simp [hb]
            · simp [hb]

end Smlr.Sect
