import Verif.Sect.Lemmas
set_option autoImplicit false
namespace Smlr.Sect

/-- what holds of each section placed -/
structure Good (c : Cfg) (W : Nat) (out : Bytes) (p : Place) : Prop where
  aligned : Aligned c p.sec p.addr
  fits : p.addr + p.sec.size < 2 ^ 32
  fits16 : is16 c.fmt = true → p.addr + p.sec.size ≤ 0x10000
  orig : (c.fmt ≠ .dosExeSmall ∨ p.sec.attrs.exec = true) → c.origin ≤ p.addr
  file : InFile c p.sec → p.fileOff = (c.hdrsz + position c W p) % 2 ^ 32 ∧ position c W p + p.sec.size ≤ out.length ∧
    (out.drop (position c W p)).take p.sec.size = contents p.sec

theorem Good.append {c : Cfg} {W : Nat} {out : Bytes} {p : Place} (h : Good c W out p) (x : Bytes) : Good c W (out ++ x) p := by
  refine ⟨h.1, h.2, h.3, h.4, fun hf => ?_⟩
  obtain ⟨h1, h2, h3⟩ := h.5 hf
  refine ⟨h1, by simp; omega, ?_⟩
  rw [List.drop_append_of_le_length (by omega), List.take_append_of_le_length (by simp; omega)]
  exact h3

/-- the data segment's position does not matter for others -/
theorem Good.base {c : Cfg} {W W' : Nat} {out : Bytes} {p : Place} (h : Good c W out p) (hc : c.fmt ≠ .dosExeSmall ∨ p.sec.attrs.exec = true) : Good c W' out p := by
  have e : ∀ V, position c V p = p.addr - c.origin := by
    intro V
    unfold position
    rw [if_neg]
    rintro ⟨h1, h2⟩
    rcases hc with hc | hc
    · exact hc h1
    · rw [hc] at h2; cases h2
  refine ⟨h.1, h.2, h.3, h.4, fun hf => ?_⟩
  have := h.5 hf
  rw [e] at this ⊢
  exact this

def Apart (c : Cfg) (p q : Place) : Prop := SameSegment c p q → p.addr + p.sec.size ≤ q.addr

structure Inv (c : Cfg) (ph : Bool) (st : St) : Prop where
  le : st.startOfs ≤ st.ofs
  lt : st.ofs < 2 ^ 32
  len : (∀ p ∈ st.placed, InFile c p.sec) → st.out.length = st.written + (st.ofs - st.startOfs)
  seg0 : (c.fmt ≠ .dosExeSmall ∨ ph = false) → st.written = 0 ∧ st.startOfs = c.origin
  seg1 : c.fmt = .dosExeSmall → ph = true → st.startOfs = 0 ∧ (c.origin + st.written) % 16 = 0
  code : c.fmt = .dosExeSmall → ph = false → ∀ p ∈ st.placed, p.sec.attrs.exec = true
  small : c.fmt = .dosExeSmall → st.ofs ≤ 0x10000
  low : ∀ p ∈ st.placed, (c.fmt = .dosExeSmall → p.sec.attrs.exec = !ph) → p.addr + p.sec.size ≤ st.ofs
  good : ∀ p ∈ st.placed, Good c st.written st.out p
  apart : st.placed.Pairwise (Apart c)

theorem written_eq (c : Cfg) (s : Sec) (h : InFile c s) : written c s = contents s := by
  unfold written contents
  rcases h with h | h
  · simp [h]
  · cases hn : s.attrs.nobits <;> simp [h]

theorem contents_length (s : Sec) (h : s.attrs.nobits = false → s.data.length = s.size) : (contents s).length = s.size := by
  unfold contents
  cases hn : s.attrs.nobits with
  | true => simp
  | false => simpa using h hn

theorem inv_place (c : Cfg) (ph : Bool) (s : Sec) (st st' : St) (hi : Inv c ph st) (h : place c (!s.attrs.exec) s st = .ok st')
    (ha : s.align < 2 ^ 32) (hs : s.size < 2 ^ 32) (hd : s.attrs.nobits = false → s.data.length = s.size)
    (hnb : InFile c s → ∀ p ∈ st.placed, InFile c p.sec) (hph : c.fmt = .dosExeSmall → s.attrs.exec = !ph) :
    Inv c ph st' ∧ ∃ p, p.sec = s ∧ st'.placed = st.placed ++ [p] := by
  obtain ⟨up, fill, g1, g2, g3, g4, g5, e1, e2, e3, e4, e5, -, -⟩ := place_ok c s st st' h hi.lt ha hs
  refine ⟨?_, _, rfl, e5⟩
  have hcl := contents_length s hd
  have hlen : InFile c s → st.out.length = st.written + (st.ofs - st.startOfs) := fun hf => hi.len (hnb hf)
  have hle := hi.le
  have hlow : ∀ p ∈ st.placed, Apart c p ⟨s, up, (c.hdrsz + st.written + (up + 2 ^ 32 - st.startOfs)) % 2 ^ 32⟩ := by
    intro p hp hseg
    have := hi.low p hp (fun hf => (hseg hf).trans (hph hf))
    show p.addr + p.sec.size ≤ up
    omega
  refine ⟨by rw [e1, e2]; omega, by rw [e1]; omega, ?_, ?_, ?_, ?_, ?_, ?_, ?_, ?_⟩
  · intro hall
    rw [e5] at hall
    have hf : InFile c s := hall _ (List.mem_append_right _ (List.mem_singleton.2 rfl))
    rw [e4, e3, e1, e2, written_eq c s hf]
    simp only [List.length_append, hlen hf, g5 hf, hcl]
    omega
  · intro hh
    rw [e3, e2]
    exact hi.seg0 hh
  · intro h1 h2
    rw [e3, e2]
    exact hi.seg1 h1 h2
  · intro h1 h2 p hp
    rw [e5] at hp
    rcases List.mem_append.1 hp with hp | hp
    · exact hi.code h1 h2 p hp
    · rw [List.mem_singleton.1 hp]
      show s.attrs.exec = true
      rw [hph h1, h2]
      rfl
  · intro h1
    rw [e1]
    exact g4 (by rw [h1]; rfl)
  · intro p hp hseg
    rw [e5] at hp
    rw [e1]
    rcases List.mem_append.1 hp with hp | hp
    · have := hi.low p hp hseg
      omega
    · rw [List.mem_singleton.1 hp]
      exact Nat.le_refl _
  · intro p hp
    rw [e5] at hp
    rw [e3, e4]
    rcases List.mem_append.1 hp with hp | hp
    · exact ((hi.good p hp).append _).append _
    · rw [List.mem_singleton.1 hp]
      have hor : (c.fmt ≠ .dosExeSmall ∨ s.attrs.exec = true) → st.written = 0 ∧ st.startOfs = c.origin := by
        intro hh
        apply hi.seg0
        rcases hh with hh | hh
        · exact .inl hh
        · by_cases hf : c.fmt = .dosExeSmall
          · right
            have := hph hf
            rw [hh] at this
            revert this
            cases ph <;> simp
          · exact .inl hf
      have hpos : position c st.written ⟨s, up, (c.hdrsz + st.written + (up + 2 ^ 32 - st.startOfs)) % 2 ^ 32⟩ = st.written + (up - st.startOfs) := by
        unfold position
        by_cases hh : c.fmt = .dosExeSmall ∧ s.attrs.exec = false
        · rw [if_pos hh]
          have hp1 : ph = true := by
            have := hph hh.1
            rw [hh.2] at this
            revert this
            cases ph <;> simp
          rw [(hi.seg1 hh.1 hp1).1]
          simp
        · rw [if_neg hh]
          have := hor (by
            by_cases hf : c.fmt = .dosExeSmall
            · right
              cases he : s.attrs.exec with
              | true => rfl
              | false => exact absurd ⟨hf, he⟩ hh
            · exact .inl hf)
          rw [this.1, this.2]
          simp
      refine ⟨g3, g2, g4, ?_, ?_⟩
      · intro hh
        have := (hor hh).2
        show c.origin ≤ up
        omega
      · intro hf
        rw [hpos]
        have hl := hlen hf
        have hfl := g5 hf
        rw [written_eq c s hf]
        refine ⟨?_, ?_, ?_⟩
        · show (c.hdrsz + st.written + (up + 2 ^ 32 - st.startOfs)) % 2 ^ 32 = _
          have e : c.hdrsz + st.written + (up + 2 ^ 32 - st.startOfs) = c.hdrsz + (st.written + (up - st.startOfs)) + 2 ^ 32 := by omega
          rw [e, Nat.add_mod_right]
        · show st.written + (up - st.startOfs) + s.size ≤ _
          simp only [List.length_append, hcl]
          omega
        · show List.take s.size (List.drop (st.written + (up - st.startOfs)) (st.out ++ fill ++ contents s)) = contents s
          have e : st.written + (up - st.startOfs) = (st.out ++ fill).length := by
            rw [List.length_append]
            omega
          rw [e, List.drop_left, ← hcl, List.take_length]
  · rw [e5, List.pairwise_append]
    refine ⟨hi.apart, by simp, ?_⟩
    intro p hp q hq
    rw [List.mem_singleton.1 hq]
    exact hlow p hp

theorem inv_placeAll (c : Cfg) (ph : Bool) (e : Bool) (nb : Bool) (ss : List Sec) (st st' : St) (hi : Inv c ph st) (h : placeAll c (!e) ss st = .ok st')
    (hs : ∀ s ∈ ss, s.align < 2 ^ 32 ∧ s.size < 2 ^ 32 ∧ (s.attrs.nobits = false → s.data.length = s.size) ∧ s.attrs.exec = e ∧ s.attrs.nobits = nb)
    (hnb : (nb = false ∨ c.useBss = false) → ∀ p ∈ st.placed, InFile c p.sec) (hph : c.fmt = .dosExeSmall → e = !ph) :
    Inv c ph st' ∧ ∃ new, new.map Place.sec = ss ∧ st'.placed = st.placed ++ new := by
  induction ss generalizing st with
  | nil =>
    cases h
    exact ⟨hi, [], rfl, by simp⟩
  | cons s ss ih =>
    simp only [placeAll] at h
    obtain ⟨h1, h2, h3, h4, h5⟩ := hs s (by simp)
    cases hp : place c (!e) s st with
    | error er => rw [hp] at h; cases h
    | ok st1 =>
      rw [hp] at h
      simp only at h
      rw [← h4] at hp
      have hin : InFile c s → (nb = false ∨ c.useBss = false) := fun hf => by
        rcases hf with hf | hf
        · exact .inl (h5 ▸ hf)
        · exact .inr hf
      obtain ⟨hi1, p, rfl, hpl⟩ := inv_place c ph s st st1 hi hp h1 h2 h3 (fun hf => hnb (hin hf)) (by rw [h4]; exact hph)
      obtain ⟨hi2, new, hn1, hn2⟩ := ih st1 hi1 h (fun s hs' => hs s (List.mem_cons_of_mem _ hs')) (by
        intro hc q hq
        rw [hpl] at hq
        rcases List.mem_append.1 hq with hq | hq
        · exact hnb hc q hq
        · rw [List.mem_singleton.1 hq]
          rcases hc with hc | hc
          · exact .inl (h5.trans hc)
          · exact .inr hc)
      exact ⟨hi2, p :: new, by simp [hn1], by rw [hn2, hpl]; simp⟩

/-- padding keeps the invariant outside the small format -/
theorem inv_pad (c : Cfg) (ph : Bool) (fill : UInt8) (al : Nat) (st st' : St) (hi : Inv c ph st) (h : pad true fill al st = .ok st') (hal : al < 2 ^ 32)
    (hf : c.fmt ≠ .dosExeSmall) : Inv c ph st' ∧ st'.placed = st.placed := by
  obtain ⟨up, g1, g2, -, -, rfl⟩ := pad_ok _ _ _ _ _ h hi.lt hal
  refine ⟨⟨?_, g2, ?_, hi.seg0, fun h => absurd h hf, fun h => absurd h hf, fun h => absurd h hf, ?_, ?_, hi.apart⟩, rfl⟩
  · have := hi.le
    show st.startOfs ≤ up
    omega
  · intro hall
    have := hi.len hall
    have hle := hi.le
    show (st.out ++ _).length = st.written + (up - st.startOfs)
    simp
    omega
  · intro p hp hseg
    have := hi.low p hp hseg
    show p.addr + p.sec.size ≤ up
    omega
  · intro p hp
    exact (hi.good p hp).append _

/-- the switch to the data segment -/
theorem inv_switch (c : Cfg) (st : St) (n : Bool) (hi : Inv c false st) (hf : c.fmt = .dosExeSmall) (hin : ∀ p ∈ st.placed, InFile c p.sec) :
    Inv c true (switch n st) := by
  unfold switch
  simp only
  obtain ⟨newOfs, hN⟩ : ∃ x, x = alignTo st.ofs 16 := ⟨_, rfl⟩
  rw [← hN]
  obtain ⟨out, hO⟩ : ∃ x, x = st.out ++ List.replicate ((newOfs + 2 ^ 32 - st.ofs) % 2 ^ 32) 0xCC := ⟨_, rfl⟩
  obtain ⟨written, hW⟩ : ∃ x, x = (st.written + newOfs + 2 ^ 32 - st.startOfs) % 2 ^ 32 := ⟨_, rfl⟩
  rw [← hO, ← hW]
  have hs := hi.small hf
  have hle := hi.le
  obtain ⟨hw0, hst⟩ := hi.seg0 (.inr rfl)
  have hnew : st.ofs ≤ newOfs ∧ newOfs < st.ofs + 16 ∧ 16 ∣ newOfs := by
    rw [hN]
    rcases alignTo_cases st.ofs 16 hi.lt (by decide) (by decide) with ⟨_, g1, g2, g3, _⟩ | ⟨g, _⟩
    · exact ⟨g1, g2, g3⟩
    · omega
  obtain ⟨hn1, hn2, hn3⟩ := hnew
  have hwr : written = newOfs - c.origin := by
    rw [hW, hw0, hst]
    rw [hst] at hle
    have e : 0 + newOfs + 2 ^ 32 - c.origin = (newOfs - c.origin) + 2 ^ 32 := by omega
    rw [e, Nat.add_mod_right, Nat.mod_eq_of_lt (by omega)]
  have hrep : (newOfs + 2 ^ 32 - st.ofs) % 2 ^ 32 = newOfs - st.ofs := by
    have e : newOfs + 2 ^ 32 - st.ofs = (newOfs - st.ofs) + 2 ^ 32 := by omega
    rw [e, Nat.add_mod_right, Nat.mod_eq_of_lt (by omega)]
  have hol : out.length = written := by
    rw [hO, List.length_append, List.length_replicate, hrep, hi.len hin, hwr, hw0, hst]
    rw [hst] at hle
    omega
  have h16 : (c.origin + written) % 16 = 0 := by
    rw [hwr]
    rw [hst] at hle
    have : c.origin + (newOfs - c.origin) = newOfs := by omega
    rw [this]
    exact Nat.mod_eq_zero_of_dvd hn3
  have hcode := hi.code hf rfl
  have hgood : ∀ p ∈ st.placed, Good c written out p := by
    intro p hp
    rw [hO]
    exact ((hi.good p hp).append _).base (.inr (hcode p hp))
  have hlow : ∀ (o : Nat), ∀ p ∈ st.placed, (c.fmt = .dosExeSmall → p.sec.attrs.exec = !true) → p.addr + p.sec.size ≤ o := by
    intro o p hp hseg
    have h1 := hseg hf
    rw [hcode p hp] at h1
    cases h1
  cases n with
  | true =>
    simp only [if_true]
    refine ⟨(show 0 ≤ 4 by decide), (show 4 < 2 ^ 32 by decide), ?_, ?_, fun _ _ => ⟨rfl, h16⟩, (fun _ hc => by cases hc), (fun _ => (show 4 ≤ 0x10000 by decide)), hlow 4, ?_, hi.apart⟩
    · intro _
      show (out ++ str "NULL").length = written + (4 - 0)
      rw [List.length_append, hol]
      rfl
    · rintro (hc | hc)
      · exact absurd hf hc
      · cases hc
    · intro p hp
      exact (hgood p hp).append _
  | false =>
    simp only [Bool.false_eq_true, if_false]
    refine ⟨Nat.le_refl _, (show 0 < 2 ^ 32 by decide), ?_, ?_, fun _ _ => ⟨rfl, h16⟩, (fun _ hc => by cases hc), (fun _ => (show 0 ≤ 0x10000 by decide)), hlow 0, hgood, hi.apart⟩
    · intro _
      show out.length = written + (0 - 0)
      rw [hol]
      omega
    · rintro (hc | hc)
      · exact absurd hf hc
      · cases hc

end Smlr.Sect
