import Verif.Sect.Find
import Verif.Exe.Spec
set_option autoImplicit false
/-! More about layouts: where pages end, and what is in the file. -/
namespace Smlr.Exe
open Smlr.Sect

/-- the end of the page -/
def pg (x : Nat) : Nat := (x + 4095) / 4096 * 4096

theorem pg_le {x y : Nat} (h : x ≤ y) (hy : y % 4096 = 0) : pg x ≤ y := by unfold pg; omega
theorem le_pg (x : Nat) : x ≤ pg x := by unfold pg; omega
theorem pg_mono {x y : Nat} (h : x ≤ y) : pg x ≤ pg y := by unfold pg; omega
theorem pg_mod (x : Nat) : pg x % 4096 = 0 := by unfold pg; omega
theorem pg_lt (x : Nat) : pg x < x + 4096 := by unfold pg; omega

/-- end of a section -/
def fin (p : Place) : Nat := p.addr + p.sec.size

/-- are sections with these attributes in the file? -/
def FileA (c : Cfg) (a : Attrs) : Prop := a.nobits = false ∨ c.useBss = false

/-- formats with code and data on pages of their own -/
def Paged (f : Fmt) : Prop := f = .winPe32 ∨ f = .elf32 ∨ f = .aout ∨ f = .mach32

theorem pow_dvd (a : Nat) (h : a &&& (a - 1) = 0) (h1 : 1 ≤ a) (h2 : a ≤ 4096) : a ∣ 4096 := by
  have key : ∀ i : Fin 65, ∀ j : Fin 64, (64 * i.val + j.val) &&& (64 * i.val + j.val - 1) = 0 → 1 ≤ 64 * i.val + j.val → 64 * i.val + j.val ≤ 4096 →
      4096 % (64 * i.val + j.val) = 0 := by decide +kernel
  have := key ⟨a / 64, by omega⟩ ⟨a % 64, by omega⟩
  simp only [show 64 * (a / 64) + a % 64 = a by omega] at this
  exact Nat.dvd_of_mod_eq_zero (this h h1 h2)

theorem alignTo_same (x al : Nat) (h1 : 1 ≤ al) (h2 : al ∣ x) (h3 : x < 2 ^ 32) (h4 : al ≤ 4096) (h5 : al ∣ 4096) : alignTo x al = x := by
  have hle : x + al - 1 < 2 ^ 32 := by
    obtain ⟨k, rfl⟩ := h2
    have h32 : al ∣ 2 ^ 32 := Nat.dvd_trans h5 (by decide)
    obtain ⟨m, hm⟩ := h32
    rw [hm] at h3 ⊢
    have hkm : k < m := Nat.lt_of_mul_lt_mul_left h3
    have h6 : al * (k + 1) ≤ al * m := Nat.mul_le_mul_left _ hkm
    rw [Nat.mul_add, Nat.mul_one] at h6
    omega
  unfold alignTo
  rw [Nat.mod_eq_of_lt hle]
  obtain ⟨k, rfl⟩ := h2
  have : (al * k + al - 1) / al = k := by
    rw [show al * k + al - 1 = (al - 1) + al * k by omega, Nat.add_mul_div_left _ _ (by omega), Nat.div_eq_of_lt (by omega)]
    omega
  rw [this, Nat.mul_comm k al, Nat.mod_eq_of_lt h3]

/-- one section -/
theorem place_more (c : Cfg) (s : Sec) (st st' : St) (h : place c (!s.attrs.exec) s st = .ok st') (h1 : st.ofs < 2 ^ 32) (ha : s.align < 2 ^ 32) (hs : s.size < 2 ^ 32) :
    ∃ q : Place, q.sec = s ∧ st'.placed = st.placed ++ [q] ∧ st.ofs ≤ q.addr ∧ st'.ofs = fin q ∧ st'.ofs < 2 ^ 32 ∧ st'.written = st.written ∧ st'.startOfs = st.startOfs ∧
      (∃ x, st'.out = st.out ++ x) ∧ (¬ FileA c s.attrs → st'.out = st.out) ∧ (Paged c.fmt → st.ofs % 4096 = 0 → (c.fmt = .aout → s.align ≤ 4096) → q.addr = st.ofs) := by
  unfold place at h
  cases he : effAlign c.fmt (!s.attrs.exec) s with
  | error e => rw [he] at h; cases h
  | ok al =>
    rw [he] at h
    simp only at h
    obtain ⟨hal, -⟩ := effAlign_ok c s al he ha
    cases hp : pad (!s.attrs.nobits || !c.useBss) (fillByte (!s.attrs.exec)) al st with
    | error e => rw [hp] at h; cases h
    | ok st1 =>
      rw [hp] at h
      simp only at h
      obtain ⟨up, g1, g2, g3, g4, e1⟩ := pad_ok _ _ _ _ _ hp h1 hal
      have hsame : Paged c.fmt → st.ofs % 4096 = 0 → (c.fmt = .aout → s.align ≤ 4096) → up = st.ofs := by
        intro hf h0 h4
        have hea : (al = s.align ∧ s.align ≤ 4096) ∧ s.align &&& (s.align - 1) = 0 := by
          unfold effAlign at he
          split at he
          · cases he
          · rename_i hn
            refine ⟨?_, by simpa using hn⟩
            rcases hf with hf | hf | hf | hf <;> rw [hf] at he <;> simp [is16] at he
            · split at he
              · cases he
              · injection he with he
                omega
            · split at he
              · cases he
              · injection he with he
                omega
            · have := h4 hf
              omega
            · split at he
              · cases he
              · injection he with he
                omega
        obtain ⟨⟨rfl, h4⟩, hpow⟩ := hea
        by_cases hz : s.align ≤ 1
        · omega
        · have hd := pow_dvd s.align hpow (by omega) h4
          have hd2 : s.align ∣ st.ofs := Nat.dvd_trans hd (Nat.dvd_of_mod_eq_zero h0)
          have hal' := alignTo_same st.ofs s.align (by omega) hd2 h1 h4 hd
          unfold pad at hp
          rw [if_pos (by omega)] at hp
          simp only [hal'] at hp
          rw [if_neg (by omega)] at hp
          injection hp with hp
          rw [e1] at hp
          have := congrArg St.ofs hp
          simpa using this.symm
      subst e1
      unfold put at h
      simp only at h
      split at h
      · cases h
      · rename_i hov
        have hlt : up + s.size < 2 ^ 32 := by
          apply Classical.byContradiction
          intro hn
          apply hov
          rw [Nat.mod_eq_sub_mod (by omega), Nat.mod_eq_of_lt (by omega)]
          omega
        rw [Nat.mod_eq_of_lt hlt] at h
        split at h
        · cases h
        · injection h with h
          subst h
          refine ⟨_, rfl, rfl, g1, rfl, hlt, rfl, rfl, ⟨_, by simp only [widen, List.append_assoc]; rfl⟩, ?_, hsame⟩
          intro hf
          have hn : s.attrs.nobits = true := by
            cases hb : s.attrs.nobits with
            | true => rfl
            | false => exact absurd (.inl hb) hf
          have hb : c.useBss = true := by
            cases hb : c.useBss with
            | true => rfl
            | false => exact absurd (.inr hb) hf
          simp [hn, hb, widen]

theorem placeAll_more (c : Cfg) (a : Attrs) (ms : List Sec) (st st' : St) (h : placeAll c (!a.exec) ms st = .ok st') (h1 : st.ofs < 2 ^ 32)
    (hs : ∀ s ∈ ms, s.align < 2 ^ 32 ∧ s.size < 2 ^ 32 ∧ s.attrs = a) :
    ∃ new, new.map Place.sec = ms ∧ st'.placed = st.placed ++ new ∧ st.ofs ≤ st'.ofs ∧ st'.ofs < 2 ^ 32 ∧ st'.written = st.written ∧ st'.startOfs = st.startOfs ∧
      (∀ q ∈ new, st.ofs ≤ q.addr ∧ fin q ≤ st'.ofs) ∧ (∃ x, st'.out = st.out ++ x) ∧ (¬ FileA c a → st'.out = st.out) ∧ (ms ≠ [] → ∃ p ∈ new, fin p = st'.ofs) ∧
      (Paged c.fmt → st.ofs % 4096 = 0 → (c.fmt = .aout → ∀ s ∈ ms, s.align ≤ 4096) → ms ≠ [] → ∃ q ∈ new, q.addr = st.ofs) := by
  induction ms generalizing st with
  | nil =>
    cases h
    exact ⟨[], rfl, by simp, Nat.le_refl _, h1, rfl, rfl, by simp, ⟨[], by simp⟩, fun _ => rfl, fun h => absurd rfl h, fun _ _ _ h => absurd rfl h⟩
  | cons s ms ih =>
    obtain ⟨ha, hz, hat⟩ := hs s (by simp)
    simp only [placeAll] at h
    cases hp : place c (!a.exec) s st with
    | error e => rw [hp] at h; cases h
    | ok st1 =>
      rw [hp] at h
      simp only at h
      obtain ⟨q, q1, q2, q3, q4, q5, q6, q7, ⟨x, q8⟩, q9, q10⟩ := place_more c s st st1 (by rw [hat]; exact hp) h1 ha hz
      obtain ⟨new, n1, n2, n3, n4, n5, n6, n7, ⟨y, n8⟩, n9, n10, -⟩ := ih st1 h q5 (fun t ht => hs t (List.mem_cons_of_mem _ ht))
      have hf : q.addr ≤ fin q := Nat.le_add_right _ _
      refine ⟨q :: new, by simp [q1, n1], by rw [n2, q2]; simp, by omega, n4, n5.trans q6, n6.trans q7, ?_, ⟨x ++ y, by rw [n8, q8]; simp⟩, ?_, ?_, ?_⟩
      · intro r hr
        rcases List.mem_cons.1 hr with rfl | hr
        · omega
        · have := n7 r hr
          omega
      · intro hn
        rw [n9 hn, q9 (by rw [hat]; exact hn)]
      · intro _
        cases ms with
        | nil =>
          cases h
          exact ⟨q, by simp, q4.symm⟩
        | cons t ts =>
          obtain ⟨p, hp1, hp2⟩ := n10 (by simp)
          exact ⟨p, List.mem_cons_of_mem _ hp1, hp2⟩
      · intro h2 h3 h4 _
        exact ⟨q, by simp, q10 h2 h3 (fun hf => h4 hf s (by simp))⟩

/-- what follows a description, except in the small format -/
theorem trail_more (c : Cfg) (d : Desc) (next : Option Desc) (st st' : St) (h : trail c d next st = .ok st') (hf : c.fmt ≠ .dosExeSmall) (h1 : st.ofs < 2 ^ 32) :
    st'.placed = st.placed ∧ st.ofs ≤ st'.ofs ∧ st'.written = st.written ∧ st'.startOfs = st.startOfs ∧ (∃ x, st'.out = st.out ++ x) ∧
    (Paged c.fmt → lastCode d next = true ∨ padsData c d next = true → st'.ofs % 4096 = 0 ∧ st'.ofs < st.ofs + 4096) ∧
    (lastCode d next = false → padsData c d next = false → st' = st) := by
  have hpad : ∀ fill, pad true fill 4096 st = .ok st' → (st'.placed = st.placed ∧ st.ofs ≤ st'.ofs ∧ st'.written = st.written ∧ st'.startOfs = st.startOfs ∧ (∃ x, st'.out = st.out ++ x) ∧
      st'.ofs % 4096 = 0 ∧ st'.ofs < st.ofs + 4096) := by
    intro fill hp
    obtain ⟨u, g1, g2, g3, g4, rfl⟩ := pad_ok _ _ _ _ _ hp h1 (by decide)
    refine ⟨rfl, g1, rfl, rfl, ⟨_, rfl⟩, ?_, ?_⟩
    · rcases g3 with g3 | g3
      · exact absurd g3 (by decide)
      · exact Nat.mod_eq_zero_of_dvd g3
    · simpa using g4
  unfold trail at h
  rw [if_neg hf] at h
  split at h
  · split at h
    · rename_i hl
      obtain ⟨g1, g2, g3, g4, g5, g6, g7⟩ := hpad _ h
      exact ⟨g1, g2, g3, g4, g5, fun _ _ => ⟨g6, g7⟩, fun h0 => absurd hl (by rw [h0]; decide)⟩
    · split at h
      · rename_i hl
        obtain ⟨g1, g2, g3, g4, g5, g6, g7⟩ := hpad _ h
        exact ⟨g1, g2, g3, g4, g5, fun _ _ => ⟨g6, g7⟩, fun _ h0 => absurd hl (by rw [h0]; decide)⟩
      · rename_i hl1 hl2
        cases h
        exact ⟨rfl, Nat.le_refl _, rfl, rfl, ⟨[], by simp⟩, fun _ h => by rcases h with h | h <;> contradiction, fun _ _ => rfl⟩
  · rename_i hn
    cases h
    exact ⟨rfl, Nat.le_refl _, rfl, rfl, ⟨[], by simp⟩, fun h => absurd h hn, fun _ _ => rfl⟩

/-- in the small format -/
theorem trail_small (c : Cfg) (d : Desc) (next : Option Desc) (st st' : St) (h : trail c d next st = .ok st') (hf : c.fmt = .dosExeSmall) :
    (lastCode d next = true ∧ st' = switch next.isSome st) ∨ (lastCode d next = false ∧ st' = st) := by
  unfold trail at h
  rw [if_pos hf] at h
  cases hl : lastCode d next with
  | true =>
    rw [hl] at h
    left
    injection h with h
    exact ⟨rfl, h.symm⟩
  | false =>
    rw [hl] at h
    right
    injection h with h
    exact ⟨rfl, h.symm⟩

/-- the next description, if any, is not of code -/
def NoCode (ds : List Desc) : Prop := ∀ d, ds.head? = some d → d.attrs.exec = false
/-- the next description, if any, is not of sections in the file -/
def NoFile (c : Cfg) (ds : List Desc) : Prop := ∀ d, ds.head? = some d → ¬ FileA c d.attrs

/-- a section that is not code lies at the end of the last page of code -/
def Adjacent (l : List Place) : Prop := ∃ p ∈ l, p.sec.attrs.exec = true ∧ ∃ q ∈ l, q.sec.attrs.exec = false ∧ q.addr = pg (fin p)

structure More (c : Cfg) (ds : List Desc) (st : St) : Prop where
  exec : Paged c.fmt → NoCode ds → ∀ p ∈ st.placed, p.sec.attrs.exec = true → pg (fin p) ≤ st.ofs
  file : Paged c.fmt → NoFile c ds → ∀ p ∈ st.placed, FileA c p.sec.attrs → pg (fin p) ≤ st.ofs ∧ pg (fin p) ≤ c.origin + st.out.length
  code : Paged c.fmt → ∀ p ∈ st.placed, ∀ q ∈ st.placed, p.sec.attrs.exec = true → q.sec.attrs.exec = false → pg (fin p) ≤ q.addr
  bss : Paged c.fmt → ∀ p ∈ st.placed, ∀ q ∈ st.placed, FileA c p.sec.attrs → ¬ FileA c q.sec.attrs → pg (fin p) ≤ q.addr
  out : ∀ q ∈ st.placed, ¬ FileA c q.sec.attrs → st.out.length ≤ position c st.written q
  small : c.fmt = .dosExeSmall → NoCode ds → (∀ p ∈ st.placed, p.sec.attrs.exec = true → fin p ≤ c.origin + st.written) ∧
    (∃ p ∈ st.placed, p.sec.attrs.exec = true ∧ c.origin + st.written < fin p + 16) ∧ (c.origin + st.written) % 16 = 0 ∧ st.written ≤ st.out.length ∧
    ((ds ≠ [] ∨ ∃ q ∈ st.placed, q.sec.attrs.exec = false) → st.written + 4 ≤ st.out.length)
  next : Paged c.fmt → NoCode ds → (∀ q ∈ st.placed, q.sec.attrs.exec = true) → ∃ p ∈ st.placed, st.ofs = pg (fin p)
  adj : Paged c.fmt → (∃ q ∈ st.placed, q.sec.attrs.exec = false) → Adjacent st.placed
  first : Paged c.fmt → c.origin % 4096 = 0 → (st.placed = [] ∧ st.ofs = c.origin) ∨ ∃ p ∈ st.placed, p.addr = c.origin
  len : Paged c.fmt → NoFile c ds → ∃ p ∈ st.placed, FileA c p.sec.attrs ∧ c.origin + st.out.length = pg (fin p)

theorem paged_small {f : Fmt} (h : Paged f) : f ≠ .dosExeSmall := by
  rcases h with rfl | rfl | rfl | rfl <;> decide

theorem noFile_of (c : Cfg) (a : Attrs) (h : ¬ FileA c a) : a.nobits = true ∧ c.useBss = true := by
  unfold FileA at h
  cases h1 : a.nobits <;> cases h2 : c.useBss <;> simp_all

/-- nothing is padded after sections that are not in the file -/
theorem no_pad (c : Cfg) (d : Desc) (next : Option Desc) (h : ¬ FileA c d.attrs) (hx : d.attrs.exec = true → d.attrs.nobits = false) :
    lastCode d next = false ∧ padsData c d next = false := by
  obtain ⟨h1, h2⟩ := noFile_of c _ h
  have h3 : d.attrs.exec = false := by
    cases he : d.attrs.exec with
    | false => rfl
    | true => rw [hx he] at h1; cases h1
  unfold lastCode padsData
  simp [h1, h2, h3]

/-- the last sections of code, and of the file, are padded -/
theorem code_pad (d : Desc) (ds : List Desc) (h : NoCode ds) (hd : d.attrs.exec = true) : lastCode d ds.head? = true := by
  unfold lastCode
  rw [hd]
  cases ds with
  | nil => rfl
  | cons e es =>
    have := h e rfl
    simp [this]

theorem file_pad (c : Cfg) (d : Desc) (ds : List Desc) (h : NoFile c ds) (hd : FileA c d.attrs) (hx : ∀ e, ds.head? = some e → e.attrs.exec = true → e.attrs.nobits = false) :
    lastCode d ds.head? = true ∨ padsData c d ds.head? = true := by
  cases ds with
  | nil =>
    right
    unfold padsData
    cases hu : c.useBss with
    | false => simp
    | true =>
      have hb : d.attrs.nobits = false := by
        rcases hd with hd | hd
        · exact hd
        · rw [hu] at hd; cases hd
      simp [hb]
  | cons e es =>
    obtain ⟨h1, h2⟩ := noFile_of c _ (h e rfl)
    right
    have hb : d.attrs.nobits = false := by
      rcases hd with hd | hd
      · exact hd
      · rw [h2] at hd; cases hd
    unfold padsData
    simp [hb, h1, h2]

end Smlr.Exe
