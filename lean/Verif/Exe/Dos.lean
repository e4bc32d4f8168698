import Verif.Exe.Aout
set_option autoImplicit false
namespace Smlr.Exe
open Smlr.Sect

theorem mz_read (pp pc mi ma ss sp ip cs : Nat) (rest f : Bytes) (hf : f = mzHeader pp pc mi ma ss sp ip cs ++ rest) :
    u16 f 0 = 0x5A4D ∧ u16 f 2 = pp % 65536 ∧ u16 f 4 = pc % 65536 ∧ u16 f 6 = 0 ∧ u16 f 8 = 4 ∧ u16 f 10 = mi % 65536 ∧ u16 f 14 = ss % 65536 ∧ u16 f 16 = sp % 65536 ∧
    u16 f 20 = ip % 65536 ∧ u16 f 22 = cs % 65536 := by
  subst hf
  unfold mzHeader
  simp only [List.append_assoc, List.cons_append, List.nil_append]
  have h0 : ∀ l : Bytes, u16 (0x4D :: 0x5A :: l) 0 = 0x5A4D := fun l => (by decide +kernel : (0x4D : UInt8).toNat + 256 * (0x5A : UInt8).toNat = 0x5A4D)
  refine ⟨h0 _, ?_⟩
  simp only [u16_cons2, u16_skip16, u16_zero]
  simp

theorem mz_len (pp pc mi ma ss sp ip cs : Nat) : (mzHeader pp pc mi ma ss sp ip cs).length = 64 := by
  simp only [mzHeader, le16, le32, List.length_append, List.length_cons, List.length_nil, List.length_replicate]

/-- the loader accepts the file -/
theorem mz_load (fsz mi ma ss sp ip cs seg : Nat) (out f : Bytes) (hf : f = mzHeader (fsz % 512) ((fsz + 511) / 512) mi ma ss sp ip cs ++ out) (h1 : 64 ≤ fsz) (h2 : fsz ≤ 64 + out.length) (h3 : fsz < 2 ^ 24) :
    loadMz f seg = some ⟨out.take (fsz - 64), (fsz - 64 + 15) / 16 + mi % 65536, (seg + cs % 65536) % 65536, ip % 65536, (seg + ss % 65536) % 65536, sp % 65536⟩ := by
  obtain ⟨r0, r1, r2, r3, r4, r5, r6, r7, r8, r9⟩ := mz_read _ _ _ _ _ _ _ _ _ _ hf
  have hsz : mzSize f = fsz := by
    unfold mzSize
    rw [r1, r2]
    split <;> omega
  have hl : f.length = 64 + out.length := by rw [hf, List.length_append, mz_len]
  have hd : f.drop 64 = out := by
    rw [hf, ← mz_len (fsz % 512) ((fsz + 511) / 512) mi ma ss sp ip cs, List.drop_left]
  unfold loadMz
  rw [if_pos ⟨r0, r3, by rw [r4, hsz]; omega, by rw [hsz, hl]; omega⟩, r4, hsz, r5, r6, r7, r8, r9]
  simp only [show 4 * 16 = 64 from rfl, hd]

theorem pair_or {α : Type} {R : α → α → Prop} {l : List α} (h : l.Pairwise R) (p q : α) (hp : p ∈ l) (hq : q ∈ l) : p = q ∨ R p q ∨ R q p := by
  induction l with
  | nil => cases hp
  | cons a l ih =>
    obtain ⟨h1, h2⟩ := List.pairwise_cons.1 h
    rcases List.mem_cons.1 hp with rfl | hp
    · rcases List.mem_cons.1 hq with rfl | hq
      · exact .inl rfl
      · exact .inr (.inl (h1 q hq))
    · rcases List.mem_cons.1 hq with h | hq
      · exact .inr (.inr (h ▸ h1 p hp))
      · exact ih h2 hp hq

/-- code comes before data -/
theorem code_first (c : Cfg) (sort : List Desc → List Desc) (ss : List Sec) (ds : List Desc) (st : St) (hs : Sorts sort) (hw : WF c ss) (hu : Uniform c ss)
    (h : layout c sort ss = .ok (ds, st)) (hns : c.fmt ≠ .dosExeSmall) (p q : Place) (hp : p ∈ st.placed) (hq : q ∈ st.placed) (h1 : p.sec.attrs.exec = true) (h2 : q.sec.attrs.exec = false) : fin p ≤ q.addr := by
  have ho := c32_order c sort ss ds st hs hw hu h
  have hd := (c32_disjoint c sort ss ds st hs hw hu h).1
  rcases pair_or (ho.and hd) p q hp hq with rfl | h | h
  · rw [h1] at h2
    cases h2
  · exact h.2 (fun h => absurd h hns)
  · rw [h.1.1 h1] at h2
    cases h2

/-- the end of the program -/
theorem top_ok (c : Cfg) (sort : List Desc → List Desc) (ss : List Sec) (ds : List Desc) (st : St) (hs : Sorts sort) (hw : WF c ss) (hu : Uniform c ss)
    (h : layout c sort ss = .ok (ds, st)) (hns : c.fmt ≠ .dosExeSmall) (hf : Facts c c.useBss ds st) :
    (∀ p ∈ st.placed, fin p ≤ (if hasData ds then st.data.2 else st.code.2)) ∧ ∃ p ∈ st.placed, fin p = (if hasData ds then st.data.2 else st.code.2) := by
  obtain ⟨c1, -, ⟨b, hb, hb'⟩⟩ := hf.code
  simp only [List.mem_filter] at c1 hb
  cases hh : hasData ds with
  | false =>
    simp only [Bool.false_eq_true, if_false]
    exact ⟨fun p hp => (c1 p ⟨hp, hf.noData hh p hp⟩).2, b, hb.1, hb'⟩
  | true =>
    simp only [if_true]
    obtain ⟨d1, -, ⟨y, hy, hy'⟩⟩ := hf.data hh
    simp only [List.mem_filter, Bool.not_eq_true'] at d1 hy
    refine ⟨fun p hp => ?_, y, hy.1, hy'⟩
    cases he : p.sec.attrs.exec with
    | true =>
      have := code_first c sort ss ds st hs hw hu h hns p y hp hy.1 he hy.2
      omega
    | false => exact (d1 p ⟨hp, he⟩).2

/-- the end of the part in the file -/
theorem file_ok (c : Cfg) (ds : List Desc) (st : St) (hns : c.fmt ≠ .dosExeSmall) (hf : Facts c c.useBss ds st) (sz : Nat) (h1 : ∀ p ∈ st.placed, fin p ≤ sz) (h2 : ∃ p ∈ st.placed, fin p = sz) :
    ∃ fsz, hugeFile c.useBss ds st sz = .ok fsz ∧ (∀ p ∈ st.placed, FileA c p.sec.attrs → fin p ≤ fsz) ∧ ∃ p ∈ st.placed, FileA c p.sec.attrs ∧ fin p = fsz := by
  unfold hugeFile
  cases hb : bssLast c.useBss ds with
  | false =>
    obtain ⟨p, hp, hpe⟩ := h2
    exact ⟨sz, rfl, fun p hp _ => h1 p hp, p, hp, hf.noBss hb p hp, hpe⟩
  | true =>
    obtain ⟨-, -, d, stop, g1, g2, ⟨q, hq, hqf, -, hqe⟩, -⟩ := hf.bss hb
    refine ⟨stop, by rw [g1]; rfl, fun p hp hpf => g2 p hp hpf (fun h => absurd h hns), q, hq, hqf, hqe⟩

/-- a part of what is loaded -/
theorem at_take (m b : Bytes) (n pos : Nat) (h1 : pos + b.length ≤ n) (h2 : pos + b.length ≤ m.length) (h3 : (m.drop pos).take b.length = b) : At (m.take n) pos b := by
  refine ⟨by rw [List.length_take]; omega, ?_⟩
  rw [List.drop_take, List.take_take, Nat.min_eq_left (by omega), h3]

/-- where the sections are in the file after what comes first -/
theorem flat_places (c : Cfg) (ds : List Desc) (st : St) (hns : c.fmt ≠ .dosExeSmall) (hf : Facts c c.useBss ds st) (hlen : ∀ p ∈ st.placed, (contents p.sec).length = p.sec.size)
    (pre : Bytes) (base : Nat) (hb : base + pre.length = c.origin) (p : Place) (hp : p ∈ st.placed) :
    base ≤ p.addr ∧ (FileA c p.sec.attrs → At (pre ++ st.out) (p.addr - base) (contents p.sec)) ∧ (¬ FileA c p.sec.attrs → base + (pre ++ st.out).length ≤ p.addr) := by
  obtain ⟨ph, hi, -⟩ := hf.inv
  have h0 := (hi.good p hp).orig (.inl hns)
  refine ⟨by omega, fun h => ?_, fun h => ?_⟩
  · obtain ⟨-, f2, f3⟩ := in_file c st ph hi hns p hp h (hlen p hp)
    refine ⟨by rw [List.length_append]; omega, ?_⟩
    rw [show p.addr - base = pre.length + (p.addr - c.origin) by omega, ← List.drop_drop, List.drop_left]
    exact f3
  · have := hf.more.out p hp h
    unfold position at this
    rw [if_neg (fun h => hns h.1)] at this
    rw [List.length_append]
    omega

end Smlr.Exe
