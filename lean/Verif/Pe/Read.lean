import Verif.Pe.Spec
import Verif.Mach.Read
import Verif.Fixup.Table
set_option autoImplicit false
namespace Smlr.Pe
open Smlr.Sect (Bytes str)
open Smlr.Exe
open Smlr.Mach (u16_drop u32_drop u32_at u32_skip drop_step)

theorem u16_at (f g : Bytes) (o k : Nat) (h : f.drop o = g) : u16 f (o + k) = u16 g k := by rw [← h, u16_drop]

theorem n8_len (s : Bytes) (h : s.length ≤ 8) : (n8 s).length = 8 := by
  unfold n8
  rw [List.length_append, List.length_replicate]
  omega

theorem shdr_len (s : SHdr) (h : s.name.length ≤ 8) : s.bytes.length = 40 := by
  unfold SHdr.bytes
  simp only [List.length_append, n8_len _ h]
  rfl

theorem shdrs_len (hs : List SHdr) (h : ∀ s ∈ hs, s.name.length ≤ 8) : (hs.flatMap SHdr.bytes).length = hs.length * 40 := by
  induction hs with
  | nil => rfl
  | cons s hs ih =>
    rw [List.flatMap_cons, List.length_append, ih (fun t ht => h t (List.mem_cons_of_mem _ ht)), shdr_len _ (h s (List.mem_cons_self ..)), List.length_cons]
    omega

theorem le16_len (x : Nat) : (le16 x).length = 2 := rfl
theorem le32_len (x : Nat) : (le32 x).length = 4 := rfl
theorem dir_len (x : Nat × Nat) : (dir x).length = 8 := rfl

theorem opt_len (o : Opt) : (optHdr o).length = 224 := by
  unfold optHdr
  simp only [List.length_append, le16_len, le32_len, dir_len, List.length_cons, List.length_nil]
theorem fileHdr_len (n fl : Nat) : (fileHdr n fl).length = 20 := by
  simp only [fileHdr, le16, le32, List.length_append, List.length_cons, List.length_nil]
theorem stub_len : stub.length = 128 := by decide +kernel
theorem sig_len : (str "PE" ++ [0, 0]).length = 4 := by decide +kernel

theorem u16_append (t x : Bytes) (k : Nat) (h : k + 2 ≤ t.length) : u16 (t ++ x) k = u16 t k := by
  unfold u16
  simp only [List.getD_eq_getElem?_getD]
  rw [List.getElem?_append_left (by omega), List.getElem?_append_left (by omega)]

theorem shdr_read (f : Bytes) (o : Nat) (s : SHdr) (rest : Bytes) (hd : f.drop o = s.bytes ++ rest) (hn : s.name.length ≤ 8) :
    u32 f (o + 8) = s.h.vsize % 2 ^ 32 ∧ u32 f (o + 12) = s.h.va % 2 ^ 32 ∧ u32 f (o + 16) = s.h.raw % 2 ^ 32 ∧ u32 f (o + 20) = s.h.ptr % 2 ^ 32 ∧ u32 f (o + 36) = s.flags % 2 ^ 32 := by
  have hk : ∀ l o, u32 (n8 s.name ++ l) (o + 8) = u32 l o := fun l o => u32_skip _ _ _ _ (n8_len _ hn)
  rw [u32_at f _ o 8 hd, u32_at f _ o 12 hd, u32_at f _ o 16 hd, u32_at f _ o 20 hd, u32_at f _ o 36 hd]
  unfold SHdr.bytes
  simp only [List.append_assoc, hk _ 0, hk _ 4, hk _ 8, hk _ 12, hk _ 28, u32_skip32, u32_skip16, u32_zero]
  exact ⟨trivial, trivial, trivial, trivial, trivial⟩

/-- what the loader finds in the headers -/
theorem opt_read (f : Bytes) (b : Opt) (n fl : Nat) (rest : Bytes) (hf : f = stub ++ (str "PE" ++ [0, 0] ++ (fileHdr n fl ++ (optHdr b ++ rest)))) :
    u16 f 0 = 0x5A4D ∧ u32 f 60 = 128 ∧ u32 f 128 = 0x4550 ∧ u16 f 132 = 0x14C ∧ u16 f 134 = n % 65536 ∧ u16 f 148 = 224 ∧ u16 f 150 = fl % 65536 ∧
    u16 f 152 = 0x10B ∧ u32 f 168 = b.entry % 2 ^ 32 ∧ u32 f 180 = b.base % 2 ^ 32 ∧ u32 f 184 = 4096 ∧ u32 f 188 = 512 ∧ u32 f 208 = b.size % 2 ^ 32 ∧ u32 f 212 = 1024 ∧ u16 f 220 = 3 ∧
    u16 f 222 = b.flags % 65536 ∧ u32 f 244 = 16 ∧ u32 f 256 = b.imports.1 % 2 ^ 32 ∧ u32 f 260 = b.imports.2 % 2 ^ 32 ∧ u32 f 288 = b.relocs.1 % 2 ^ 32 ∧ u32 f 292 = b.relocs.2 % 2 ^ 32 ∧
    u32 f 344 = b.iats.1 % 2 ^ 32 ∧ u32 f 348 = b.iats.2 % 2 ^ 32 := by
  have d1 : f.drop 128 = str "PE" ++ [0, 0] ++ (fileHdr n fl ++ (optHdr b ++ rest)) := by rw [hf, ← stub_len, List.drop_left]
  have d2 : f.drop 132 = fileHdr n fl ++ (optHdr b ++ rest) := drop_step f _ _ 128 4 d1 sig_len
  have d3 : f.drop 152 = optHdr b ++ rest := drop_step f _ _ 132 20 d2 (fileHdr_len _ _)
  have e0 : u16 f 0 = 0x5A4D := by
    rw [hf, u16_append _ _ _ (by rw [stub_len]; decide)]
    decide +kernel
  have e1 : u32 f 60 = 128 := by
    rw [hf, Fixup.u32_append _ _ _ (by rw [stub_len]; decide)]
    decide +kernel
  have e2 : u32 f 128 = 0x4550 := by
    rw [u32_at f _ 128 0 d1, Fixup.u32_append _ _ _ (by rw [sig_len]; decide)]
    decide +kernel
  have a1 : u16 f 132 = u16 (fileHdr n fl ++ (optHdr b ++ rest)) 0 := u16_at f _ 132 0 d2
  have a2 : u16 f 134 = u16 (fileHdr n fl ++ (optHdr b ++ rest)) 2 := u16_at f _ 132 2 d2
  have a3 : u16 f 148 = u16 (fileHdr n fl ++ (optHdr b ++ rest)) 16 := u16_at f _ 132 16 d2
  have a4 : u16 f 150 = u16 (fileHdr n fl ++ (optHdr b ++ rest)) 18 := u16_at f _ 132 18 d2
  have b1 : u16 f 152 = u16 (optHdr b ++ rest) 0 := u16_at f _ 152 0 d3
  have b2 : u16 f 220 = u16 (optHdr b ++ rest) 68 := u16_at f _ 152 68 d3
  have b3 : u16 f 222 = u16 (optHdr b ++ rest) 70 := u16_at f _ 152 70 d3
  have c1 : ∀ k, u32 f (152 + k) = u32 (optHdr b ++ rest) k := fun k => u32_at f _ 152 k d3
  rw [e0, e1, e2, a1, a2, a3, a4, b1, b2, b3, c1 16, c1 28, c1 32, c1 36, c1 56, c1 60, c1 92, c1 104, c1 108, c1 136, c1 140, c1 192, c1 196]
  clear c1 b1 b2 b3 a1 a2 a3 a4 e0 e1 e2 d1 d2 d3 hf
  unfold fileHdr optHdr dir
  simp only [List.append_assoc, List.cons_append, List.nil_append, u16_cons2, u32_cons2, u16_skip16, u16_skip32, u32_skip16, u32_skip32, u16_zero, u32_zero]
  simp

/-- the sections are where they must be -/
def Fit (f : Bytes) : Nat → List SHdr → Nat → Prop
  | va, [], e => va = e
  | va, s :: hs, e => s.h.va = va ∧ s.h.raw % 512 = 0 ∧ s.h.ptr % 512 = 0 ∧ s.h.ptr + s.h.raw ≤ f.length ∧ s.h.raw ≤ pages s.h.vsize ∧
      s.name.length ≤ 8 ∧ s.h.va < 2 ^ 32 ∧ s.h.vsize < 2 ^ 32 ∧ s.h.raw < 2 ^ 32 ∧ s.h.ptr < 2 ^ 32 ∧ s.flags < 2 ^ 32 ∧ Fit f (va + pages s.h.vsize) hs e

def seg (f : Bytes) (base : Nat) (s : SHdr) : Seg :=
  ⟨base + s.h.va, (f.drop s.h.ptr).take s.h.raw ++ List.replicate (pages s.h.vsize - s.h.raw) 0, s.flags / 2 ^ 30 % 2 = 1, s.flags / 2 ^ 31 % 2 = 1, s.flags / 2 ^ 29 % 2 = 1⟩

theorem segments_ok (f : Bytes) (base : Nat) (rest : Bytes) (e : Nat) (hs : List SHdr) : ∀ o va, f.drop o = hs.flatMap SHdr.bytes ++ rest → Fit f va hs e →
    segments f base o hs.length va = some (hs.map (seg f base), e) := by
  induction hs with
  | nil =>
    intro o va _ h
    have h : va = e := h
    subst h
    rfl
  | cons s hs ih =>
    intro o va hd h
    obtain ⟨h1, h2, h3, h4, h5, h6, h7, h8, h9, h10, h11, h12⟩ := h
    rw [List.flatMap_cons, List.append_assoc] at hd
    obtain ⟨r1, r2, r3, r4, r5⟩ := shdr_read f o s _ hd h6
    rw [Nat.mod_eq_of_lt h8] at r1
    rw [Nat.mod_eq_of_lt h7] at r2
    rw [Nat.mod_eq_of_lt h9] at r3
    rw [Nat.mod_eq_of_lt h10] at r4
    rw [Nat.mod_eq_of_lt h11] at r5
    rw [List.length_cons]
    unfold segments
    simp only [r1, r2, r3, r4, r5]
    rw [if_pos ⟨h1, h2, h3, h4, h5⟩, ih (o + 40) _ (drop_step f _ _ o 40 hd (shdr_len s h6)) h12]
    simp only [List.map_cons]
    unfold seg
    rw [h1]

theorem seg_len (f : Bytes) (base : Nat) (s : SHdr) (h1 : s.h.ptr + s.h.raw ≤ f.length) (h2 : s.h.raw ≤ pages s.h.vsize) : (seg f base s).bytes.length = pages s.h.vsize := by
  unfold seg
  simp only [List.length_append, List.length_take, List.length_drop, List.length_replicate]
  omega

theorem fit_le (f : Bytes) (hs : List SHdr) : ∀ va e, Fit f va hs e → va ≤ e ∧ ∀ s ∈ hs, va ≤ s.h.va := by
  induction hs with
  | nil =>
    intro va e h
    have h : va = e := h
    exact ⟨by omega, fun s hs => by cases hs⟩
  | cons s hs ih =>
    intro va e h
    obtain ⟨h1, -, -, -, -, -, -, -, -, -, -, h12⟩ := h
    obtain ⟨i1, i2⟩ := ih _ _ h12
    refine ⟨by omega, ?_⟩
    intro t ht
    rcases List.mem_cons.1 ht with h | h
    · rw [h]; omega
    · have := i2 t h
      omega

theorem fit_separate (f : Bytes) (base : Nat) (hb : base % 4096 = 0) (hs : List SHdr) : ∀ va e, va % 4096 = 0 → Fit f va hs e → Separate (hs.map (seg f base)) := by
  induction hs with
  | nil =>
    intro va e _ _
    exact List.Pairwise.nil
  | cons s hs ih =>
    intro va e hm h
    obtain ⟨h1, -, -, h4, h5, -, -, -, -, -, -, h12⟩ := h
    have hp : pages s.h.vsize % 4096 = 0 := by unfold pages; omega
    refine List.Pairwise.cons ?_ (ih _ e (by omega) h12)
    intro t ht
    obtain ⟨u, hu, rfl⟩ := List.mem_map.1 ht
    have := (fit_le f hs _ _ h12).2 u hu
    rw [seg_len f base s h4 h5]
    show (base + s.h.va + pages s.h.vsize + 4095) / 4096 ≤ (base + u.h.va) / 4096
    omega

/-- what is in the file from `pos` is in memory -/
theorem seg_holds (f : Bytes) (base : Nat) (s : SHdr) (a : Nat) (b : Bytes) (h1 : base + s.h.va ≤ a) (h2 : a - (base + s.h.va) + b.length ≤ s.h.raw) (h3 : s.h.ptr + s.h.raw ≤ f.length)
    (h4 : (f.drop (s.h.ptr + (a - (base + s.h.va)))).take b.length = b) : (seg f base s).Holds a b := by
  refine ⟨h1, ?_, ?_⟩
  · unfold seg
    simp only [List.length_append, List.length_take, List.length_drop]
    omega
  · show (((f.drop s.h.ptr).take s.h.raw ++ _).drop (a - (base + s.h.va))).take b.length = b
    rw [List.drop_append_of_le_length (by simp only [List.length_take, List.length_drop]; omega), List.drop_take, List.drop_drop,
      List.take_append_of_le_length (by simp only [List.length_take, List.length_drop]; omega), List.take_take, Nat.min_eq_left (by omega), h4]

/-- zeros -/
theorem seg_zeros (f : Bytes) (base : Nat) (s : SHdr) (a n : Nat) (h1 : base + s.h.va + s.h.raw ≤ a) (h2 : a + n ≤ base + s.h.va + pages s.h.vsize) (h3 : s.h.ptr + s.h.raw ≤ f.length)
    (h5 : s.h.raw ≤ pages s.h.vsize) : (seg f base s).Holds a (List.replicate n 0) := by
  have hl := seg_len f base s h3 h5
  refine ⟨by show base + s.h.va ≤ a; omega, ?_, ?_⟩
  · rw [hl, List.length_replicate]
    show a - (base + s.h.va) + n ≤ _
    omega
  · rw [List.length_replicate]
    apply seg_zero
    · simp only [List.length_take, List.length_drop]
      show _ ≤ a - (base + s.h.va)
      omega
    · simp only [List.length_take, List.length_drop]
      show a - (base + s.h.va) + n ≤ _
      omega

/-- loading a file with these headers -/
theorem load_ok (f : Bytes) (o : Opt) (fl : Nat) (hs : List SHdr) (rest : Bytes) (e : Nat) (hf : f = header o fl hs ++ rest) (hn : hs.length ≤ 5)
    (h2 : fl / 2 % 2 = 1) (h3 : fl / 2 ^ 13 % 2 = 0) (h4 : fl < 65536) (hb : o.base % 65536 = 0) (hbl : o.base < 2 ^ 32)
    (hsz : o.size = e) (he : o.base + e ≤ 2 ^ 32) (hel : e < 2 ^ 32) (hfit : Fit f 4096 hs e) (hlen : 1024 ≤ f.length) :
    load f = some ⟨o.base, (o.base + o.entry % 2 ^ 32) % 2 ^ 32, hs.map (seg f o.base), fl % 2 = 1, o.flags % 65536 / 64 % 2 = 1, (o.relocs.1 % 2 ^ 32, o.relocs.2 % 2 ^ 32),
      (o.imports.1 % 2 ^ 32, o.imports.2 % 2 ^ 32), (o.iats.1 % 2 ^ 32, o.iats.2 % 2 ^ 32)⟩ := by
  obtain ⟨sig, hsig⟩ : ∃ x, x = str "PE" ++ [(0 : UInt8), 0] := ⟨_, rfl⟩
  unfold header at hf
  rw [← hsig] at hf
  simp only [List.append_assoc] at hf
  rw [hsig] at hf
  obtain ⟨r1, r2, r3, r4, r5, r6, r7, r8, r9, r10, r11, r12, r13, r14, r15, r16, r17, r18, r19, r20, r21, r22, r23⟩ := opt_read f o hs.length fl _ hf
  have d1 := (congrArg (List.drop stub.length) hf).trans List.drop_left
  rw [stub_len] at d1
  have d2 := drop_step f _ _ 128 4 d1 sig_len
  have d3 := drop_step f _ _ 132 20 d2 (fileHdr_len _ _)
  have d4 := drop_step f _ _ 152 224 d3 (opt_len _)
  have hseg := segments_ok f o.base _ e hs 376 4096 d4 hfit
  unfold load
  simp only [r2, Nat.reduceAdd, r1, r3, r4, r5, r6, r7, r8, r9, r10, r11, r12, r13, r14, r15, r16, r17, r18, r19, r20, r21, r22, r23]
  rw [Nat.mod_eq_of_lt (a := hs.length) (by omega), Nat.mod_eq_of_lt h4, Nat.mod_eq_of_lt hbl]
  rw [if_pos ⟨trivial, trivial, trivial, trivial, h2, h3, trivial, hb, trivial, trivial, by decide, by omega, hlen, trivial, trivial⟩]
  rw [show pages 1024 = 4096 by decide, hseg]
  simp only
  rw [if_pos ⟨by rw [hsz, Nat.mod_eq_of_lt hel], he⟩]

end Smlr.Pe
