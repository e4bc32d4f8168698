import Verif.Exe.Elf
set_option autoImplicit false
namespace Smlr.Exe
open Smlr.Sect

theorem prepare_ok (c : Cfg) (sort : List Desc → List Desc) (ss : List Sec) (entry : Entry) (ds : List Desc) (st : St) (e : UInt32) (h : prepare c sort ss entry = .ok (ds, st, e)) :
    layout c sort ss = .ok (ds, st) ∧ entry ds st = .ok e := by
  unfold prepare at h
  cases hl : layout c sort ss with
  | error e => rw [hl] at h; cases h
  | ok x =>
    obtain ⟨ds', st'⟩ := x
    rw [hl] at h
    simp only at h
    cases he : entry ds' st' with
    | error e => rw [he] at h; cases h
    | ok e' =>
      rw [he] at h
      cases h
      exact ⟨rfl, he⟩

theorem length_of (c : Cfg) (sort : List Desc → List Desc) (ss : List Sec) (ds : List Desc) (st : St) (hs : Sorts sort) (hw : WF c ss) (hu : Uniform c ss)
    (h : layout c sort ss = .ok (ds, st)) (p : Place) (hp : p ∈ st.placed) : (contents p.sec).length = p.sec.size := by
  have hc := c32_complete c sort ss ds st hs hw hu h
  have hm : p.sec ∈ ss.filter (·.alloc) ++ made c := hc.mem_iff.1 (List.mem_map_of_mem hp)
  apply contents_length
  rcases List.mem_append.1 hm with hm | hm
  · exact (hw.2.2.2 _ (List.mem_filter.1 hm).1).2.2
  · unfold made at hm
    split at hm
    · rw [List.mem_singleton.1 hm]
      exact fun _ => rfl
    · cases hm

theorem uniform_of (c : Cfg) (ss : List Sec) (ho : Objects ss) (hf : c.fmt ≠ .dosExeUnreal) : Uniform c ss := ⟨ho.alloc, fun h => absurd h hf⟩

theorem u16_cons2 (a b : UInt8) (l : Bytes) (o : Nat) : u16 (a :: b :: l) (o + 2) = u16 l o := rfl
theorem u32_cons2 (a b : UInt8) (l : Bytes) (o : Nat) : u32 (a :: b :: l) (o + 2) = u32 l o := rfl
theorem u16_skip16 (x : Nat) (l : Bytes) (o : Nat) : u16 (le16 x ++ l) (o + 2) = u16 l o := rfl
theorem u16_skip32 (x : Nat) (l : Bytes) (o : Nat) : u16 (le32 x ++ l) (o + 4) = u16 l o := rfl
theorem u32_skip16 (x : Nat) (l : Bytes) (o : Nat) : u32 (le16 x ++ l) (o + 2) = u32 l o := rfl
theorem u32_skip32 (x : Nat) (l : Bytes) (o : Nat) : u32 (le32 x ++ l) (o + 4) = u32 l o := rfl
theorem u16_zero (x : Nat) (l : Bytes) : u16 (le16 x ++ l) 0 = x % 65536 := rd16 x
theorem u32_zero (x : Nat) (l : Bytes) : u32 (le32 x ++ l) 0 = x % 4294967296 := rd32 x

theorem hdr_len (a b z1 z2 z3 z4 z5 z6 z7 y1 y2 y3 y4 y5 y6 y7 : Nat) :
    (elfHeader a b ++ phdr z1 z2 z3 z4 z5 z6 z7 ++ phdr y1 y2 y3 y4 y5 y6 y7 ++ List.replicate (4096 - 116) 0).length = 4096 := by
  simp only [elfHeader, phdr, le16, le32, List.length_append, List.length_cons, List.length_nil, List.length_replicate]

/-- what the loader finds in the two program headers and in the header of a file -/
theorem elf_read (e n off1 ad1 fs1 ms1 fl1 off2 ad2 fs2 ms2 fl2 t2 al2 : Nat) (rest : Bytes) (f : Bytes)
    (hf : f = elfHeader e n ++ phdr 1 off1 ad1 fs1 ms1 fl1 4096 ++ phdr t2 off2 ad2 fs2 ms2 fl2 al2 ++ rest) :
    (f.take 7 = [0x7F, 0x45, 0x4C, 0x46, 1, 1, 1] ∧ u16 f 16 = 2 ∧ u16 f 18 = 3 ∧ u32 f 20 = 1 ∧ u16 f 40 = 52 ∧ u16 f 42 = 32) ∧
    u32 f 28 = 52 ∧ u16 f 44 = n % 65536 ∧ u32 f 24 = e % 4294967296 ∧
    (u32 f 52 = 1 ∧ u32 f 56 = off1 % 4294967296 ∧ u32 f 60 = ad1 % 4294967296 ∧ u32 f 68 = fs1 % 4294967296 ∧ u32 f 72 = ms1 % 4294967296 ∧ u32 f 76 = fl1 % 4294967296 ∧ u32 f 80 = 4096) ∧
    (u32 f 84 = t2 % 4294967296 ∧ u32 f 88 = off2 % 4294967296 ∧ u32 f 92 = ad2 % 4294967296 ∧ u32 f 100 = fs2 % 4294967296 ∧ u32 f 104 = ms2 % 4294967296 ∧ u32 f 108 = fl2 % 4294967296 ∧
      u32 f 112 = al2 % 4294967296) := by
  subst hf
  unfold elfHeader phdr
  simp only [List.append_assoc, List.cons_append, List.nil_append, u16_cons2, u32_cons2, u16_skip16, u16_skip32, u32_skip16, u32_skip32, u16_zero, u32_zero]
  simp

theorem loadSeg_ok (f : Bytes) (o off ad fs ms fl : Nat) (h0 : u32 f o = 1) (h1 : u32 f (o + 4) = off) (h2 : u32 f (o + 8) = ad) (h3 : u32 f (o + 16) = fs) (h4 : u32 f (o + 20) = ms)
    (h5 : u32 f (o + 24) = fl) (h6 : u32 f (o + 28) = 4096) (g1 : off % 4096 = ad % 4096) (g2 : fs ≤ ms) (g3 : off + fs ≤ f.length) (g4 : ad + ms ≤ 2 ^ 32) :
    loadSeg f o = some [⟨ad, (f.drop off).take fs ++ List.replicate (ms - fs) 0, fl / 4 % 2 = 1, fl / 2 % 2 = 1, fl % 2 = 1⟩] := by
  unfold loadSeg
  simp only [h0, h1, h2, h3, h4, h5, h6]
  rw [if_neg (by decide), if_pos ⟨trivial, trivial, g1, g2, g3, g4⟩]

/-- a section of the file in a segment -/
theorem holds_file (c : Cfg) (st : St) (ph : Bool) (hi : Inv c ph st) (hns : c.fmt ≠ .dosExeSmall) (base : Nat) (hb : c.origin = base + 4096) (hdr : Bytes) (hh : hdr.length = 4096)
    (z : Bytes) (S fs : Nat) (r w x : Bool) (hS : base ≤ S) (hlen : S - base + fs ≤ 4096 + st.out.length) (p : Place) (hp : p ∈ st.placed) (hf : FileA c p.sec.attrs) (hl : (contents p.sec).length = p.sec.size)
    (h1 : S ≤ p.addr) (h2 : fin p ≤ S + fs) :
    Seg.Holds ⟨S, ((hdr ++ st.out).drop (S - base)).take fs ++ z, r, w, x⟩ p.addr (contents p.sec) := by
  obtain ⟨f1, f2, f3⟩ := in_file c st ph hi hns p hp hf hl
  unfold fin at h2
  refine ⟨h1, ?_, ?_⟩
  · simp only [List.length_append, List.length_take, List.length_drop]
    omega
  · apply seg_file hdr st.out z (contents p.sec) 4096 (S - base) fs (p.addr - c.origin) (p.addr - S) hh
    · omega
    · omega
    · exact f2
    · exact f3

end Smlr.Exe
