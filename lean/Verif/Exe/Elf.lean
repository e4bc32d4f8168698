import Verif.Exe.Facts
set_option autoImplicit false
namespace Smlr.Exe
open Smlr.Sect

theorem rd16 (x : Nat) : (UInt8.ofNat x).toNat + 256 * (UInt8.ofNat (x / 256)).toNat = x % 65536 := by
  simp only [UInt8.toNat_ofNat']
  omega

theorem rd32 (x : Nat) : (UInt8.ofNat x).toNat + 256 * (UInt8.ofNat (x / 256)).toNat + 65536 * ((UInt8.ofNat (x / 65536)).toNat + 256 * (UInt8.ofNat (x / 16777216)).toNat) = x % 4294967296 := by
  simp only [UInt8.toNat_ofNat']
  omega

/-- the bytes of a segment -/
theorem seg_file (hdr out z b : Bytes) (H off fs pos d : Nat) (hh : hdr.length = H) (h1 : off + d = H + pos) (h2 : d + b.length ≤ fs) (h3 : pos + b.length ≤ out.length)
    (h4 : (out.drop pos).take b.length = b) : ((((hdr ++ out).drop off).take fs ++ z).drop d).take b.length = b := by
  have e1 : d ≤ (((hdr ++ out).drop off).take fs).length := by
    simp only [List.length_take, List.length_drop, List.length_append]
    omega
  rw [List.drop_append_of_le_length e1, List.drop_take, List.drop_drop, h1]
  have e2 : (hdr ++ out).drop (H + pos) = out.drop pos := by
    rw [← List.drop_drop, ← hh, List.drop_left]
  rw [e2, List.take_append_of_le_length, List.take_take, Nat.min_eq_left (by omega), h4]
  simp only [List.length_take, List.length_drop]
  omega

theorem seg_zero (x : Bytes) (m d n : Nat) (h1 : x.length ≤ d) (h2 : d + n ≤ x.length + m) : ((x ++ List.replicate m 0).drop d).take n = List.replicate n (0 : UInt8) := by
  rw [List.drop_append, List.drop_eq_nil_of_le h1, List.nil_append, List.drop_replicate, List.take_replicate, Nat.min_eq_left (by omega)]

/-- the part of the layout that the formats with pages use -/
structure Pages (c : Cfg) (ds : List Desc) (st : St) (A : Nat) : Prop where
  code2 : pg st.code.2 = A
  up : Exe.up st.code.2 = A
  lo : c.origin ≤ st.code.1
  hi : st.code.1 ≤ A
  mod : A % 4096 = 0
  lt : A < 2 ^ 32
  len : A ≤ c.origin + st.out.length
  exec : ∀ p ∈ st.placed, p.sec.attrs.exec = true → st.code.1 ≤ p.addr ∧ fin p ≤ A
  data : ∀ p ∈ st.placed, p.sec.attrs.exec = false → A ≤ p.addr ∧ fin p ≤ pg st.data.2
  noData : hasData ds = false → A = c.origin + st.out.length
  first : c.origin % 4096 = 0 → st.code.1 = c.origin
  start : hasData ds = true → st.data.1 = A ∧ A ≤ st.data.2 ∧ st.data.2 < 2 ^ 32

theorem up_eq (x : Nat) (h : pg x < 2 ^ 32) : up x = pg x := by
  have := le_pg x
  unfold up down pg at *
  rw [Nat.mod_eq_of_lt (by omega)]

theorem pages (c : Cfg) (ds : List Desc) (st : St) (hf : Facts c c.useBss ds st) (hp : Paged c.fmt) : ∃ A, Pages c ds st A := by
  obtain ⟨⟨ph, hi, -⟩, hm, hc, hd, hnd, hpx, hnb, hb⟩ := hf
  have hns := paged_small hp
  obtain ⟨c1, ⟨a, ha, ha'⟩, ⟨b, hb1, hb2⟩⟩ := hc
  simp only [List.mem_filter] at c1 ha hb1
  have hbf := hm.file hp (fun d hd => by cases hd) b hb1.1 (.inl (hpx b hb1.1 hb1.2))
  have hbe : fin b = st.code.2 := hb2
  rw [hbe] at hbf
  have hlt := hi.lt
  have horg : c.origin ≤ st.code.1 := by
    rw [← ha']
    exact (hi.good a ha.1).orig (.inl hns)
  have hle := le_pg st.code.2
  have hab : st.code.1 ≤ st.code.2 := by
    have := (c1 a ha).2
    omega
  have hdat : ∀ p ∈ st.placed, p.sec.attrs.exec = false → hasData ds = true := by
    intro p hp' he
    cases hh : hasData ds with
    | true => rfl
    | false =>
      rw [hnd hh p hp'] at he
      cases he
  obtain ⟨z, hz, hzf, hzl⟩ := hm.len hp (fun d hd => by cases hd)
  refine ⟨pg st.code.2, rfl, up_eq _ (by omega), horg, by omega, pg_mod _, by omega, hbf.2, ?_, ?_, ?_, ?_, ?_⟩
  · intro p hp' he
    have := c1 p ⟨hp', he⟩
    unfold fin
    omega
  · intro p hp' he
    refine ⟨?_, ?_⟩
    · have := hm.code hp b hb1.1 p hp' hb1.2 he
      rw [hbe] at this
      exact this
    · have := ((hd (hdat p hp' he)).1 p (List.mem_filter.2 ⟨hp', by simp [he]⟩)).2
      have h2 := le_pg st.data.2
      unfold fin
      omega
  · intro hh
    have h3 : pg (fin z) ≤ pg st.code.2 := pg_mono (c1 z ⟨hz, hnd hh z hz⟩).2
    omega
  · intro h0
    rcases hm.first hp h0 with ⟨h1, -⟩ | ⟨p, hp', hpa⟩
    · rw [h1] at hz
      cases hz
    · cases he : p.sec.attrs.exec with
      | true =>
        have := (c1 p ⟨hp', he⟩).1
        omega
      | false =>
        have := hm.code hp b hb1.1 p hp' hb1.2 he
        rw [hbe] at this
        have := (c1 a ha).1
        have := (c1 b hb1).1
        omega
  · intro hh
    obtain ⟨d1, ⟨x, hx, hx'⟩, ⟨y, hy, hy'⟩⟩ := hd hh
    simp only [List.mem_filter, Bool.not_eq_true'] at d1 hx hy
    obtain ⟨p, hp1, hp2, q, hq1, hq2, hq3⟩ := hm.adj hp ⟨x, hx.1, hx.2⟩
    have h1 := (d1 q ⟨hq1, hq2⟩).1
    have h2 := hm.code hp b hb1.1 x hx.1 hb1.2 hx.2
    have h3 : pg (fin p) ≤ pg st.code.2 := pg_mono (c1 p ⟨hp1, hp2⟩).2
    rw [hbe] at h2
    have h4 := (d1 x hx).2
    have h5 := (hi.good y hy.1).fits
    refine ⟨by omega, by omega, by omega⟩

/-- the size of the data in the file: up to `F` -/
theorem filesz_ok (c : Cfg) (ds : List Desc) (st : St) (A : Nat) (hf : Facts c c.useBss ds st) (hp : Paged c.fmt) (hP : Pages c ds st A) (hh : hasData ds = true) :
    ∃ F, dataFilesz c.useBss ds st = .ok (F - A) ∧ A ≤ F ∧ F ≤ pg st.data.2 ∧ F < 2 ^ 32 ∧ F = c.origin + st.out.length ∧ F % 4096 = 0 ∧
      (∀ p ∈ st.placed, FileA c p.sec.attrs → fin p ≤ F) ∧ (∀ p ∈ st.placed, ¬ FileA c p.sec.attrs → F ≤ p.addr) := by
  obtain ⟨⟨ph, hi, -⟩, hm, hc, hd, hnd, hpx, hnb, hb⟩ := hf
  obtain ⟨s1, s2, s3⟩ := hP.start hh
  have hmod := hP.mod
  have hdn : down st.data.1 = A := by rw [s1]; unfold down; omega
  have hlt := hi.lt
  obtain ⟨d1, -, ⟨y, hy, hy'⟩⟩ := hd hh
  simp only [List.mem_filter, Bool.not_eq_true'] at d1 hy
  have hy2 : fin y = st.data.2 := hy'
  have hAle : ∀ x, A ≤ x → A ≤ pg x := fun x hx => Nat.le_trans hx (le_pg x)
  have hsub : ∀ x, A ≤ x → x < 2 ^ 32 → sub32 x A = x - A := by
    intro x h1 h2
    unfold sub32
    omega
  obtain ⟨z, hz, hzf, hzl⟩ := hm.len hp (fun d hd => by cases hd)
  cases hbl : bssLast c.useBss ds with
  | false =>
    have hall := hnb hbl
    have h1 := hm.file hp (fun d hd => by cases hd) y hy.1 (hall y hy.1)
    rw [hy2] at h1
    have hze : pg (fin z) ≤ pg st.data.2 := by
      apply pg_mono
      cases he : z.sec.attrs.exec with
      | true =>
        have := (hP.exec z hz he).2
        omega
      | false => exact (d1 z ⟨hz, he⟩).2
    refine ⟨pg st.data.2, ?_, hAle _ s2, Nat.le_refl _, by omega, by omega, pg_mod _, ?_, fun p hp' hn => absurd (hall p hp') hn⟩
    · unfold dataFilesz
      rw [hbl, hdn, up_eq _ (by omega), hsub _ (hAle _ s2) (by omega)]
      rfl
    · intro p hp' _
      cases he : p.sec.attrs.exec with
      | true =>
        have := (hP.exec p hp' he).2
        have := hAle _ s2
        omega
      | false => exact (hP.data p hp' he).2
  | true =>
    obtain ⟨-, ⟨r, hr, hrn⟩, d, stop, g1, g2, ⟨q, hq, hqf, -, hqe⟩, -⟩ := hb hbl
    have hns := paged_small hp
    have g2' : ∀ p ∈ st.placed, FileA c p.sec.attrs → fin p ≤ stop := fun p hp' hpf => g2 p hp' hpf (fun h => absurd h hns)
    have h1 := hm.file hp (fun d hd => by cases hd) q hq hqf
    rw [hqe] at h1
    have hA : A ≤ pg stop := by
      obtain ⟨-, -, ⟨b, hb1, hb2⟩⟩ := hc
      simp only [List.mem_filter] at hb1
      have := g2' b hb1.1 (.inl (hpx b hb1.1 hb1.2))
      have h3 : fin b = st.code.2 := hb2
      rw [h3] at this
      rw [← hP.code2]
      exact pg_mono this
    have hre : r.sec.attrs.exec = false := by
      cases he : r.sec.attrs.exec with
      | false => rfl
      | true => exact absurd (.inl (hpx r hr he)) hrn
    have hrq := hm.bss hp q hq r hr hqf hrn
    rw [hqe] at hrq
    have hrd := (hP.data r hr hre).2
    have hze := pg_mono (g2' z hz hzf)
    refine ⟨pg stop, ?_, hA, by unfold fin at hrd; omega, by omega, by omega, pg_mod _, ?_, ?_⟩
    · unfold dataFilesz
      rw [hbl, g1, hdn]
      simp only [if_true]
      rw [up_eq stop (by omega), hsub _ hA (by omega)]
    · intro p hp' hpf
      have := g2' p hp' hpf
      have := le_pg stop
      omega
    · intro p hp' hpn
      have := hm.bss hp q hq p hp' hqf hpn
      rw [hqe] at this
      exact this

/-- the contents of the sections in the file -/
theorem in_file (c : Cfg) (st : St) (ph : Bool) (hi : Inv c ph st) (hns : c.fmt ≠ .dosExeSmall) (p : Place) (hp : p ∈ st.placed) (hf : FileA c p.sec.attrs)
    (hl : (contents p.sec).length = p.sec.size) :
    c.origin ≤ p.addr ∧ (p.addr - c.origin) + (contents p.sec).length ≤ st.out.length ∧ (st.out.drop (p.addr - c.origin)).take (contents p.sec).length = contents p.sec := by
  obtain ⟨-, h2, h3⟩ := (hi.good p hp).file hf
  have he : position c st.written p = p.addr - c.origin := by
    unfold position
    rw [if_neg (fun h => hns h.1)]
  rw [he] at h2 h3
  rw [hl]
  exact ⟨(hi.good p hp).orig (.inl hns), h2, h3⟩

end Smlr.Exe
