import Verif.Exe.Dos
set_option autoImplicit false
namespace Smlr.Exe
open Smlr.Sect

/-- **C53.** The ELF file that the linker writes is loaded by the system with every section at its address, its contents as they must be, code in a segment that is executed and not written,
the rest in one that is written and not executed, and starts at the entry point. -/
theorem c53_elf (useBss : Bool) (org : Nat) (sort : List Desc → List Desc) (ss : List Sec) (entry : Entry) (file : Bytes) (hs : Sorts sort) (ho : Objects ss) (hor : org < 2 ^ 32)
    (h : rwElf useBss org sort ss entry = .ok file) :
    ∃ ds st e img, layout (elfCfg useBss org) sort ss = .ok (ds, st) ∧ entry ds st = .ok e ∧ loadElf file = some img ∧ img.entry = e.toNat ∧ Separate img.segs ∧
      ∀ p ∈ st.placed, ∃ s ∈ img.segs, s.Holds p.addr (contents p.sec) ∧ s.r = true ∧ s.x = p.sec.attrs.exec ∧ s.w = !p.sec.attrs.exec := by
  unfold rwElf at h
  split at h
  · cases h
  · rename_i hbase
    have hbm : elfBase org % 4096 = 0 := by
      unfold elfBase down
      split
      · rfl
      · omega
    cases hpr : prepare (elfCfg useBss org) sort ss entry with
    | error e => rw [hpr] at h; cases h
    | ok x =>
      obtain ⟨ds, st, e⟩ := x
      obtain ⟨hl, he⟩ := prepare_ok _ _ _ _ _ _ _ hpr
      rw [hpr] at h
      simp only at h
      have hc0 : (elfCfg useBss org).origin = elfBase org + 4096 := rfl
      have hw : WF (elfCfg useBss org) ss := ⟨by rw [hc0]; omega, (by intro h; cases h), (show 0 < 2 ^ 32 by decide), ho.sizes⟩
      have hu : Uniform (elfCfg useBss org) ss := uniform_of _ _ ho (by intro h; cases h)
      have hF : Facts (elfCfg useBss org) (elfCfg useBss org).useBss ds st := facts _ sort ss ds st hs hw hu (by intro h; cases h) hl
      have hP : Paged (elfCfg useBss org).fmt := .inr (.inl rfl)
      obtain ⟨A, hA⟩ := pages _ ds st hF hP
      have hlen := length_of _ sort ss ds st hs hw hu hl
      obtain ⟨ph, hi, -⟩ := hF.inv
      have hns : (elfCfg useBss org).fmt ≠ .dosExeSmall := by intro h; cases h
      have a1 := hA.lo
      have a2 := hA.hi
      have a3 := hA.mod
      have a4 := hA.lt
      have a5 := hA.len
      rw [hc0] at a1 a5
      have hd1 : down st.code.1 % 4096 = 0 ∧ elfBase org + 4096 ≤ down st.code.1 ∧ down st.code.1 ≤ st.code.1 := by
        unfold down
        omega
      have hoff1 : sub32 (down st.code.1) (elfBase org) = down st.code.1 - elfBase org := by unfold sub32; omega
      have hfs1 : sub32 (up st.code.2) (down st.code.1) = A - down st.code.1 := by rw [hA.up]; unfold sub32; omega
      have hemod : e.toNat % 4294967296 = e.toNat := Nat.mod_eq_of_lt e.toNat_lt
      obtain ⟨hdr, hhdr⟩ : ∃ x, x = fun n t2 off2 ad2 fs2 ms2 fl2 al2 : Nat => elfHeader e.toNat n ++
          phdr 1 (down st.code.1 - elfBase org) (down st.code.1) (A - down st.code.1) (A - down st.code.1) 5 4096 ++ phdr t2 off2 ad2 fs2 ms2 fl2 al2 ++ List.replicate (4096 - 116) 0 := ⟨_, rfl⟩
      have hhl : ∀ n t2 off2 ad2 fs2 ms2 fl2 al2, (hdr n t2 off2 ad2 fs2 ms2 fl2 al2).length = 4096 := by
        intro n t2 off2 ad2 fs2 ms2 fl2 al2
        rw [hhdr]
        exact hdr_len _ _ _ _ _ _ _ _ _ _ _ _ _ _ _ _
      have hrd := fun n t2 off2 ad2 fs2 ms2 fl2 al2 => elf_read e.toNat n (down st.code.1 - elfBase org) (down st.code.1) (A - down st.code.1) (A - down st.code.1) 5 off2 ad2 fs2 ms2 fl2 t2 al2
        (List.replicate (4096 - 116) 0 ++ st.out) (hdr n t2 off2 ad2 fs2 ms2 fl2 al2 ++ st.out) (by rw [hhdr]; simp only [List.append_assoc])
      have hcode : ∀ n t2 off2 ad2 fs2 ms2 fl2 al2, loadSeg (hdr n t2 off2 ad2 fs2 ms2 fl2 al2 ++ st.out) 52 =
          some [⟨down st.code.1, ((hdr n t2 off2 ad2 fs2 ms2 fl2 al2 ++ st.out).drop (down st.code.1 - elfBase org)).take (A - down st.code.1) ++ List.replicate 0 0, true, false, true⟩] := by
        intro n t2 off2 ad2 fs2 ms2 fl2 al2
        obtain ⟨-, -, -, -, ⟨r1, r2, r3, r4, r5, r6, r7⟩, -⟩ := hrd n t2 off2 ad2 fs2 ms2 fl2 al2
        have := loadSeg_ok (hdr n t2 off2 ad2 fs2 ms2 fl2 al2 ++ st.out) 52 (down st.code.1 - elfBase org) (down st.code.1) (A - down st.code.1) (A - down st.code.1) 5
          r1 (by rw [r2]; omega) (by rw [r3]; omega) (by rw [r4]; omega) (by rw [r5]; omega) (by rw [r6]) r7 (by omega) (Nat.le_refl _)
          (by rw [List.length_append, hhl]; omega) (by omega)
        rw [this, Nat.sub_self]
        rfl
      have hchold : ∀ n t2 off2 ad2 fs2 ms2 fl2 al2, ∀ p ∈ st.placed, p.sec.attrs.exec = true →
          Seg.Holds ⟨down st.code.1, ((hdr n t2 off2 ad2 fs2 ms2 fl2 al2 ++ st.out).drop (down st.code.1 - elfBase org)).take (A - down st.code.1) ++ List.replicate 0 0, true, false, true⟩
            p.addr (contents p.sec) := by
        intro n t2 off2 ad2 fs2 ms2 fl2 al2 p hp hpe
        have := hA.exec p hp hpe
        exact holds_file _ st ph hi hns (elfBase org) hc0 _ (hhl _ _ _ _ _ _ _ _) _ _ _ _ _ _ (by omega) (by omega) p hp (.inl (hF.px p hp hpe)) (hlen p hp) (by omega) (by omega)
      cases hh : hasData ds with
      | false =>
        unfold dataPhdr at h
        rw [hh] at h
        simp only [Bool.false_eq_true, if_false] at h
        injection h with h
        have hfile : file = hdr 1 0 0 0 0 0 0 0 ++ st.out := by
          rw [← h, hhdr]
          unfold codePhdr
          rw [hoff1, hfs1]
          rfl
        obtain ⟨r1, r2, r3, r4, -⟩ := hrd 1 0 0 0 0 0 0 0
        refine ⟨ds, st, e, ⟨e.toNat,
            [⟨down st.code.1, ((hdr 1 0 0 0 0 0 0 0 ++ st.out).drop (down st.code.1 - elfBase org)).take (A - down st.code.1) ++ List.replicate 0 0, true, false, true⟩]⟩, hl, he, ?_, rfl, ?_, ?_⟩
        · rw [hfile]
          unfold loadElf
          rw [if_pos ⟨r1.1, r1.2.1, r1.2.2.1, r1.2.2.2.1, r1.2.2.2.2.1, r1.2.2.2.2.2, by rw [r2, r3, List.length_append, hhl]; omega⟩, r2, r3, r4, hemod]
          simp only [loadSegs, hcode, List.append_nil]
        · exact List.pairwise_singleton _ _
        · intro p hp
          have hpe := hF.noData hh p hp
          exact ⟨_, List.mem_singleton.2 rfl, hchold _ _ _ _ _ _ _ _ p hp hpe, rfl, by rw [hpe], by rw [hpe]; rfl⟩
      | true =>
        obtain ⟨F, k1, k2, k3, k4, k5, k6, k7, k8⟩ := filesz_ok _ ds st A hF hP hA hh
        obtain ⟨s1, s2, s3⟩ := hA.start hh
        rw [hc0] at k5
        have k1' : dataFilesz useBss ds st = .ok (F - A) := k1
        have hdn : down st.data.1 = A := by rw [s1]; unfold down; omega
        have hms : sub32 (up st.data.2) A = pg st.data.2 - A := by
          unfold up down pg sub32
          omega
        have hpl : pg st.data.2 ≤ 2 ^ 32 := by
          unfold pg
          omega
        unfold dataPhdr at h
        rw [hh, k1', hdn, hms] at h
        simp only [if_true] at h
        have hoff2 : sub32 A (elfBase org) = A - elfBase org := by unfold sub32; omega
        rw [hoff2] at h
        injection h with h
        have hfile : file = hdr 2 1 (A - elfBase org) A (F - A) (pg st.data.2 - A) 6 4096 ++ st.out := by
          rw [← h, hhdr]
          unfold codePhdr
          rw [hoff1, hfs1]
        obtain ⟨r1, r2, r3, r4, -, ⟨q1, q2, q3, q4, q5, q6, q7⟩⟩ := hrd 2 1 (A - elfBase org) A (F - A) (pg st.data.2 - A) 6 4096
        have hseg := loadSeg_ok (hdr 2 1 (A - elfBase org) A (F - A) (pg st.data.2 - A) 6 4096 ++ st.out) 84 (A - elfBase org) A (F - A) (pg st.data.2 - A) 6
          (by rw [q1]) (by rw [q2]; omega) (by rw [q3]; omega) (by rw [q4]; omega) (by rw [q5]; omega) (by rw [q6]) (by rw [q7]) (by omega) (by omega)
          (by rw [List.length_append, hhl]; omega) (by omega)
        refine ⟨ds, st, e, ⟨e.toNat,
            [⟨down st.code.1, ((hdr 2 1 (A - elfBase org) A (F - A) (pg st.data.2 - A) 6 4096 ++ st.out).drop (down st.code.1 - elfBase org)).take (A - down st.code.1) ++ List.replicate 0 0, true, false, true⟩,
            ⟨A, ((hdr 2 1 (A - elfBase org) A (F - A) (pg st.data.2 - A) 6 4096 ++ st.out).drop (A - elfBase org)).take (F - A) ++ List.replicate (pg st.data.2 - A - (F - A)) 0, true, true, false⟩]⟩, hl, he, ?_, rfl, ?_, ?_⟩
        · rw [hfile]
          unfold loadElf
          rw [if_pos ⟨r1.1, r1.2.1, r1.2.2.1, r1.2.2.2.1, r1.2.2.2.2.1, r1.2.2.2.2.2, by rw [r2, r3, List.length_append, hhl]; omega⟩, r2, r3, r4, hemod]
          simp only [loadSegs, hcode, hseg, List.append_nil]
          rfl
        · apply List.pairwise_cons.2 ⟨?_, List.pairwise_singleton _ _⟩
          intro t ht
          rw [List.mem_singleton.1 ht]
          simp only [List.length_append, List.length_take, List.length_drop, List.length_replicate, hhl]
          omega
        · intro p hp
          cases hpe : p.sec.attrs.exec with
          | true => exact ⟨_, List.mem_cons_self .., hchold _ _ _ _ _ _ _ _ p hp hpe, rfl, rfl, rfl⟩
          | false =>
            refine ⟨_, List.mem_cons_of_mem _ (List.mem_singleton.2 rfl), ?_, rfl, rfl, rfl⟩
            obtain ⟨b1, b2⟩ := hA.data p hp hpe
            by_cases hfa : FileA (elfCfg useBss org) p.sec.attrs
            · have := k7 p hp hfa
              exact holds_file _ st ph hi hns (elfBase org) hc0 _ (hhl _ _ _ _ _ _ _ _) _ _ _ _ _ _ (by omega) (by omega) p hp hfa (hlen p hp) (by omega) (by omega)
            · have h8 := k8 p hp hfa
              obtain ⟨n1, n2⟩ := noFile_of _ _ hfa
              have hl' := hlen p hp
              have hcon : contents p.sec = List.replicate p.sec.size 0 := by unfold contents; rw [n1]; rfl
              have hbl : (((hdr 2 1 (A - elfBase org) A (F - A) (pg st.data.2 - A) 6 4096 ++ st.out).drop (A - elfBase org)).take (F - A)).length = F - A := by
                simp only [List.length_append, List.length_take, List.length_drop, hhl]
                omega
              unfold fin at b2
              refine ⟨b1, ?_, ?_⟩
              · rw [List.length_append, List.length_replicate, hbl, hl']
                simp only
                omega
              · rw [hl', hcon]
                apply seg_zero
                · rw [hbl]
                  simp only
                  omega
                · rw [hbl]
                  simp only
                  omega

/-- **C53.** The a.out file is loaded with every section at its address and with its contents, code in the text part and the rest after it, starts at the entry point, and the relocation tables
are where the header says.  Missing from the full claim: no section may have an alignment above a page, and there must be some code. -/
theorem c53_aout_partial (useBss : Bool) (sort : List Desc → List Desc) (ss : List Sec) (entry : Entry) (rels : St → Bytes × Bytes) (file : Bytes) (hs : Sorts sort) (ho : Objects ss)
    (hal : ∀ s ∈ ss, s.align ≤ 4096) (hcode : ∃ s ∈ ss, s.alloc = true ∧ s.attrs.exec = true ∧ 0 < s.size) (hr : ∀ st, (rels st).1.length < 2 ^ 32 ∧ (rels st).2.length < 2 ^ 32)
    (h : rwAout useBss sort ss entry rels = .ok file) :
    ∃ ds st e img, layout (aoutCfg useBss) sort ss = .ok (ds, st) ∧ entry ds st = .ok e ∧ loadAout file = some img ∧ img.entry = e.toNat ∧
      (∀ p ∈ st.placed, At img.mem p.addr (contents p.sec) ∧ (if p.sec.attrs.exec then p.addr + p.sec.size ≤ img.text else img.text ≤ p.addr)) ∧
      img.trel = (rels st).1 ∧ img.drel = (rels st).2 := by
  unfold rwAout at h
  cases hpr : prepare (aoutCfg useBss) sort ss entry with
  | error e => rw [hpr] at h; cases h
  | ok x =>
    obtain ⟨ds, st, e⟩ := x
    obtain ⟨hl, he⟩ := prepare_ok _ _ _ _ _ _ _ hpr
    rw [hpr] at h
    simp only at h
    have hw : WF (aoutCfg useBss) ss := ⟨(show 0 < 2 ^ 32 by decide), (by intro h; cases h), (show 0 < 2 ^ 32 by decide), ho.sizes⟩
    have hu : Uniform (aoutCfg useBss) ss := uniform_of _ _ ho (by intro h; cases h)
    have hF : Facts (aoutCfg useBss) (aoutCfg useBss).useBss ds st := facts _ sort ss ds st hs hw hu (fun _ => hal) hl
    have hP : Paged (aoutCfg useBss).fmt := .inr (.inr (.inl rfl))
    obtain ⟨A, hA⟩ := pages _ ds st hF hP
    have hlen := length_of _ sort ss ds st hs hw hu hl
    obtain ⟨ph, hi, -⟩ := hF.inv
    have hns : (aoutCfg useBss).fmt ≠ .dosExeSmall := by intro h; cases h
    have hc1 : st.code.1 = 0 := hA.first rfl
    have hdn : down st.code.1 = 0 := by rw [hc1]; rfl
    have hA0 : 0 < A := by
      obtain ⟨s, hs1, hs2, hs3, hs4⟩ := hcode
      have hc := c32_complete _ sort ss ds st hs hw hu hl
      have hm := hc.mem_iff.2 (List.mem_append_left (made (aoutCfg useBss)) (List.mem_filter.2 ⟨hs1, hs2⟩))
      obtain ⟨p, hp, rfl⟩ := List.mem_map.1 hm
      have := (hA.exec p hp hs3).2
      unfold fin at this
      omega
    have hAlt := hA.lt
    obtain ⟨F, E, k1, k2, k3, k4, k5, k6, k7⟩ := aout_sizes _ ds st A hF hP hA hA0 rfl
    have k1' : aoutData useBss ds st = .ok (F - A, E - F) := k1
    have ht : sub32 (up st.code.2) (down st.code.1) = A := by
      rw [hdn, hA.up]
      unfold sub32
      omega
    rw [k1', ht] at h
    simp only at h
    injection h with h
    have hfile : file = aoutHeader A (F - A) (E - F) e.toNat (rels st).1.length (rels st).2.length ++ (st.out ++ ((rels st).1 ++ (rels st).2)) := by
      rw [← h]
      simp only [List.append_assoc]
    obtain ⟨r1, r2, r3, r4, r5, r6, r7, r8⟩ := aout_read _ _ _ _ _ _ _ _ hfile
    obtain ⟨hr1, hr2⟩ := hr st
    have hflen : file.length = 32 + (st.out.length + ((rels st).1.length + (rels st).2.length)) := by
      rw [hfile, List.length_append, aout_len, List.length_append, List.length_append]
    have hd32 : file.drop 32 = st.out ++ ((rels st).1 ++ (rels st).2) := by
      rw [hfile, ← aout_len A (F - A) (E - F) e.toNat (rels st).1.length (rels st).2.length, List.drop_left]
    have he32 : e.toNat < 2 ^ 32 := e.toNat_lt
    rw [Nat.mod_eq_of_lt (by omega)] at r3 r4 r5 r6 r7 r8
    have hAF : A + (F - A) = F := by omega
    have hdF : file.drop (32 + F) = (rels st).1 ++ (rels st).2 := by
      rw [← List.drop_drop, hd32, k6, List.drop_left]
    refine ⟨ds, st, e, ⟨e.toNat, A, st.out ++ List.replicate (E - F) 0, (rels st).1, (rels st).2⟩, hl, he, ?_, rfl, ?_, rfl, rfl⟩
    · unfold loadAout
      rw [if_pos ⟨r1, r2, by rw [r3, r4, r7, r8, hflen]; omega, by rw [r3, r4, r5]; omega⟩, r3, r4, r5, r6, r7, r8, hd32, hAF]
      rw [show 32 + A + (F - A) = 32 + F by omega, show 32 + F + (rels st).1.length = (32 + F) + (rels st).1.length from rfl, ← List.drop_drop (l := file) (j := 32 + F), hdF, k6, List.take_left, List.take_left, List.drop_left,
        List.take_of_length_le (Nat.le_refl _)]
    · intro p hp
      obtain ⟨g1, g2, g3⟩ := k7 p hp
      have hl' := hlen p hp
      unfold fin at g1 g2
      refine ⟨?_, ?_⟩
      · by_cases hfa : FileA (aoutCfg useBss) p.sec.attrs
        · obtain ⟨-, f2, f3⟩ := in_file _ st ph hi hns p hp hfa hl'
          have h0 : p.addr - (aoutCfg useBss).origin = p.addr := rfl
          rw [h0] at f2 f3
          refine ⟨by simp only [List.length_append]; omega, ?_⟩
          rw [List.drop_append_of_le_length (by omega), List.take_append_of_le_length (by rw [List.length_drop]; omega), f3]
        · have hcon : contents p.sec = List.replicate p.sec.size 0 := by unfold contents; rw [(noFile_of _ _ hfa).1]; rfl
          have := g3 hfa
          refine ⟨by simp only [List.length_append, List.length_replicate]; omega, ?_⟩
          rw [hl', hcon]
          apply seg_zero <;> omega
      · cases hpe : p.sec.attrs.exec with
        | true =>
          simp only [if_true]
          exact (hA.exec p hp hpe).2
        | false =>
          simp only [Bool.false_eq_true, if_false]
          exact (hA.data p hp hpe).1

/-- where a flat file is loaded: after the PSP, or where `-origin` says -/
def flatBase (fmt : Fmt) (org : Nat) : Nat := if fmt = .dosComTiny then 0x100 else if org = 0xFFFFFFFF then 0 else org

/-- the stack that `-stack` asks for -/
def stackOf (dflt stack : Nat) : Nat := if stack = 0xFFFFFFFF then dflt else stack

def flatCfg (fmt : Fmt) (useBss : Bool) (origin hdr : Nat) : Cfg := ⟨fmt, useBss, origin, hdr, []⟩

theorem flat_core (fmt : Fmt) (hfm : fmt = .dosComTiny ∨ fmt = .flat16 ∨ fmt = .flat32) (useBss : Bool) (origin hdr stackStart : Nat) (sort : List Desc → List Desc) (ss : List Sec) (ds : List Desc) (st : St)
    (hs : Sorts sort) (ho : Objects ss) (h : layout (flatCfg fmt useBss origin hdr) sort ss = .ok (ds, st)) (hor : origin < 2 ^ 32) (hcl : collides fmt ds st stackStart = false) (pre : Bytes) (base : Nat)
    (hb : base + pre.length = origin) (p : Place) (hp : p ∈ st.placed) :
    base ≤ p.addr ∧ (if p.sec.attrs.nobits = false ∨ useBss = false then At (pre ++ st.out) (p.addr - base) (contents p.sec) else base + (pre ++ st.out).length ≤ p.addr) ∧
      (fmt ≠ .flat32 → p.addr + p.sec.size ≤ 0x10000) ∧ (fmt = .dosComTiny → p.addr + p.sec.size ≤ stackStart) := by
  have hns : (flatCfg fmt useBss origin hdr).fmt ≠ .dosExeSmall := by rcases hfm with rfl | rfl | rfl <;> (intro h; cases h)
  have hw : WF (flatCfg fmt useBss origin hdr) ss := ⟨hor, fun h => absurd h hns, (show 0 < 2 ^ 32 by decide), ho.sizes⟩
  have hu : Uniform (flatCfg fmt useBss origin hdr) ss := uniform_of _ _ ho (by rcases hfm with rfl | rfl | rfl <;> (intro h; cases h))
  have hF : Facts (flatCfg fmt useBss origin hdr) (flatCfg fmt useBss origin hdr).useBss ds st := facts _ sort ss ds st hs hw hu (by rcases hfm with rfl | rfl | rfl <;> (intro h; cases h)) h
  obtain ⟨g1, g2, g3⟩ := flat_places _ ds st hns hF (length_of _ sort ss ds st hs hw hu h) pre base hb p hp
  obtain ⟨ph, hi, -⟩ := hF.inv
  refine ⟨g1, ?_, fun hn => (hi.good p hp).fits16 ?_, fun hc => ?_⟩
  · split
    · rename_i h; exact g2 h
    · rename_i h; exact g3 h
  · rcases hfm with rfl | rfl | rfl
    · rfl
    · rfl
    · exact absurd rfl hn
  · have ht := (top_ok _ sort ss ds st hs hw hu h hns hF).1 p hp
    unfold fin at ht
    unfold collides at hcl
    rw [Bool.and_eq_false_iff, decide_eq_false_iff_not, decide_eq_false_iff_not] at hcl
    rcases hcl with hcl | hcl
    · exact absurd hc hcl
    · omega

/-- **C53.** A flat or .COM file, loaded as it is at its base, has every section at its address, and the uninitialised ones after the end of the file; execution comes to the entry point from the first
byte; the addresses of 16-bit programs are of 16 bits, and a .COM program ends below its stack. -/
theorem c53_flat (fmt : Fmt) (hfm : fmt = .dosComTiny ∨ fmt = .flat16 ∨ fmt = .flat32) (useBss : Bool) (org stack : Nat) (sort : List Desc → List Desc) (ss : List Sec) (entry : Entry) (file : Bytes)
    (hs : Sorts sort) (ho : Objects ss) (hor : org < 2 ^ 32) (h : rwFlat fmt useBss org stack sort ss entry = .ok file) :
    ∃ origin hdr ds st e, layout (flatCfg fmt useBss origin hdr) sort ss = .ok (ds, st) ∧ entry ds st = .ok e ∧ Starts (decide (fmt = .flat32)) file (flatBase fmt org) e.toNat ∧
      (∀ p ∈ st.placed, flatBase fmt org ≤ p.addr ∧
        (if p.sec.attrs.nobits = false ∨ useBss = false then At file (p.addr - flatBase fmt org) (contents p.sec) else flatBase fmt org + file.length ≤ p.addr) ∧
        (fmt ≠ .flat32 → p.addr + p.sec.size ≤ 0x10000) ∧ (fmt = .dosComTiny → p.addr + p.sec.size + stackOf 8192 stack ≤ 0xFFFC)) ∧
      (fmt = .dosComTiny → 4096 ≤ stackOf 8192 stack) := by
  unfold rwFlat at h
  cases hse : flatSetup fmt org stack with
  | error e => rw [hse] at h; cases h
  | ok x =>
    obtain ⟨origin, stackStart⟩ := x
    rw [hse] at h
    simp only at h
    have hset : origin = flatBase fmt org ∧ origin < 2 ^ 32 ∧ (fmt = .dosComTiny → stackStart + stackOf 8192 stack = 0xFFFC ∧ 4096 ≤ stackOf 8192 stack) := by
      unfold flatSetup at hse
      simp only at hse
      obtain ⟨S, hS⟩ : ∃ x, x = stackOf 8192 stack := ⟨_, rfl⟩
      have hS' : (if stack = 0xFFFFFFFF then 8192 else stack) = S := hS.symm
      obtain ⟨O, hO⟩ : ∃ x, x = (if org = 0xFFFFFFFF then 0 else org) := ⟨_, rfl⟩
      rw [hS', ← hO] at hse
      rw [← hS]
      unfold flatBase
      rw [← hO]
      have hO2 : O < 2 ^ 32 := by rw [hO]; split <;> omega
      split at hse
      · rename_i hc
        rw [if_pos hc]
        split at hse
        · cases hse
        · split at hse
          · cases hse
          · injection hse with hse
            injection hse with h1 h2
            exact ⟨h1.symm, by omega, fun _ => by omega⟩
      · rename_i hc
        rw [if_neg hc]
        split at hse
        · cases hse
        · injection hse with hse
          injection hse with h1 h2
          exact ⟨h1.symm, by omega, fun h => absurd h hc⟩
    obtain ⟨rfl, hob, hst⟩ := hset
    cases hpr : prepare ⟨fmt, useBss, flatBase fmt org, 0, []⟩ sort ss entry with
    | error e => rw [hpr] at h; cases h
    | ok x =>
      obtain ⟨ds, st, e⟩ := x
      rw [hpr] at h
      simp only at h
      split at h
      · unfold flatJump at h
        simp only at h
        split at h
        · cases h
        · rename_i hno
          split at h
          · cases h
          · obtain ⟨J, hJ⟩ : ∃ J, J = jumpSize fmt := ⟨_, rfl⟩
            have hJ5 : (fmt = .flat32 → J = 5) ∧ (fmt ≠ .flat32 → J = 3) := by
              rw [hJ]
              unfold jumpSize
              split <;> simp_all
            rw [← hJ] at h hno
            have hJle : J = 5 ∨ J = 3 := by
              by_cases hf : fmt = .flat32
              · exact .inl (hJ5.1 hf)
              · exact .inr (hJ5.2 hf)
            have hno' : (flatBase fmt org + J) % 2 ^ 32 = flatBase fmt org + J := by omega
            rw [hno'] at h
            cases hpr2 : prepare ⟨fmt, useBss, flatBase fmt org + J, J, []⟩ sort ss entry with
            | error e => rw [hpr2] at h; cases h
            | ok x =>
              obtain ⟨ds, st, e⟩ := x
              obtain ⟨hl, he⟩ := prepare_ok _ _ _ _ _ _ _ hpr2
              rw [hpr2] at h
              simp only at h
              split at h
              · cases h
              · rename_i hcl
                injection h with h
                have hpl : ((0xE9 : UInt8) :: (le32 (sub32 e.toNat (flatBase fmt org + J))).take (J - 1)).length = J := by
                  simp only [List.length_cons, List.length_take, le32, le16, List.length_append, List.length_nil]
                  omega
                have he32 := e.toNat_lt
                refine ⟨flatBase fmt org + J, J, ds, st, e, hl, he, .inr ⟨by rw [← h]; rfl, ?_⟩, ?_, fun hc => (hst hc).2⟩
                · by_cases hf : fmt = .flat32
                  · have hJe := hJ5.1 hf
                    rw [decide_eq_true hf, if_pos rfl, ← h, hJe]
                    have : u32 ((0xE9 :: (le32 (sub32 e.toNat (flatBase fmt org + 5))).take (5 - 1)) ++ st.out) 1 = sub32 e.toNat (flatBase fmt org + 5) % 4294967296 :=
                      rd32 (sub32 e.toNat (flatBase fmt org + 5))
                    rw [this]
                    unfold sub32
                    omega
                  · have hJe := hJ5.2 hf
                    rw [decide_eq_false hf, if_neg (by simp), ← h, hJe]
                    have : u16 ((0xE9 :: (le32 (sub32 e.toNat (flatBase fmt org + 3))).take (3 - 1)) ++ st.out) 1 = sub32 e.toNat (flatBase fmt org + 3) % 65536 :=
                      rd16 (sub32 e.toNat (flatBase fmt org + 3))
                    rw [this]
                    unfold sub32
                    omega
                · intro p hp
                  obtain ⟨k1, k2, k3, k4⟩ := flat_core fmt hfm useBss (flatBase fmt org + J) J stackStart sort ss ds st hs ho hl (by omega) (by simpa using hcl) _ (flatBase fmt org) (by rw [hpl]) p hp
                  rw [h] at k2
                  exact ⟨k1, k2, k3, fun hc => by have := k4 hc; have := (hst hc).1; omega⟩
      · rename_i hne
        split at h
        · cases h
        · rename_i hcl
          injection h with h
          obtain ⟨hl, he⟩ := prepare_ok _ _ _ _ _ _ _ hpr
          refine ⟨flatBase fmt org, 0, ds, st, e, hl, he, .inl (by omega), ?_, fun hc => (hst hc).2⟩
          intro p hp
          obtain ⟨k1, k2, k3, k4⟩ := flat_core fmt hfm useBss (flatBase fmt org) 0 stackStart sort ss ds st hs ho hl hob (by simpa using hcl) [] (flatBase fmt org) rfl p hp
          rw [List.nil_append, h] at k2
          exact ⟨k1, k2, k3, fun hc => by have := k4 hc; have := (hst hc).1; omega⟩

def hugeCfg (unreal useBss : Bool) (relod : Bytes) : Cfg := ⟨if unreal then .dosExeUnreal else .dosExeHuge, useBss, 64, 64, relod⟩

/-- **C53.** DOS loads a huge or unreal .EXE file at any paragraph `seg` where there is room, with every section at its address from there, the uninitialised ones after what is loaded and before the stack,
all in memory that the program owns; execution starts at the entry point. -/
theorem c53_huge (unreal useBss : Bool) (relod : Bytes) (stack : Nat) (sort : List Desc → List Desc) (ss : List Sec) (entry : Entry) (file : Bytes)
    (hs : Sorts sort) (ho : Objects ss) (hr : relod.length < 2 ^ 32) (hre : unreal = true → ∀ s ∈ ss, s.name = str ".relod" → s.alloc = true)
    (h : rwHuge unreal useBss relod stack sort ss entry = .ok file) :
    ∃ ds st e, layout (hugeCfg unreal useBss relod) sort ss = .ok (ds, st) ∧ entry ds st = .ok e ∧ ∀ seg, ∃ img, loadMz file seg = some img ∧ (seg + img.owned ≤ 65536 →
      (∀ p ∈ st.placed, 64 ≤ p.addr ∧ (if p.sec.attrs.nobits = false ∨ useBss = false then At img.mem (p.addr - 64) (contents p.sec) else img.mem.length ≤ p.addr - 64) ∧
        ((p.addr + p.sec.size : Nat) : Int) - 64 ≤ rel seg img.ss 0 ∧ (p.addr ≤ e.toNat → e.toNat ≤ p.addr + p.sec.size → rel seg img.cs img.ip = (e.toNat : Int) - 64)) ∧
      img.sp = stackOf 32768 stack ∧ 8192 ≤ img.sp ∧ rel seg img.ss img.sp ≤ 16 * img.owned) := by
  unfold rwHuge at h
  simp only at h
  obtain ⟨S, hS⟩ : ∃ x, x = stackOf 32768 stack := ⟨_, rfl⟩
  have hS' : (if stack = 0xFFFFFFFF then 32768 else stack) = S := hS.symm
  rw [hS'] at h
  split at h
  · cases h
  · rename_i hs1
    split at h
    · cases h
    · rename_i hs2
      cases hpr : prepare ⟨if unreal then .dosExeUnreal else .dosExeHuge, useBss, 64, 64, relod⟩ sort ss entry with
      | error e => rw [hpr] at h; cases h
      | ok x =>
        obtain ⟨ds, st, e⟩ := x
        obtain ⟨hl, he⟩ := prepare_ok _ _ _ _ _ _ _ hpr
        rw [hpr] at h
        simp only at h
        have hl : layout (hugeCfg unreal useBss relod) sort ss = .ok (ds, st) := hl
        have hns : (hugeCfg unreal useBss relod).fmt ≠ .dosExeSmall := by cases unreal <;> (intro h; cases h)
        have hw : WF (hugeCfg unreal useBss relod) ss := ⟨(show 64 < 2 ^ 32 by decide), fun h => absurd h hns, hr, ho.sizes⟩
        have hu : Uniform (hugeCfg unreal useBss relod) ss := ⟨ho.alloc, fun h => hre (by cases unreal with | true => rfl | false => cases h)⟩
        have hF : Facts (hugeCfg unreal useBss relod) (hugeCfg unreal useBss relod).useBss ds st := facts _ sort ss ds st hs hw hu (by cases unreal <;> (intro h; cases h)) hl
        have hlen := length_of _ sort ss ds st hs hw hu hl
        obtain ⟨t1, t2⟩ := top_ok _ sort ss ds st hs hw hu hl hns hF
        obtain ⟨SZ, hSZ⟩ : ∃ x, x = (if hasData ds then st.data.2 else st.code.2) := ⟨_, rfl⟩
        rw [← hSZ] at t1 t2 h
        split at h
        · cases h
        · rename_i hsz
          obtain ⟨fsz, k1, k2, ⟨q, hq, hqf, hqe⟩⟩ := file_ok _ ds st hns hF SZ t1 t2
          have k1 : hugeFile useBss ds st SZ = .ok fsz := k1
          rw [k1] at h
          simp only at h
          injection h with h
          have hpl := flat_places _ ds st hns hF hlen [] 64 rfl
          obtain ⟨q1, q2, -⟩ := hpl q hq
          have q3 := (q2 hqf).1
          rw [List.nil_append, hlen q hq] at q3
          have hqt := t1 q hq
          have hfo : fsz ≤ 64 + st.out.length := by unfold fin at hqe; omega
          have hfl : 64 ≤ fsz := by unfold fin at hqe; omega
          refine ⟨ds, st, e, hl, he, fun seg => ⟨_, mz_load fsz _ _ _ _ _ _ seg st.out file h.symm hfl hfo (by omega), ?_⟩⟩
          simp only
          intro hroom
          have hha : hugeAlloc SZ fsz S = (SZ - fsz + 15) / 16 + (S + 15) / 16 + 1 := by
            unfold hugeAlloc sub32
            omega
          rw [hha] at hroom ⊢
          have hss : sub32 ((SZ + 15) / 16) 4 = (SZ + 15) / 16 - 4 := by unfold sub32; omega
          rw [hss]
          have hssm : (seg + ((SZ + 15) / 16 - 4) % 65536) % 65536 = seg + ((SZ + 15) / 16 - 4) := by omega
          rw [hssm]
          rw [← hS]
          refine ⟨?_, by omega, by omega, by unfold rel; omega⟩
          intro p hp
          obtain ⟨p1, p2, p3⟩ := hpl p hp
          have pt := t1 p hp
          have hlp := hlen p hp
          rw [List.nil_append] at p2 p3
          unfold fin at pt
          refine ⟨p1, ?_, by unfold rel; omega, ?_⟩
          · split
            · rename_i hf
              obtain ⟨r1, r2⟩ := p2 hf
              have := k2 p hp hf
              unfold fin at this
              exact at_take _ _ _ _ (by omega) r1 r2
            · rename_i hf
              have := p3 hf
              rw [List.length_take]
              omega
          · intro h1 h2
            have hcs : sub32 (e.toNat / 16) 4 = e.toNat / 16 - 4 := by unfold sub32; omega
            rw [hcs]
            unfold rel
            omega

def smallCfg (useBss : Bool) : Cfg := ⟨.dosExeSmall, useBss, 64, 64, []⟩

/-- **C53.** DOS loads a small .EXE file at any paragraph `seg` where there is room so that its code is at its addresses in the segment of `cs` and its data at its addresses in the segment of `ss`, all
64 KB of which the program owns; the code ends before that segment and the data below the stack; execution starts at the entry point. -/
theorem c53_small (useBss : Bool) (stack : Nat) (sort : List Desc → List Desc) (ss : List Sec) (entry : Entry) (file : Bytes) (hs : Sorts sort) (ho : Objects ss)
    (h : rwSmall useBss stack sort ss entry = .ok file) :
    ∃ ds st e, layout (smallCfg useBss) sort ss = .ok (ds, st) ∧ entry ds st = .ok e ∧ ∀ seg, 4 ≤ seg → ∃ img, loadMz file seg = some img ∧ (seg + img.owned ≤ 65536 →
      (∀ p ∈ st.placed, ∃ a : Nat, (a : Int) = rel seg (if p.sec.attrs.exec then img.cs else img.ss) p.addr ∧
        (if p.sec.attrs.nobits = false ∨ useBss = false then At img.mem a (contents p.sec) else img.mem.length ≤ a) ∧
        (if p.sec.attrs.exec then ((a + p.sec.size : Nat) : Int) ≤ rel seg img.ss 0 else p.addr + p.sec.size + stackOf 8192 stack ≤ img.sp) ∧
        (p.sec.attrs.exec = true → p.addr ≤ e.toNat → e.toNat < p.addr + p.sec.size → img.ip = e.toNat)) ∧
      img.sp = 0xFFFC ∧ 4096 ≤ stackOf 8192 stack ∧ rel seg img.ss 0x10000 ≤ 16 * img.owned) := by
  unfold rwSmall at h
  simp only at h
  obtain ⟨S, hS⟩ : ∃ x, x = stackOf 8192 stack := ⟨_, rfl⟩
  have hS' : (if stack = 0xFFFFFFFF then 8192 else stack) = S := hS.symm
  rw [hS'] at h
  split at h
  · cases h
  · rename_i hs1
    split at h
    · cases h
    · rename_i hs2
      cases hpr : prepare ⟨.dosExeSmall, useBss, 64, 64, []⟩ sort ss entry with
      | error e => rw [hpr] at h; cases h
      | ok x =>
        obtain ⟨ds, st, e⟩ := x
        obtain ⟨hl, he⟩ := prepare_ok _ _ _ _ _ _ _ hpr
        rw [hpr] at h
        simp only at h
        have hl : layout (smallCfg useBss) sort ss = .ok (ds, st) := hl
        have hw : WF (smallCfg useBss) ss := ⟨(show 64 < 2 ^ 32 by decide), fun _ => (show 64 ≤ 0x10000 by decide), (show 0 < 2 ^ 32 by decide), ho.sizes⟩
        have hu : Uniform (smallCfg useBss) ss := uniform_of _ _ ho (by intro h; cases h)
        have hF : Facts (smallCfg useBss) (smallCfg useBss).useBss ds st := facts _ sort ss ds st hs hw hu (by intro h; cases h) hl
        have hlen := length_of _ sort ss ds st hs hw hu hl
        obtain ⟨ph, hi, hph⟩ := hF.inv
        obtain ⟨m1, ⟨b, hb, hbe, hb'⟩, m3, m4, m5⟩ := hF.more.small rfl (by intro d hd; cases hd)
        have hor : (smallCfg useBss).origin = 64 := rfl
        rw [hor] at m1 hb' m3
        obtain ⟨c1, -, ⟨y, hy, hy'⟩⟩ := hF.code
        simp only [List.mem_filter] at c1 hy
        have hyg := hi.good y hy.1
        have y1 := hyg.orig (.inr hy.2)
        have y2 := hyg.fits16 rfl
        rw [hor] at y1
        have y3 := m1 y hy.1 hy.2
        have b1 := (c1 b ⟨hb, hbe⟩).2
        unfold fin at hb' y3
        obtain ⟨W, hW⟩ : ∃ x, x = st.written := ⟨_, rfl⟩
        rw [← hW] at m1 hb' m3 m4 m5 y3
        have hP : (st.code.2 + 15) / 16 * 16 = 64 + W := by omega
        obtain ⟨SZ, hSZ⟩ : ∃ x, x = (if hasData ds then st.data.2 else st.code.2) := ⟨_, rfl⟩
        rw [← hSZ] at h
        split at h
        · cases h
        · rename_i hsk
          have hdata : ∀ p ∈ st.placed, p.sec.attrs.exec = false → p.addr + p.sec.size ≤ 0xFFFC - S := by
            intro p hp hpe
            cases hh : hasData ds with
            | false => rw [hF.noData hh p hp] at hpe; cases hpe
            | true =>
              rw [hh] at hSZ
              simp only [if_true] at hSZ
              have := ((hF.data hh).1 p (List.mem_filter.2 ⟨hp, by rw [hpe]; rfl⟩)).2
              omega
          have hpos : ∀ p ∈ st.placed, position (smallCfg useBss) st.written p = if p.sec.attrs.exec then p.addr - 64 else W + p.addr := by
            intro p _
            unfold position
            cases p.sec.attrs.exec with
            | true => simp [smallCfg]
            | false => simp [smallCfg, hW]
          have hfile : ∀ p ∈ st.placed, FileA (smallCfg useBss) p.sec.attrs → p.sec.attrs.exec = false → W + (p.addr + p.sec.size) ≤ st.out.length := by
            intro p hp hf hpe
            have := ((hi.good p hp).file hf).2.1
            rw [hpos p hp, hpe] at this
            simp only [Bool.false_eq_true, if_false] at this
            omega
          have hsizes : ∃ dsz, smallSizes useBss ds st = .ok (64 + W + dsz, dsz) ∧ dsz ≤ 0x10000 ∧ W + dsz ≤ st.out.length ∧
              ∀ p ∈ st.placed, FileA (smallCfg useBss) p.sec.attrs → p.sec.attrs.exec = false → p.addr + p.sec.size ≤ dsz := by
            unfold smallSizes
            simp only
            rw [hP]
            cases hbl : bssLast useBss ds with
            | false =>
              simp only [Bool.false_eq_true, if_false]
              cases hh : hasData ds with
              | false => exact ⟨0, by simp, by omega, by omega, fun p hp _ hpe => by rw [hF.noData hh p hp] at hpe; cases hpe⟩
              | true =>
                obtain ⟨d1, -, ⟨z, hz, hz'⟩⟩ := hF.data hh
                simp only [List.mem_filter, Bool.not_eq_true'] at d1 hz
                have := hdata z hz.1 hz.2
                have := hfile z hz.1 (hF.noBss hbl z hz.1) hz.2
                exact ⟨st.data.2, by simp, by omega, by omega, fun p hp _ hpe => (d1 p ⟨hp, hpe⟩).2⟩
            | true =>
              simp only [if_true]
              obtain ⟨-, ⟨r, hr, hrn⟩, d, stop, g1, g2, ⟨q, hq, hqf, hqd, hqe⟩, g4⟩ := hF.bss hbl
              rw [g1]
              cases hde : d.attrs.exec with
              | false =>
                rw [hde] at hqd
                have := hdata q hq hqd
                have := hfile q hq hqf hqd
                unfold fin at hqe
                exact ⟨stop, by simp [hde], by omega, by omega, fun p hp hf hpe => g2 p hp hf (fun _ => by rw [hpe, hde])⟩
              | true =>
                have hrx : r.sec.attrs.exec = false := by
                  cases hx : r.sec.attrs.exec with
                  | false => rfl
                  | true => exact absurd (.inl (hF.px r hr hx)) hrn
                have := m5 (.inr ⟨r, hr, hrx⟩)
                exact ⟨4, by simp [hde], by omega, by omega, fun p hp hf hpe => by rw [g4 hde p hp hf] at hpe; cases hpe⟩
          obtain ⟨dsz, s1, s2, s3, s4⟩ := hsizes
          rw [s1] at h
          simp only at h
          injection h with h
          refine ⟨ds, st, e, hl, he, fun seg hseg => ⟨_, mz_load (64 + W + dsz) _ _ _ _ _ _ seg st.out file h.symm (by omega) (by omega) (by omega), ?_⟩⟩
          simp only
          intro hroom
          have ha : sub32 4096 (dsz / 16) = 4096 - dsz / 16 := by unfold sub32; omega
          rw [ha] at hroom ⊢
          have hss : sub32 ((st.code.2 + 15) / 16) 4 = W / 16 := by unfold sub32; omega
          rw [hss]
          have hssm : (seg + W / 16 % 65536) % 65536 = seg + W / 16 := by omega
          have hcsm : (seg + (0xFFFF - 4 + 1) % 65536) % 65536 = seg - 4 := by omega
          rw [hssm, hcsm, ← hS]
          refine ⟨?_, trivial, by omega, by unfold rel; omega⟩
          intro p hp
          have hlp := hlen p hp
          have hg := hi.good p hp
          cases hpe : p.sec.attrs.exec with
          | true =>
            have o1 := hg.orig (.inr hpe)
            rw [hor] at o1
            have hfa : FileA (smallCfg useBss) p.sec.attrs := .inl (hF.px p hp hpe)
            obtain ⟨-, f2, f3⟩ := hg.file hfa
            rw [hpos p hp, hpe] at f2 f3
            simp only [if_true] at f2 f3
            have hm := m1 p hp hpe
            unfold fin at hm
            refine ⟨p.addr - 64, by simp only [if_true]; unfold rel; omega, ?_, by simp only [if_true]; unfold rel; omega, fun _ h1 h2 => ?_⟩
            · rw [if_pos (show p.sec.attrs.nobits = false ∨ useBss = false from hfa)]
              exact at_take _ _ _ _ (by omega) (by omega) (by rw [hlp]; exact f3)
            · have := hg.fits16 rfl
              omega
          | false =>
            have hd := hdata p hp hpe
            refine ⟨W + p.addr, by simp only [Bool.false_eq_true, if_false]; unfold rel; omega, ?_, by simp only [Bool.false_eq_true, if_false]; omega, fun h => by cases h⟩
            split
            · rename_i hfa
              obtain ⟨-, f2, f3⟩ := hg.file hfa
              rw [hpos p hp, hpe] at f2 f3
              simp only [Bool.false_eq_true, if_false] at f2 f3
              have := s4 p hp hfa hpe
              exact at_take _ _ _ _ (by omega) (by omega) (by rw [hlp]; exact f3)
            · rename_i hfa
              have := hF.more.out p hp hfa
              rw [hpos p hp, hpe] at this
              simp only [Bool.false_eq_true, if_false] at this
              rw [List.length_take]
              omega

/-! ### Cases -/

theorem sample_objects : Objects sample := ⟨by decide, by decide⟩

/-- an entry point that is not where the code starts -/
def third : Entry := fun _ st => .ok (UInt32.ofNat (st.code.1 + 2))

/-- the entry point and the segments; 1, 2 and 4 stand for x, w and r -/
def segsOf (f : Bytes) : Option (List Nat) :=
  (loadElf f).map fun i => i.entry :: i.segs.flatMap fun s => [s.addr, s.bytes.length, s.x.toNat + 2 * s.w.toNat + 4 * s.r.toNat]

example : (rwElf true 0xFFFFFFFF isort sample third).toOption.bind segsOf = some [0x8049002, 0x8049000, 4096, 5, 0x804A000, 8192, 6] := by decide +kernel

example : ∃ file ds st e img, rwElf true 0xFFFFFFFF isort sample third = .ok file ∧ layout (elfCfg true 0xFFFFFFFF) isort sample = .ok (ds, st) ∧ third ds st = .ok e ∧ loadElf file = some img ∧
    st.placed.length = 7 ∧ ∀ p ∈ st.placed, ∃ s ∈ img.segs, s.Holds p.addr (contents p.sec) := by
  cases h : rwElf true 0xFFFFFFFF isort sample third with
  | error e =>
    have : (rwElf true 0xFFFFFFFF isort sample third).toOption.isSome = true := by decide +kernel
    rw [h] at this
    cases this
  | ok file =>
    obtain ⟨ds, st, e, img, h1, h2, h3, -, -, h6⟩ := c53_elf true 0xFFFFFFFF isort sample third file sorts_isort sample_objects (by decide) h
    refine ⟨file, ds, st, e, img, rfl, h1, h2, h3, ?_, fun p hp => ?_⟩
    · have hx : (layout (elfCfg true 0xFFFFFFFF) isort sample).toOption.map (fun x => x.2.placed.length) = some 7 := by decide +kernel
      rw [h1] at hx
      exact Option.some.inj hx
    · obtain ⟨s, hs, hh, -⟩ := h6 p hp
      exact ⟨s, hs, hh⟩

example : (rwAout true isort sample third (fun _ => ([7, 8], [9]))).toOption.bind (fun f => (loadAout f).map fun i => ([i.entry, i.text, i.mem.length], i.trel, i.drel)) =
    some ([2, 4096, 12288], [7, 8], [9]) ∧ (∀ s ∈ sample, s.align ≤ 4096) ∧ ∃ s ∈ sample, s.alloc = true ∧ s.attrs.exec = true ∧ 0 < s.size :=
  ⟨by decide +kernel, by decide, by decide⟩

example : (rwFlat .dosComTiny true 0 0xFFFFFFFF isort sample third).toOption = some [0xE9, 2, 0, 0x90, 0x90, 0xC3, 0xC3, 9, 1, 2, 3] ∧
    (rwFlat .flat32 true 0 0xFFFFFFFF isort sample third).toOption = some [0xE9, 2, 0, 0, 0, 0x90, 0x90, 0xC3, 0xC3, 9, 0, 0, 1, 2, 3] ∧
    (rwFlat .flat16 true 0x7C00 0 isort sample (fun _ st => .ok (UInt32.ofNat st.code.1))).toOption = some [0x90, 0x90, 0xC3, 0xCC, 0xC3, 9, 0, 0, 1, 2, 3] :=
  ⟨by decide +kernel, by decide +kernel, by decide +kernel⟩

def dosOf (f : Bytes) : Option (Bytes × Nat × Nat × Nat × Nat × Nat) := (loadMz f 0x1000).map fun i => (i.mem, i.owned, i.cs, i.ip, i.ss, i.sp)

example : (rwHuge false true [] 0xFFFFFFFF isort sample third).toOption.bind dosOf = some ([0x90, 0x90, 0xC3, 0xCC, 0xC3, 9, 0, 0, 1, 2, 3], 2051, 0x1000, 2, 0x1002, 32768) ∧
    (rwHuge true true [5, 6] 0x2000 isort sample third).toOption.bind dosOf = some ([0x90, 0x90, 0xC3, 0xCC, 0xC3, 0, 0, 0, 5, 6, 9, 0, 1, 2, 3], 515, 0x1000, 2, 0x1002, 8192) ∧
    (rwSmall true 0xFFFFFFFF isort sample third).toOption.bind dosOf =
      some ([0x90, 0x90, 0xC3, 0xCC, 0xC3] ++ List.replicate 11 0xCC ++ [0x4E, 0x55, 0x4C, 0x4C, 9, 0, 0, 0, 1, 2, 3], 4098, 0x0FFC, 66, 0x1001, 0xFFFC) :=
  ⟨by decide +kernel, by decide +kernel, by decide +kernel⟩

/-- code and a table that wants an alignment of two pages -/
def wide : List Sec := [⟨str ".text", true, aText, 1, 1, [0xC3]⟩, ⟨str ".data", true, aData, 8192, 1, [7]⟩]

/-- The linker limits the alignments of sections for the other formats with pages but not for a.out: with a data section that is aligned to two pages, the text and data that the header describes end where
the section starts, so that it is not loaded. -/
theorem c53_aout_defect : ∃ file ds st p, Objects wide ∧ rwAout true isort wide third (fun _ => ([], [])) = .ok file ∧ layout (aoutCfg true) isort wide = .ok (ds, st) ∧ p ∈ st.placed ∧
    contents p.sec = [7] ∧ u32 file 4 + u32 file 8 + u32 file 12 ≤ p.addr := by
  cases h : rwAout true isort wide third (fun _ => ([], [])) with
  | error e =>
    have : (rwAout true isort wide third (fun _ => ([], []))).toOption.isSome = true := by decide +kernel
    rw [h] at this
    cases this
  | ok file =>
    cases hl : layout (aoutCfg true) isort wide with
    | error e =>
      have : (layout (aoutCfg true) isort wide).toOption.isSome = true := by decide +kernel
      rw [hl] at this
      cases this
    | ok x =>
      have h1 : (rwAout true isort wide third (fun _ => ([], []))).toOption.map (fun f => u32 f 4 + u32 f 8 + u32 f 12) = some 8192 := by decide +kernel
      have h2 : (layout (aoutCfg true) isort wide).toOption.map (fun x => x.2.placed.getLast?.map fun p => (contents p.sec, p.addr)) = some (some ([7], 8192)) := by decide +kernel
      rw [h] at h1
      rw [hl] at h2
      have h1 := Option.some.inj h1
      have h2 := Option.some.inj h2
      obtain ⟨p, hp, hpe⟩ := Option.map_eq_some_iff.1 h2
      injection hpe with hp1 hp2
      exact ⟨file, x.1, x.2, p, ⟨by decide, by decide⟩, rfl, rfl, List.mem_of_getLast? hp, hp1, by rw [hp2]; exact Nat.le_of_eq h1⟩

end Smlr.Exe
