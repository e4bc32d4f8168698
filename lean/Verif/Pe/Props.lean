import Verif.Pe.Hdrs
import Verif.Pe.Accept
import Verif.Mach.Props
set_option autoImplicit false
/-! C63: programs for Windows are loaded as laid out. -/
namespace Smlr.Pe
open Smlr.Sect
open Smlr.Exe

/-- a section in the image -/
theorem held (f : Bytes) (c : Cfg) (b : Nat) (hc : c.origin = b + 4096) (n : Counts) (ds : List Desc) (st : St) (A R I F E : Nat) (h : Parts (b + 4096) n st A R I) (hE : Ends c n ds st A I F E)
    (hlen : 1024 + (F - (b + 4096)) ≤ f.length) (p : Place) (hp : p ∈ st.placed) (hl : (contents p.sec).length = p.sec.size)
    (hfile : FileA c p.sec.attrs → (f.drop (1024 + (p.addr - (b + 4096)))).take (contents p.sec).length = contents p.sec) :
    ∃ s ∈ shdrs b n A R I F E, (seg f b s).Holds p.addr (contents p.sec) ∧ (seg f b s).r = true ∧ (seg f b s).x = p.sec.attrs.exec ∧ (seg f b s).w = p.sec.attrs.write := by
  have h1 := h.oa
  have h2 := h.ar
  have h3 := h.ri
  have h4 := hE.if_
  have h5 := hE.fe
  have hfin : fin p = p.addr + (contents p.sec).length := by rw [hl]; rfl
  have key : ∀ (nm : Bytes) (fl S T U : Nat), b + 4096 ≤ S → S ≤ U → U ≤ F → FileA c p.sec.attrs → S ≤ p.addr → fin p ≤ U → (seg f b ⟨nm, hd b S T U, fl⟩).Holds p.addr (contents p.sec) := by
    intro nm fl S T U g1 g2 g3 g4 g5 g6
    have hf := hfile g4
    apply seg_holds
    · show b + (S - b) ≤ p.addr; omega
    · show p.addr - (b + (S - b)) + (contents p.sec).length ≤ U - S; omega
    · show 1024 + (S - (b + 4096)) + (U - S) ≤ f.length; omega
    · show (f.drop (1024 + (S - (b + 4096)) + (p.addr - (b + (S - b))))).take _ = _
      rw [show 1024 + (S - (b + 4096)) + (p.addr - (b + (S - b))) = 1024 + (p.addr - (b + 4096)) by omega]
      exact hf
  rcases h.where_ p hp with ⟨k1, k2, k3⟩ | ⟨k0, k1, k2, k3⟩ | ⟨k0, k1, k2, k3⟩ | ⟨k0, k1, k1', k2⟩
  · refine ⟨⟨str ".text", hd b (b + 4096) A A, 0x60000020⟩, by simp [shdrs], key _ _ _ _ _ (Nat.le_refl _) h1 (by omega) (.inl (by rw [k1])) k2 k3, by simp [seg], ?_, ?_⟩
    · rw [k1]; simp [seg]
    · rw [k1]; simp [seg]
  · refine ⟨⟨str ".rdata", hd b A R R, 0x40000040⟩, by simp [shdrs, k0], key _ _ _ _ _ h1 h2 (by omega) (.inl (by rw [k1])) k2 k3, by simp [seg], ?_, ?_⟩
    · rw [k1]; simp [seg]
    · rw [k1]; simp [seg]
  · refine ⟨⟨str ".idata", hd b R I I, 0xc0000040⟩, by simp [shdrs, k0], key _ _ _ _ _ (by omega) h3 (by omega) (.inl (by rw [k1])) k2 k3, by simp [seg], ?_, ?_⟩
    · rw [k1]; simp [seg]
    · rw [k1]; simp [seg]
  · refine ⟨⟨str ".data", hd b I E F, 0xc0000040⟩, by simp [shdrs, k0], ?_, by simp [seg], ?_, ?_⟩
    · by_cases hfa : FileA c p.sec.attrs
      · exact key _ _ _ _ _ (by omega) h4 (Nat.le_refl _) hfa k2 (hE.file p hp hfa)
      · have hz := hE.zeros p hp hfa
        have he := hE.all p hp
        have hmE := hE.modE
        have hmI := h.modI
        have hpg : pages (E - I) = E - I := by unfold pages; omega
        have hcon : contents p.sec = List.replicate p.sec.size 0 := by
          unfold contents
          rw [(noFile_of c _ hfa).1]
          rfl
        rw [hcon]
        apply seg_zeros
        · show b + (I - b) + (F - I) ≤ p.addr; omega
        · show p.addr + p.sec.size ≤ b + (I - b) + pages (E - I)
          unfold fin at he
          omega
        · show 1024 + (I - (b + 4096)) + (F - I) ≤ f.length; omega
        · show F - I ≤ pages (E - I); omega
    · rw [k1]; simp [seg]
    · rw [k1']; simp [seg]

/-- where a section is in the file -/
def place (org : Nat) (p : Place) : Nat := 1024 + (p.addr - (base org + 4096))

/-- **C63.** The PE file that the linker writes is loaded by Windows with every section at its address, its contents as they must be (unless the import tables are made relative there), with the
right access; the program starts at the entry point; if it has no relocation table, it says so, and if it has one, it may be loaded elsewhere and the table is in the image where the
headers say.  Missing from the full claim: the image base must be a multiple of 64 KB, there may be no sections without contents among the import tables when sections without contents are
in the file, and the program must leave the end of the address space free. -/
theorem c63_pe_partial (useBss : Bool) (org : Nat) (sort : List Desc → List Desc) (ss : List Sec) (entry : Entry) (im : List Desc → St → Imports) (relocs : Option (List Desc → St → List Nat))
    (file : Bytes) (hs : Sorts sort) (ho : Objects ss) (hor : org < 2 ^ 32) (h64 : org = 0xFFFFFFFF ∨ org % 65536 < 4096)
    (hdll : useBss = false → ∀ s ∈ ss, s.alloc = true → s.attrs.nobits = true → ¬ str ".dll_" <+: s.name)
    (hroom : ∀ ds st, layout (cfg useBss org) sort ss = .ok (ds, st) → ∀ p ∈ st.placed, p.addr + p.sec.size + 16384 + 12 * (relocs.elim 0 (fun l => (l ds st).length)) ≤ 2 ^ 32)
    (hrel : ∀ ds st l, layout (cfg useBss org) sort ss = .ok (ds, st) → relocs = some l → ∀ a ∈ l ds st, a < 2 ^ 32)
    (him : ∀ ds st, layout (cfg useBss org) sort ss = .ok (ds, st) → ∀ w ∈ (im ds st).writes, 1024 ≤ w.1 ∧ w.1 + w.2.length ≤ 1024 + st.out.length)
    (h : rwPe useBss org sort ss entry im relocs = .ok file) :
    ∃ ds st e img, layout (cfg useBss org) sort ss = .ok (ds, st) ∧ entry ds st = .ok e ∧ load file = some img ∧ img.base = base org ∧ img.entry = e.toNat ∧ Separate img.segs ∧
      (∀ p ∈ st.placed, Clear (im ds st).writes (place org p) p.sec.size →
        ∃ s ∈ img.segs, s.Holds p.addr (contents p.sec) ∧ s.r = true ∧ s.x = p.sec.attrs.exec ∧ s.w = p.sec.attrs.write) ∧
      (relocs = none → img.fixed = true) ∧
      (∀ l, relocs = some l → img.fixed = false ∧ img.dynamic = true ∧ ∃ T s, Fixup.listed T = some (l ds st) ∧ img.relocs.2 = T.length ∧ s ∈ img.segs ∧ s.Holds (base org + img.relocs.1) T ∧ s.r = true) ∧
      img.imports = ((im ds st).imports.1 % 2 ^ 32, (im ds st).imports.2 % 2 ^ 32) ∧ img.iats = ((im ds st).iats.1 % 2 ^ 32, (im ds st).iats.2 % 2 ^ 32) := by
  unfold rwPe at h
  split at h
  · cases h
  · rename_i hbase
    have hb16 : base org % 65536 = 0 := by
      unfold base down
      split <;> omega
    have hbm : base org % 4096 = 0 := by omega
    cases hpr : prepare (cfg useBss org) sort ss entry with
    | error e => rw [hpr] at h; cases h
    | ok x =>
    obtain ⟨ds, st, e⟩ := x
    obtain ⟨hl, he⟩ := prepare_ok _ _ _ _ _ _ _ hpr
    rw [hpr] at h
    simp only at h
    cases hn : counts ds with
    | error e => rw [hn] at h; cases h
    | ok n =>
    rw [hn] at h
    simp only at h
    have hc0 : (cfg useBss org).origin = base org + 4096 := rfl
    have hw : WF (cfg useBss org) ss := ⟨by rw [hc0]; omega, (by intro h; cases h), (show 0 < 2 ^ 32 by decide), ho.sizes⟩
    have hu : Uniform (cfg useBss org) ss := uniform_of _ _ ho (by intro h; cases h)
    have hF : Facts (cfg useBss org) (cfg useBss org).useBss ds st := facts _ sort ss ds st hs hw hu (by intro h; cases h) hl
    have hroom := hroom _ _ hl
    have him := him _ _ hl
    obtain ⟨hhd, A, R, I, hP⟩ := parts (cfg useBss org) rfl sort ss ds st n hs hw hu (by rw [hc0]; omega) hl hn hdll
    obtain ⟨F, E, hE⟩ := ends (cfg useBss org) rfl n ds st A R I hP hF hhd (by rw [hc0]; omega) (fun p hp => by have := hroom p hp; unfold fin; omega)
    rw [hc0] at hP
    rw [sections_eq useBss org n ds st A R I F E hbm hP hE] at h
    simp only at h
    have hlen := length_of _ sort ss ds st hs hw hu hl
    obtain ⟨ph, hi, -⟩ := hF.inv
    have hns : (cfg useBss org).fmt ≠ .dosExeSmall := by intro h; cases h
    obtain ⟨hsd, hsd'⟩ : ∃ x, x = shdrs (base org) n A R I F E := ⟨_, rfl⟩
    obtain ⟨o, ho'⟩ : ∃ x, x = opt (base org) e st n (im ds st) := ⟨_, rfl⟩
    rw [← hsd', ← ho'] at h
    have hnm : ∀ s ∈ hsd, s.name.length ≤ 8 := by rw [hsd']; exact shdrs_name _ _ _ _ _ _ _
    have hn4 : hsd.length ≤ 4 := by rw [hsd']; exact shdrs_len' _ _ _ _ _ _ _
    have hhl := header_len o 0x30F hsd hnm (by omega)
    have hFl := hE.len
    rw [hc0] at hFl
    have q1 := hP.oa
    have q2 := hP.ar
    have q3 := hP.ri
    have q4 := hE.if_
    have q5 := hE.fe
    have q6 := hE.ltE
    have q7 := hE.modE
    have q8 := hE.modF
    have hel := e.toNat_lt
    -- what the import tables change
    obtain ⟨f1, hf1⟩ : ∃ x, x = (im ds st).writes.foldl patch (header o 0x30F hsd ++ st.out) := ⟨_, rfl⟩
    rw [← hf1] at h
    obtain ⟨w1, w2⟩ := patches (im ds st).writes (header o 0x30F hsd ++ st.out) (fun w hw => by rw [List.length_append, hhl]; exact (him w hw).2)
    rw [← hf1] at w1
    rw [← hf1] at w2
    rw [List.length_append, hhl] at w1
    have hsplit : f1 = header o 0x30F hsd ++ f1.drop 1024 := by
      have e1 := w2 0 1024 (fun w hw => .inl (him w hw).1)
      rw [List.drop_zero, List.drop_zero, ← hhl, List.take_left] at e1
      rw [hhl] at e1
      conv => lhs; rw [← List.take_append_drop 1024 f1]
      rw [e1]
    have hcont : ∀ p ∈ st.placed, FileA (cfg useBss org) p.sec.attrs → Clear (im ds st).writes (place org p) p.sec.size →
        (f1.drop (1024 + (p.addr - (base org + 4096)))).take (contents p.sec).length = contents p.sec ∧ 1024 + (p.addr - (base org + 4096)) + (contents p.sec).length ≤ f1.length := by
      intro p hp hfa hcl
      obtain ⟨g1, g2, g3⟩ := in_file _ st ph hi hns p hp hfa (hlen p hp)
      rw [hc0] at g1 g2 g3
      refine ⟨?_, by omega⟩
      rw [w2 _ _ (by rw [hlen p hp]; exact hcl), ← List.drop_drop, ← hhl, List.drop_left]
      exact g3
    have ob : o.base = base org := by rw [ho']; rfl
    have oe : (base org + o.entry % 2 ^ 32) % 2 ^ 32 = e.toNat := by
      rw [ho']
      show (base org + sub32 e.toNat (base org) % 2 ^ 32) % 2 ^ 32 = e.toNat
      unfold sub32
      omega
    have os : o.size = E - base org := by
      rw [ho']
      show sub32 (stop n st) (base org) = _
      rw [hE.stop]
      unfold sub32
      omega
    have ofl : o.flags = 0 := by rw [ho']; rfl
    have himp : (o.imports.1 % 2 ^ 32, o.imports.2 % 2 ^ 32) = ((im ds st).imports.1 % 2 ^ 32, (im ds st).imports.2 % 2 ^ 32) ∧
        (o.iats.1 % 2 ^ 32, o.iats.2 % 2 ^ 32) = ((im ds st).iats.1 % 2 ^ 32, (im ds st).iats.2 % 2 ^ 32) := by
      rw [ho']
      exact ⟨rfl, rfl⟩
    have fit : ∀ f : Bytes, f1.length ≤ f.length → Fit f 4096 hsd (E - base org) := by
      intro f hf
      rw [hsd']
      exact shdrs_fit f (base org) n A R I F E hbm q1 q2 q3 q4 q5 q6 hP.modA hP.modR hP.modI q8 q7 (by omega) hP.noRo hP.noImp hE.noData
    obtain ⟨sl, hsl1, hsl2⟩ := shdrs_last (base org) n A R I F E q1 q2 q3 (by omega) hP.noRo hP.noImp hE.noData
    rw [← hsd'] at hsl1
    refine ⟨ds, st, e, ?_⟩
    cases hrl : relocs with
    | none =>
      rw [hrl] at h
      injection h with h
      subst h
      have hload := load_ok f1 o 0x30F hsd (f1.drop 1024) (E - base org) hsplit (by omega) (by decide) (by decide) (by decide) (by rw [ob]; exact hb16) (by rw [ob]; omega) os (by rw [ob]; omega) (by omega)
        (fit f1 (Nat.le_refl _)) (by omega)
      rw [ob, oe] at hload
      refine ⟨_, hl, he, hload, rfl, rfl, fit_separate f1 _ hbm hsd _ _ (by decide) (fit f1 (Nat.le_refl _)), ?_, (fun _ => show decide (783 % 2 = 1) = true by decide), (fun l hl => by cases hl), himp⟩
      intro p hp hcl
      obtain ⟨s, t1, t2⟩ := held f1 _ (base org) hc0 n ds st A R I F E hP hE (by omega) p hp (hlen p hp) (fun hfa => (hcont p hp hfa hcl).1)
      rw [← hsd'] at t1
      exact ⟨_, List.mem_map_of_mem t1, t2⟩
    | some l =>
      rw [hrl] at h hroom
      simp only at h
      have hll : ∃ p ∈ st.placed, E = pg (fin p) := hE.last
      obtain ⟨pl, hpl, hpE⟩ := hll
      have hr := hroom pl hpl
      have hr : fin pl + 16384 + 12 * (l ds st).length ≤ 2 ^ 32 := hr
      have hEr : E + 12288 + 12 * (l ds st).length < 2 ^ 32 + 1 := by rw [hpE]; unfold pg; omega
      obtain ⟨T, z, ht, hT, hli, hz1, hz2, hTl⟩ := Fixup.table_ok f1 (l ds st) (hrel ds st l hl hrl) (by rw [w1]; omega)
      rw [ht, hsl1] at h
      simp only at h
      rw [hsplit] at h
      have hdl : (header o 0x30F hsd ++ f1.drop 1024).length = f1.length := by rw [← hsplit]
      rw [hdl, List.append_assoc, List.append_assoc, reheader_eq o hsd sl.h _ _ _ hn4 hnm] at h
      injection h with h
      obtain ⟨r, hrr⟩ : ∃ x, x = relocHdr sl.h T.length f1.length := ⟨_, rfl⟩
      obtain ⟨o2, ho2⟩ : ∃ x, x = optReloc o r.h T.length := ⟨_, rfl⟩
      rw [← hrr, ← ho2] at h
      have hup : up512 T.length = T.length + z := by unfold up512; omega
      have r1 : r.h = ⟨T.length + z, E - base org, T.length + z, f1.length⟩ := by
        rw [hrr]
        unfold relocHdr
        simp only [hup]
        rw [hsl2, Nat.mod_eq_of_lt (by omega)]
      have rn : r.name.length ≤ 8 := by rw [hrr]; show (str ".reloc").length ≤ 8; decide
      have rf : r.flags = 0x42000040 := by rw [hrr]; rfl
      have hnm2 : ∀ s ∈ hsd ++ [r], s.name.length ≤ 8 := by
        intro s hs
        rcases List.mem_append.1 hs with hs | hs
        · exact hnm s hs
        · rw [List.mem_singleton.1 hs]; exact rn
      have hn5 : (hsd ++ [r]).length ≤ 5 := by rw [List.length_append, List.length_singleton]; omega
      have hhl2 := header_len o2 0x30E (hsd ++ [r]) hnm2 hn5
      have hflen : file.length = f1.length + T.length + z := by
        rw [← h, List.length_append, hhl2, List.length_append, List.length_append, List.length_drop, List.length_replicate]
        omega
      have hdrop : file.drop 1024 = f1.drop 1024 ++ (T ++ List.replicate z 0) := by
        rw [← h, ← hhl2, List.drop_left]
      have hpgs : pages (T.length + z) < 2 ^ 32 ∧ T.length + z ≤ pages (T.length + z) ∧ pages (T.length + z) < T.length + z + 4096 ∧ pages (T.length + z) % 4096 = 0 := by unfold pages; omega
      have ob2 : o2.base = base org := by rw [ho2]; exact ob
      have oe2 : (base org + o2.entry % 2 ^ 32) % 2 ^ 32 = e.toNat := by rw [ho2]; exact oe
      have os2 : o2.size = E - base org + pages (T.length + z) := by
        rw [ho2]
        show up ((o.size + r.h.vsize) % 2 ^ 32) = _
        rw [os, r1]
        show up ((E - base org + (T.length + z)) % 2 ^ 32) = _
        unfold up down pages
        omega
      have of2 : o2.flags = 0x40 := by
        rw [ho2]
        show o.flags ||| 0x40 = 0x40
        rw [ofl]
        rfl
      have or2 : o2.relocs = (E - base org, T.length) := by
        rw [ho2]
        show (r.h.va, T.length) = _
        rw [r1]
      have fit2 : Fit file 4096 (hsd ++ [r]) (E - base org + pages (T.length + z)) := by
        refine fit_append file _ _ _ _ _ (fit file (by omega)) ?_
        refine ⟨by rw [r1], ?_, ?_, ?_, ?_, rn, ?_, ?_, ?_, ?_, by rw [rf]; decide, ?_⟩
        · rw [r1]; exact hz2
        · rw [r1]; show f1.length % 512 = 0; omega
        · rw [r1]; show f1.length + (T.length + z) ≤ file.length; omega
        · rw [r1]; exact hpgs.2.1
        · rw [r1]; show E - base org < 2 ^ 32; omega
        · rw [r1]; show T.length + z < 2 ^ 32; omega
        · rw [r1]; show T.length + z < 2 ^ 32; omega
        · rw [r1]; show f1.length < 2 ^ 32; omega
        · rw [r1]; rfl
      have hload := load_ok file o2 0x30E (hsd ++ [r]) _ _ h.symm hn5 (by decide) (by decide) (by decide) (by rw [ob2]; exact hb16) (by rw [ob2]; omega) os2 (by rw [ob2]; omega) (by omega) fit2 (by omega)
      rw [ob2, oe2, of2, or2] at hload
      refine ⟨_, hl, he, hload, rfl, rfl, fit_separate file _ hbm _ _ _ (by decide) fit2, ?_, (fun h => by cases h), ?_, by rw [ho2]; exact himp⟩
      · intro p hp hcl
        obtain ⟨s, t1, t2⟩ := held file _ (base org) hc0 n ds st A R I F E hP hE (by omega) p hp (hlen p hp) (by
          intro hfa
          obtain ⟨u1, u2⟩ := hcont p hp hfa hcl
          rw [← List.drop_drop] at u1 ⊢
          rw [hdrop, List.drop_append_of_le_length (by rw [List.length_drop]; omega), List.take_append_of_le_length (by rw [List.length_drop, List.length_drop]; omega)]
          exact u1)
        rw [← hsd'] at t1
        exact ⟨_, List.mem_map_of_mem (List.mem_append_left _ t1), t2⟩
      · intro l' hl'
        injection hl' with hl'
        subst hl'
        refine ⟨show decide (782 % 2 = 1) = false by decide, show decide (64 % 65536 / 64 % 2 = 1) = true by decide, T, seg file (base org) r, hli, ?_, List.mem_map_of_mem (by simp), ?_, ?_⟩
        · exact Nat.mod_eq_of_lt (by omega)
        · show (seg file (base org) r).Holds (base org + (E - base org) % 2 ^ 32) T
          rw [Nat.mod_eq_of_lt (by omega)]
          apply seg_holds
          · rw [r1]; exact Nat.le_refl _
          · rw [r1]
            show base org + (E - base org) - (base org + (E - base org)) + T.length ≤ T.length + z
            omega
          · rw [r1]; show f1.length + (T.length + z) ≤ file.length; omega
          · rw [r1]
            show (file.drop (f1.length + (base org + (E - base org) - (base org + (E - base org))))).take T.length = T
            rw [Nat.sub_self, Nat.add_zero, show f1.length = 1024 + (f1.drop 1024).length by rw [List.length_drop]; omega, ← List.drop_drop, hdrop, List.drop_left, List.take_left]
        · show decide (r.flags / 2 ^ 30 % 2 = 1) = true
          rw [rf]
          decide

/-- No program is refused whose layout and entry point are accepted (C32) and that leaves the end of the address space free, if its sections without contents are writable. -/
theorem c63_accepts (useBss : Bool) (org : Nat) (sort : List Desc → List Desc) (ss : List Sec) (entry : Entry) (im : List Desc → St → Imports) (relocs : Option (List Desc → St → List Nat))
    (hs : Sorts sort) (ho : Objects ss) (hb : base org < 0xFFFFF000) (hbss : ∀ s ∈ ss, s.alloc = true → s.attrs.nobits = true → s.attrs.write = true)
    (hdll : useBss = false → ∀ s ∈ ss, s.alloc = true → s.attrs.nobits = true → ¬ str ".dll_" <+: s.name) (ds : List Desc) (st : St) (e : UInt32)
    (hl : layout (cfg useBss org) sort ss = .ok (ds, st)) (he : entry ds st = .ok e) (hroom : ∀ p ∈ st.placed, p.addr + p.sec.size + 8192 ≤ 2 ^ 32) :
    ∃ file, rwPe useBss org sort ss entry im relocs = .ok file := by
  have hbm : base org % 4096 = 0 := by
    unfold base down
    split <;> omega
  have hc0 : (cfg useBss org).origin = base org + 4096 := rfl
  have hw : WF (cfg useBss org) ss := ⟨by rw [hc0]; omega, (by intro h; cases h), (show 0 < 2 ^ 32 by decide), ho.sizes⟩
  have hu : Uniform (cfg useBss org) ss := uniform_of _ _ ho (by intro h; cases h)
  have hF : Facts (cfg useBss org) (cfg useBss org).useBss ds st := facts _ sort ss ds st hs hw hu (by intro h; cases h) hl
  obtain ⟨hf, -⟩ := layout_ok _ sort ss ds st hs hw hu hl
  have husual : ∀ d ∈ ds, Usual d := by
    intro d hd
    refine ⟨hf.exec d hd, fun hn => ?_⟩
    rcases hf.only d hd with ⟨s, h1, h2, -, h4⟩ | ⟨h, -⟩
    · rw [← h4] at hn ⊢
      exact hbss s h1 h2 hn
    · cases h
  obtain ⟨n, hn⟩ := counts_some ds husual (hf.sorted.imp_of_mem (fun ha hb hab => rank_le _ _ (husual _ ha) (husual _ hb) hab (strcmp_zero _ _).1)) hf.first
  obtain ⟨hhd, A, R, I, hP⟩ := parts (cfg useBss org) rfl sort ss ds st n hs hw hu (by rw [hc0]; omega) hl hn hdll
  obtain ⟨F, E, hE⟩ := ends (cfg useBss org) rfl n ds st A R I hP hF hhd (by rw [hc0]; omega) (fun p hp => hroom p hp)
  rw [hc0] at hP
  have hsec := sections_eq useBss org n ds st A R I F E hbm hP hE
  have hpr : prepare (cfg useBss org) sort ss entry = .ok (ds, st, e) := by
    unfold prepare
    rw [hl]
    simp only
    rw [he]
  unfold rwPe
  rw [if_neg (by omega), hpr]
  simp only
  rw [hn]
  simp only
  rw [hsec]
  simp only
  cases relocs with
  | none => exact ⟨_, rfl⟩
  | some l => exact ⟨_, rfl⟩

end Smlr.Pe
